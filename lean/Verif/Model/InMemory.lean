import Verif.Spec.EventLog

/-!
# Model of provider/inmemorystore/inmemory_store.go

The store's mutex-protected sections are atomic functions on the state. `mux` itself is modelled by
`locked`: it becomes `true` when a panic leaves `saveEvents` without unlocking, and then every later
call blocks. Iterators hold the read lock until they are drained or cancelled
(inmemory_store.go:138-140), so the whole iteration sees one state; `Verif/Model/Lock.lean` models
that queueing.
-/

namespace RangeDB.IM

/-- `inMemoryStore` (inmemory_store.go:23-36). Go maps are functions to `Option` (absent = `none`);
slices are lists. -/
structure State where
  /-- `globalSequenceNumber` -/
  gsn : Nat
  /-- `records` -/
  records : List Nat
  /-- `streams` -/
  streams : Str → Option (List Nat)
  /-- `aggregateTypes` -/
  aggTypes : Str → Option (List Nat)
  /-- `recordData` -/
  data : Nat → Option Str
  /-- the mutex is held by a goroutine that will never release it -/
  locked : Bool

/-- `New` (inmemory_store.go:70-87). -/
def init : State := ⟨0, [], fun _ => none, fun _ => none, fun _ => none, false⟩

/-- `m[k] = v` for a Go map. -/
def setMap {κ α : Type} [DecidableEq κ] (m : κ → Option α) (k : κ) (v : Option α) : κ → Option α :=
  fun k' => if k' = k then v else m k'

/-- Indexing a Go map of slices: an absent key reads as the nil slice. -/
def get (m : Str → Option (List Nat)) (k : Str) : List Nat := (m k).getD []

/-- `getStreamSequenceNumber` (inmemory_store.go:397-399). -/
def streamSeq (s : State) (stream : Str) : Nat := (get s.streams stream).length

/-- `saveEvent` (inmemory_store.go:301-342). Returns the new state and either an error or the
serialized bytes with the record. Note that the counter is already incremented when serialization
fails (lines 315, 331-334). -/
def saveEvent (z : Serializer) (s : State) (stream : Str) (expected : Option Nat)
    (er : EventRecord) : State × Except Err (Str × Record) :=
  let streamSequenceNumber := streamSeq s stream
  match expected with
  | some e =>
    if e ≠ streamSequenceNumber then (s, .error (.unexpected e streamSequenceNumber))
    else store z s stream streamSequenceNumber er
  | none => store z s stream streamSequenceNumber er
where
  /-- inmemory_store.go:315-341 -/
  store (z : Serializer) (s : State) (stream : Str) (streamSequenceNumber : Nat) (er : EventRecord) :
      State × Except Err (Str × Record) :=
    let gsn := s.gsn + 1
    let record := mkRecord stream gsn (streamSequenceNumber + 1) er
    let s1 := { s with gsn := gsn }
    match z.ser record with
    | none => (s1, .error .serialize)
    | some data =>
      ({ s1 with
          records := s1.records ++ [gsn]
          data := setMap s1.data gsn (some data)
          streams := setMap s1.streams stream (some (get s1.streams stream ++ [gsn]))
          aggTypes := setMap s1.aggTypes er.event.aggType
            (some (get s1.aggTypes er.event.aggType ++ [gsn])) },
        .ok (data, record))

/-- `rTrimFromUint64Slice` (inmemory_store.go:359-361); `none` is the slice-bounds panic. -/
def rTrim (slice : List Nat) (total : Nat) : Option (List Nat) :=
  if total ≤ slice.length then some (slice.take (slice.length - total)) else none

/-- `removeRecentEvents` (inmemory_store.go:344-357). The boolean is `true` if it panics; the state
then holds the assignments made before the panic. `stream` is computed from the aggregate type and ID,
not from the stream name of the call (line 345). -/
def removeRecentEvents (s : State) (gsns : List Nat) (aggType aggId : Str) : State × Bool :=
  let stream := getStream aggType aggId
  let s1 := { s with data := gsns.foldl (fun d g => setMap d g none) s.data }
  let total := gsns.length
  let s2 := { s1 with gsn := s1.gsn - total }
  match rTrim s2.records total with
  | none => (s2, true)
  | some records =>
    let s3 := { s2 with records := records }
    match rTrim (get s3.streams stream) total with
    | none => (s3, true)
    | some l =>
      let s4 := { s3 with streams := setMap s3.streams stream (some l) }
      match rTrim (get s4.aggTypes aggType) total with
      | none => (s4, true)
      | some l => ({ s4 with aggTypes := setMap s4.aggTypes aggType (some l) }, false)

/-- The loop of `saveEvents` (inmemory_store.go:238-285). `prev` holds the values of the variables
`aggregateType`, `aggregateID` (both `""` before the first event); `created`, `pending`, `last` are
`createdGlobalSequenceNumbers`, `pendingEventsData`, `lastStreamSequenceNumber`. -/
def saveLoop (z : Serializer) (stream : Str) (cancelAt : Option Nat) :
    (i : Nat) → State → (prevType prevId : Str) → (expected : Option Nat) →
    (created : List Nat) → (pending : List Str) → (last : Nat) → List EventRecord →
    State × Outcome (Nat × List Str)
  | _, s, _, _, _, _, pending, last, [] => (s, .ok (last, pending))
  | i, s, prevType, prevId, expected, created, pending, _, er :: ers =>
    if prevType ≠ [] ∧ prevType ≠ er.event.aggType then (s, .err .unmatchedType)
    else if prevId ≠ [] ∧ prevId ≠ er.event.aggId then (s, .err .unmatchedId)
    else if ctxDone cancelAt i then (s, .err .canceled)
    else
      match saveEvent z s stream expected er with
      | (s1, .error e) =>
        match removeRecentEvents s1 created er.event.aggType er.event.aggId with
        | (s2, true) => ({ s2 with locked := true }, .panic)
        | (s2, false) => (s2, .err e)
      | (s1, .ok (data, record)) =>
        saveLoop z stream cancelAt (i + 1) s1 er.event.aggType er.event.aggId
          (expected.map (· + 1)) (created ++ [record.gsn]) (pending ++ [data]) record.seq ers

/-- Result of a save: new state, outcome, and the records handed to the broadcaster. -/
structure SaveResult where
  state : State
  out : Outcome Nat
  broadcast : List Record

/-- `saveEvents` (inmemory_store.go:226-298), called by `Save` (`expected = none`, line 221) and
`OptimisticSave` (line 217). Records that fail to deserialize are logged and not broadcast
(lines 288-295). -/
def saveEvents (z : Serializer) (s : State) (stream : Str) (expected cancelAt : Option Nat)
    (ers : List EventRecord) : SaveResult :=
  if ers.length < 1 then ⟨s, .err .missingEvents, []⟩
  else if s.locked then ⟨s, .blocked, []⟩
  else
    match saveLoop z stream cancelAt 0 s [] [] expected [] [] 0 ers with
    | (s', .ok (last, pending)) => ⟨s', .ok last, pending.filterMap z.deser⟩
    | (s', .err e) => ⟨s', .err e, []⟩
    | (s', .panic) => ⟨s', .panic, []⟩
    | (s', .blocked) => ⟨s', .blocked, []⟩

/-- `RemoveIndex` (inmemory_store.go:213-215) on a slice of length `len` with backing array `arr`:
`append(s[:index], s[index+1:]...)` shifts the tail left *in place*. Returns the new backing array and
length; `none` is the slice-bounds panic. -/
def removeIndex (arr : List Nat) (len index : Nat) : Option (List Nat × Nat) :=
  if index + 1 ≤ len then
    some (arr.take index ++ ((arr.take len).drop (index + 1) ++ arr.drop (len - 1)), len - 1)
  else none

/-- The loop `for i, g := range s { if g == x { s = RemoveIndex(s, i) } }`
(inmemory_store.go:192-197 and 200-204). Go evaluates the range expression once, so the loop visits
all original indices and reads the backing array that `RemoveIndex` is shifting. `todo` is the number
of indices still to visit. -/
def rangeRemove (x : Nat) : (todo i : Nat) → (arr : List Nat) → (len : Nat) → Option (List Nat × Nat)
  | 0, _, arr, len => some (arr, len)
  | todo + 1, i, arr, len =>
    if arr[i]? = some x then
      match removeIndex arr len i with
      | none => none
      | some (arr', len') => rangeRemove x todo (i + 1) arr' len'
    else rangeRemove x todo (i + 1) arr len

/-- The slice that variable holds after the loop. -/
def removeAll (x : Nat) (slice : List Nat) : Option (List Nat) :=
  (rangeRemove x slice.length 0 slice slice.length).map (fun p => p.1.take p.2)

/-- One round of the outer loop of `OptimisticDeleteStream` (inmemory_store.go:191-206): remove global
number `x` from `records` (and its data, line 195) and from every aggregate type. The boolean reports
a slice-bounds panic in `records`. Simplification: a panic while updating an aggregate type (possible
only if that slice lists a number twice) is not reported and leaves that slice unchanged; the Go map's
random iteration order is irrelevant because the entries are updated independently. -/
def deleteOne (s : State) (x : Nat) : State × Bool :=
  match removeAll x s.records with
  | none => (s, true)
  | some records =>
    ({ s with
        records := records
        data := if x ∈ s.records then setMap s.data x none else s.data
        aggTypes := fun t => (s.aggTypes t).map (fun l => (removeAll x l).getD l) }, false)

/-- The outer loop (inmemory_store.go:191-206). -/
def deleteLoop (s : State) : List Nat → State × Bool
  | [] => (s, false)
  | x :: xs =>
    match deleteOne s x with
    | (s', true) => (s', true)
    | (s', false) => deleteLoop s' xs

/-- `OptimisticDeleteStream` (inmemory_store.go:168-211). A key that is present with an empty slice
counts as existing (line 179 looks only at presence). -/
def deleteStream (s : State) (stream : Str) (expected : Nat) (cancelled : Bool) :
    State × Outcome Unit :=
  if cancelled then (s, .err .canceled)
  else if s.locked then (s, .blocked)
  else
    match s.streams stream with
    | none => (s, .err .notFound)
    | some gsns =>
      if expected ≠ gsns.length then (s, .err (.unexpected expected gsns.length))
      else
        match deleteLoop s gsns with
        | (s', true) => (s', .panic)
        | (s', false) => ({ s' with streams := setMap s'.streams stream none }, .ok ())

/-- `recordsByIDs` (inmemory_store.go:135-166), run to its end by a reader that drains it.
`cancelAt` counts the records published so far: `PublishRecordOrCancel` sends an error instead of the
record from then on. Simplification: a read of a store that is `locked` waits for ever at `RLock` (lines 94, 103, 109,
123); here it yields what it would read if it got the lock. The theorems on reads are about histories without that
panic, or say what is read if the store is not `locked`. -/
def recordsByIDs (z : Serializer) (s : State) (cancelAt : Option Nat) (keep : Record → Bool) :
    (published : Nat) → List Nat → Iter
  | _, [] => ⟨[], none⟩
  | n, id :: ids =>
    match s.data id with
    | none => ⟨[], some .recordMissing⟩
    | some data =>
      match z.deser data with
      | none => ⟨[], some .deserialize⟩
      | some record =>
        if keep record then
          if ctxDone cancelAt n then ⟨[], some .canceled⟩
          else
            let rest := recordsByIDs z s cancelAt keep (n + 1) ids
            ⟨record :: rest.recs, rest.err⟩
        else recordsByIDs z s cancelAt keep n ids

/-- `Events` (inmemory_store.go:93-99). -/
def events (z : Serializer) (s : State) (cancelAt : Option Nat) (g : Nat) : Iter :=
  recordsByIDs z s cancelAt (fun r => r.gsn ≥ g) 0 s.records

/-- `EventsByStream` (inmemory_store.go:122-133). -/
def eventsByStream (z : Serializer) (s : State) (cancelAt : Option Nat) (n : Nat) (stream : Str) : Iter :=
  if (s.streams stream).isNone ∨ (get s.streams stream).length = 0 then ⟨[], some .notFound⟩
  else recordsByIDs z s cancelAt (fun r => r.seq ≥ n) 0 (get s.streams stream)

/-- The iterator that `EventsByAggregateTypes` builds for each type (inmemory_store.go:104, 110). -/
def eventsByType (z : Serializer) (s : State) (cancelAt : Option Nat) (g : Nat) (t : Str) : Iter :=
  recordsByIDs z s cancelAt (fun r => r.gsn ≥ g) 0 (get s.aggTypes t)

/-- `TotalEventsInStream` (inmemory_store.go:384-395). -/
def totalEventsInStream (s : State) (stream : Str) (cancelled : Bool) : Outcome Nat :=
  if cancelled then .err .canceled
  else if s.locked then .blocked
  else .ok (get s.streams stream).length

/-- One state-changing call. -/
def step (z : Serializer) (s : State) : Op → State
  | .save stream expected cancelAt ers => (saveEvents z s stream expected cancelAt ers).state
  | .delete stream expected cancelled => (deleteStream s stream expected cancelled).1

/-- A history of calls from the empty store. -/
def run (z : Serializer) (ops : List Op) : State := ops.foldl (step z) init

end RangeDB.IM

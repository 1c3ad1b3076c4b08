import Verif.Base.Types

/-!
# Specification: the abstract event log

This file is the small, independent specification the stores are compared with. It knows nothing of
maps, slices, keys or locks: a store is a list of live records in the order they were saved, plus the
highest global sequence number given out so far.
-/

namespace RangeDB

/-- The abstract event store. -/
structure Log where
  /-- the highest global sequence number given out so far -/
  last : Nat
  /-- the live records, oldest first -/
  recs : List Record

namespace Log

/-- The empty event store. -/
def empty : Log := ⟨0, []⟩

/-- The live records of one stream, oldest first. -/
def stream (L : Log) (name : Str) : List Record := L.recs.filter (fun r => r.streamName = name)

/-- The current stream sequence number: how many events the stream holds. -/
def streamLen (L : Log) (name : Str) : Nat := (L.stream name).length

end Log

/-- The record that the event `er` becomes in stream `stream` under the given numbers. -/
def mkRecord (stream : Str) (gsn seq : Nat) (er : EventRecord) : Record where
  streamName := stream
  aggType := er.event.aggType
  aggId := er.event.aggId
  gsn := gsn
  seq := seq
  ts := er.now
  eventId := er.uuid
  evType := er.event.evType
  data := er.event.data
  metadata := er.metadata

/-- The records a batch becomes: numbered consecutively, the first one `gsn + 1` globally and
`seq + 1` in its stream. -/
def numbered (stream : Str) : (gsn seq : Nat) → List EventRecord → List Record
  | _, _, [] => []
  | gsn, seq, er :: ers =>
    mkRecord stream (gsn + 1) (seq + 1) er :: numbered stream (gsn + 1) (seq + 1) ers

/-- Appending a batch to a stream. `view` is how a serialized record reads back. -/
def Log.append (view : Record → Record) (L : Log) (stream : Str) (ers : List EventRecord) : Log where
  last := L.last + ers.length
  recs := L.recs ++ (numbered stream L.last (L.streamLen stream) ers).map view

/-- Deleting a stream: its records are no longer live; the numbers stay used. -/
def Log.delete (L : Log) (stream : Str) : Log where
  last := L.last
  recs := L.recs.filter (fun r => r.streamName ≠ stream)

/-- Does the event differ from its predecessor in the batch in a field (aggregate type or ID)? An empty
field of the predecessor matches everything. -/
def differs (field : Event → Str) (prev : Option EventRecord) (er : EventRecord) : Bool :=
  match prev with
  | none => false
  | some p => field p.event ≠ [] ∧ field p.event ≠ field er.event

/-- What is wrong with event `er`, the one at index `i` of its batch, if its predecessor in the batch
is `prev`. `accepts` says whether the serializer accepts it; `len` is the current stream sequence
number. The first matching line applies. -/
def problem (accepts : Bool) (len : Nat) (expected cancelAt : Option Nat) (i : Nat)
    (prev : Option EventRecord) (er : EventRecord) : Option Err :=
  if differs Event.aggType prev er then some .unmatchedType
  else if differs Event.aggId prev er then some .unmatchedId
  else if ctxDone cancelAt i then some .canceled
  else match expected with
    | some e => if e ≠ len then some (.unexpected e len)
                else if accepts then none else some .serialize
    | none => if accepts then none else some .serialize

/-- The first problem of a batch, with the index of the event that has it. `ser` is the serializer,
`gsn`, `seq` the numbers preceding the event at index `i`. -/
def firstProblem (ser : Record → Option Str) (stream : Str) (cancelAt : Option Nat) :
    (gsn seq : Nat) → (expected : Option Nat) → (i : Nat) → (prev : Option EventRecord) →
    List EventRecord → Option (Nat × Err)
  | _, _, _, _, _, [] => none
  | gsn, seq, expected, i, prev, er :: ers =>
    match problem (ser (mkRecord stream (gsn + 1) (seq + 1) er)).isSome seq expected cancelAt i prev er with
    | some e => some (i, e)
    | none =>
      firstProblem ser stream cancelAt (gsn + 1) (seq + 1) (expected.map (· + 1)) (i + 1) (some er) ers

/-- The batch problem as seen by a caller: computed from the log before the call. -/
def batchProblem (z : Serializer) (L : Log) (st : Str) (expected cancelAt : Option Nat)
    (ers : List EventRecord) : Option (Nat × Err) :=
  firstProblem z.ser st cancelAt L.last (L.streamLen st) expected 0 none ers

/-- What a failed save of the in-memory store leaves behind: an optimistic-concurrency failure nothing, a serializer failure
a gap of one global number, any other failure the events before the failing one. -/
def afterFail (view : Record → Record) (L : Log) (st : Str) (ers : List EventRecord) (j : Nat) :
    Err → Log
  | .unexpected _ _ => L
  | .serialize => { L with last := L.last + 1 }
  | _ => L.append view st (ers.take j)

/-- The guard under which a failing batch is rolled back correctly: the stream is named after the
aggregate type and ID of the events, or the serializer accepts every event of the batch, or the batch
has one event. -/
def Guarded (z : Serializer) (st : Str) (ers : List EventRecord) : Prop :=
  (∀ er ∈ ers, st = getStream er.event.aggType er.event.aggId) ∨
  (∀ er ∈ ers, ∀ g q, (z.ser (mkRecord st g q er)).isSome) ∨ ers.length ≤ 1

/-- `Guarded` for a whole call. -/
def Op.Guarded (z : Serializer) : Op → Prop
  | .save st _ _ ers => RangeDB.Guarded z st ers
  | .delete _ _ _ => True

/-- The log after one call of the in-memory store. -/
def specStep (z : Serializer) (L : Log) : Op → Log
  | .save st expected cancelAt ers =>
    if ers = [] then L
    else match batchProblem z L st expected cancelAt ers with
      | none => L.append z.view st ers
      | some (j, e) => afterFail z.view L st ers j e
  | .delete st expected cancelled =>
    if cancelled = false ∧ expected = L.streamLen st then L.delete st else L

/-- The log after a history of calls of the in-memory store. -/
def specRun (z : Serializer) (ops : List Op) : Log := ops.foldl (specStep z) Log.empty

/-- What a reader that drains an iterator gets when the log holds `l` and the context is cancelled
after `c` records (`cancelAt = some c`) or never (`none`). -/
def cut (cancelAt : Option Nat) (l : List Record) : Iter :=
  match cancelAt with
  | none => ⟨l, none⟩
  | some c => if l.length ≤ c then ⟨l, none⟩ else ⟨l.take c, some .canceled⟩

/-- `Log.WF`: the log is strictly ordered by global sequence number, numbers are between 1 and `last`,
and each stream is numbered 1, 2, ..., n. -/
structure Log.WF (L : Log) : Prop where
  sorted : L.recs.Pairwise (fun a b => a.gsn < b.gsn)
  bounded : ∀ r ∈ L.recs, 1 ≤ r.gsn ∧ r.gsn ≤ L.last
  contiguous : ∀ name, (L.stream name).map (·.seq) = List.range' 1 (L.streamLen name)

end RangeDB

import Verif.Model.LevelDB

/-!
# The LevelDB store on a disk that fails, and after `Stop`

`Model/LevelDB` has no errors of the database itself. Here every call is given the faults that it meets. What goleveldb does
is assumed as documented: a failed `OpenTransaction` opens nothing; a failed `Write` leaves the transaction open; a failed
`Commit` commits nothing and leaves the transaction open, so that it can be tried again or discarded; `Get` returns an error;
an iterator that meets an error stops (`Next`, `Seek` and `Last` return false, `Key` is nil) and keeps the error for `Error`.
On a closed database every call returns an error, and iterators are empty and have one.
-/

namespace RangeDB.LDF

open KV LD

/-- The faults that a save meets; `last i`, `counter i` and `write i` belong to its `i`-th event. -/
structure Faults where
  /-- `OpenTransaction` (leveldb_store.go:214) -/
  opening : Bool
  /-- `iter.Last` (leveldb_store.go:513) -/
  last : Nat → Bool
  /-- `transaction.Get` of the counter (leveldb_store.go:499) -/
  counter : Nat → Bool
  /-- `transaction.Write` (leveldb_store.go:326) -/
  write : Nat → Bool
  /-- `transaction.Commit` (leveldb_store.go:258) -/
  commit : Bool

/-- No fault. -/
def Faults.none : Faults := ⟨false, fun _ => false, fun _ => false, fun _ => false, false⟩

/-- The faults that a delete meets: at `OpenTransaction` (leveldb_store.go:144), in the iterator, which stops after so many
entries (154), at `Write` (182) and at `Commit` (187). -/
structure DFaults where
  opening : Bool
  stop : Option Nat
  write : Bool
  commit : Bool

/-- No fault. -/
def DFaults.none : DFaults := ⟨false, Option.none, false, false⟩

/-- The faults that a read meets: the iterator stops after so many entries, the `i`-th `Get` of a record fails. -/
structure RFaults where
  stop : Option Nat
  get : Nat → Bool

/-- No fault. -/
def RFaults.none : RFaults := ⟨Option.none, fun _ => false⟩

/-- What an iterator yields of `l` before it stops. -/
def upTo {α : Type} : Option Nat → List α → List α
  | .none, l => l
  | some k, l => l.take k

/-- The store and whether its database is closed. -/
structure Store where
  s : State
  closed : Bool
deriving DecidableEq

/-- `New` on an empty directory. -/
def init : Store := ⟨LD.init, false⟩

/-- `Stop` (leveldb_store.go:102-106): the first one closes the database, which discards an open transaction; the next one
gets an error. -/
def stop (t : Store) : Store × Outcome Unit :=
  if t.s.muxHeld then (t, .blocked)
  else if t.closed then (t, .err .db)
  else (⟨{ t.s with txOpen := false }, true⟩, .ok ())

/-- `saveEvent` (leveldb_store.go:276-332). `getSequenceNumber` (511-522) answers 0 when `Last` fails, because `Key` is nil
then, and `getGlobalSequenceNumber` (497-505) answers 0 when `Get` fails. -/
def saveEvent (z : Serializer) (f : Faults) (i : Nat) (db : DB) (stream : Str) (expected : Option Nat) (cancelled : Bool)
    (er : EventRecord) : Except Err (DB × Str × Nat) :=
  if cancelled then .error .canceled
  else
    let seq := if f.last i then 0 else getStreamSequenceNumber db stream
    match expected with
    | some e => if e ≠ seq then .error (.unexpected e seq) else store db seq
    | none => store db seq
where
  /-- leveldb_store.go:294-331 -/
  store (db : DB) (seq : Nat) : Except Err (DB × Str × Nat) :=
    let record := mkRecord stream ((if f.counter i then 0 else getGlobalSequenceNumber db) + 1) (seq + 1) er
    match z.ser record with
    | none => .error .serialize
    | some data =>
      if f.write i then .error .db
      else .ok (apply db (eventBatch stream record data), data, record.seq)

/-- The loop of `saveEvents` (leveldb_store.go:219-257). -/
def saveLoop (z : Serializer) (f : Faults) (stream : Str) (cancelAt : Option Nat) :
    (i : Nat) → DB → (prevType prevId : Str) → (expected : Option Nat) →
    (pending : List Str) → (last : Nat) → List EventRecord → Except Err (DB × List Str × Nat)
  | _, db, _, _, _, pending, last, [] => .ok (db, pending, last)
  | i, db, prevType, prevId, expected, pending, _, er :: ers =>
    if prevType ≠ [] ∧ prevType ≠ er.event.aggType then .error .unmatchedType
    else if prevId ≠ [] ∧ prevId ≠ er.event.aggId then .error .unmatchedId
    else
      match saveEvent z f i db stream expected (ctxDone cancelAt i) er with
      | .error e => .error e
      | .ok (db', data, seq) =>
        saveLoop z f stream cancelAt (i + 1) db' er.event.aggType er.event.aggId
          (expected.map (· + 1)) (pending ++ [data]) seq ers

/-- Result of a save. -/
structure SaveResult where
  state : Store
  out : Outcome Nat
  broadcast : List Record

/-- `saveEvents` (leveldb_store.go:203-273). An error of `Commit` is returned without `Discard` (258-261). -/
def saveEvents (z : Serializer) (f : Faults) (t : Store) (stream : Str) (expected cancelAt : Option Nat)
    (ers : List EventRecord) : SaveResult :=
  if ers.length < 1 then ⟨t, .err .missingEvents, []⟩
  else if t.s.muxHeld then ⟨t, .blocked, []⟩
  else if t.closed then ⟨t, .err .db, []⟩
  else if t.s.txOpen then ⟨{ t with s := { t.s with muxHeld := true } }, .blocked, []⟩
  else if f.opening then ⟨t, .err .db, []⟩
  else
    match saveLoop z f stream cancelAt 0 t.s.db [] [] expected [] 0 ers with
    | .error e => ⟨t, .err e, []⟩
    | .ok (db, pending, last) =>
      if f.commit then ⟨{ t with s := { t.s with txOpen := true } }, .err .db, []⟩
      else ⟨{ t with s := { t.s with db := db } }, .ok last, pending.filterMap z.deser⟩

/-- `OptimisticDeleteStream` (leveldb_store.go:133-193). `iter.Error` is thrown away (180). -/
def deleteStream (z : Serializer) (f : DFaults) (t : Store) (stream : Str) (expected : Nat) (cancelled : Bool) :
    Store × Outcome Unit :=
  if cancelled then (t, .err .canceled)
  else if t.s.muxHeld then (t, .blocked)
  else if t.closed then (t, .err .db)
  else if t.s.txOpen then ({ t with s := { t.s with muxHeld := true } }, .blocked)
  else if f.opening then (t, .err .db)
  else
    let leak : Store := { t with s := { t.s with txOpen := true } }
    let it := DbIter.new t.s.db (getStreamKeyPrefix stream)
    match deleteLoop z 0 [] (upTo f.stop (DbIter.each (it.items.length + 1) it)) with
    | .error e => (leak, .err e)
    | .ok (cnt, batch) =>
      if cnt = 0 then (leak, .err .notFound)
      else if cnt ≠ expected then (leak, .err (.unexpected expected cnt))
      else if f.write then (leak, .err .db)
      else if f.commit then (leak, .err .db)
      else ({ t with s := { t.s with db := apply t.s.db batch } }, .ok ())

/-- The entries that an iterator over a prefix visits: none when the database is closed. -/
def visited (t : Store) (stop : Option Nat) (it : DbIter) : DB :=
  if t.closed then [] else upTo stop (DbIter.each (it.items.length + 1) it)

/-- `EventsByStream` (leveldb_store.go:129-131, 366-406). `iter.Error` is thrown away (402). -/
def eventsByStream (z : Serializer) (f : RFaults) (t : Store) (cancelAt : Option Nat) (n : Nat) (stream : Str) :
    Outcome Iter :=
  if t.s.muxHeld then .blocked
  else
    let v := visited t f.stop (DbIter.new t.s.db (getStreamKeyPrefix stream))
    .ok (if v.length = 0 then ⟨[], some .notFound⟩ else prefixLoop z cancelAt n 0 v)

/-- The loop of `getEventsByLookup` (leveldb_store.go:427-443); `i` counts the calls of `Get`. -/
def lookupLoop (z : Serializer) (get : Nat → Bool) (db : DB) (cancelAt : Option Nat) (g : Nat) :
    (i published : Nat) → DB → Iter
  | _, _, [] => ⟨[], none⟩
  | i, p, (_, target) :: rest =>
    if get i then ⟨[], some .db⟩
    else
      match KV.get db target with
      | none => ⟨[], some .db⟩
      | some v =>
        match z.deser v with
        | none => ⟨[], some .deserialize⟩
        | some record =>
          if record.gsn < g then lookupLoop z get db cancelAt g (i + 1) p rest
          else if ctxDone cancelAt p then ⟨[], some .canceled⟩
          else let r := lookupLoop z get db cancelAt g (i + 1) (p + 1) rest; ⟨record :: r.recs, r.err⟩

/-- `getEventsByLookup` (leveldb_store.go:408-447). Nobody looks at `iter.Error`. -/
def lookup (z : Serializer) (f : RFaults) (t : Store) (cancelAt : Option Nat) (key : Str) (g : Nat) : Outcome Iter :=
  if t.s.muxHeld then .blocked
  else .ok (lookupLoop z f.get t.s.db cancelAt g 0 0 (visited t f.stop (lookupStart t.s.db key g)))

/-- `Events` (leveldb_store.go:112-114). -/
def events (z : Serializer) (f : RFaults) (t : Store) (cancelAt : Option Nat) (g : Nat) : Outcome Iter :=
  lookup z f t cancelAt allEventsPrefix g

/-- `EventsByAggregateTypes` with one type (leveldb_store.go:116-119). -/
def eventsByType (z : Serializer) (f : RFaults) (t : Store) (cancelAt : Option Nat) (g : Nat) (ty : Str) : Outcome Iter :=
  lookup z f t cancelAt (getAggregateTypeKeyPrefix ty) g

/-- `TotalEventsInStream` (leveldb_store.go:355-364): takes no lock, and answers 0 if `Last` fails. -/
def totalEventsInStream (t : Store) (lastFails : Bool) (stream : Str) (cancelled : Bool) : Outcome Nat :=
  if cancelled then .err .canceled
  else .ok (if t.closed || lastFails then 0 else getStreamSequenceNumber t.s.db stream)

/-! ## Histories -/

/-- A call with the faults that it meets. -/
inductive FOp where
  | save (f : Faults) (st : Str) (expected cancelAt : Option Nat) (ers : List EventRecord)
  | delete (f : DFaults) (st : Str) (expected : Nat) (cancelled : Bool)

/-- The call. -/
def FOp.op : FOp → Op
  | .save _ st expected cancelAt ers => .save st expected cancelAt ers
  | .delete _ st expected cancelled => .delete st expected cancelled

/-- One call. -/
def step (z : Serializer) (t : Store) : FOp → Store
  | .save f st expected cancelAt ers => (saveEvents z f t st expected cancelAt ers).state
  | .delete f st expected cancelled => (deleteStream z f t st expected cancelled).1

/-- A history. -/
def run (z : Serializer) (ops : List FOp) : Store := ops.foldl (step z) init

end RangeDB.LDF

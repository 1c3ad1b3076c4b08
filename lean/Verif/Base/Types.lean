/-!
# Data types shared by the model and the specifications
-/

namespace RangeDB

/-- A Go `string` or `[]byte`: one entry per byte. Entries are unbounded naturals, so every theorem
quantified over `Str` covers all byte strings in particular. -/
abbrev Str := List Nat

/-- `rangedb.Event` (store.go:96-105): what the store reads from an event through its interface
methods, plus its payload. -/
structure Event where
  aggType : Str
  aggId : Str
  evType : Str
  data : Str
deriving DecidableEq, Repr

/-- `rangedb.EventRecord` (store.go:28-31), together with the values that `uuidGenerator.New()` and
`clock.Now().Unix()` return when this event is processed (both are external inputs of `saveEvent`). -/
structure EventRecord where
  event : Event
  metadata : Str
  uuid : Str
  now : Nat
deriving DecidableEq, Repr

/-- `rangedb.Record` (store.go:14-25). `uint64` fields are `Nat`. -/
structure Record where
  streamName : Str
  aggType : Str
  aggId : Str
  gsn : Nat
  seq : Nat
  ts : Nat
  eventId : Str
  evType : Str
  data : Str
  metadata : Str
deriving DecidableEq, Repr

/-- Errors returned by the stores. -/
inductive Err where
  /-- `fmt.Errorf("missing events")` -/
  | missingEvents
  /-- `fmt.Errorf("unmatched aggregate type")` -/
  | unmatchedType
  /-- `fmt.Errorf("unmatched aggregate ID")` -/
  | unmatchedId
  /-- `context.Canceled` -/
  | canceled
  /-- `rangedberror.UnexpectedSequenceNumber{Expected, ActualSequenceNumber}` -/
  | unexpected (expected actual : Nat)
  /-- an error of `RecordSerializer.Serialize` -/
  | serialize
  /-- an error of `RecordSerializer.Deserialize` -/
  | deserialize
  /-- `rangedb.ErrStreamNotFound` -/
  | notFound
  /-- `fmt.Errorf("record missing")` -/
  | recordMissing
  /-- an error of the underlying database -/
  | db
deriving DecidableEq, Repr

/-- How a Go call ends. -/
inductive Outcome (α : Type) where
  | ok (a : α)
  | err (e : Err)
  /-- the call panics -/
  | panic
  /-- the call never returns: it waits for a lock that nobody will release -/
  | blocked
deriving DecidableEq, Repr

/-- What a `RecordIterator` yields until it is exhausted: the records, then possibly an error
(record_iterator.go; `Verif/Model/Iterator.lean` relates this to `Next`/`Err` calls). -/
structure Iter where
  recs : List Record
  err : Option Err
deriving DecidableEq, Repr

/-- `rangedb.RecordSerializer` (record_serializer.go). `ser` and `deser` are the two methods; `none`
is an error. -/
structure Serializer where
  ser : Record → Option Str
  deser : Str → Option Record
  /-- How a record looks after a round trip. An event saved by value comes back by pointer, JSON
  numbers of unbound events come back as `json.Number`, ...: only `Data` and `Metadata` may differ. -/
  view : Record → Record

/-- The contract of a record serializer assumed by the store theorems: what was serialized
deserializes, with the envelope fields intact. -/
structure Serializer.Lawful (z : Serializer) : Prop where
  roundTrip : ∀ r b, z.ser r = some b → z.deser b = some (z.view r)
  streamName : ∀ r, (z.view r).streamName = r.streamName
  aggType : ∀ r, (z.view r).aggType = r.aggType
  aggId : ∀ r, (z.view r).aggId = r.aggId
  gsn : ∀ r, (z.view r).gsn = r.gsn
  seq : ∀ r, (z.view r).seq = r.seq
  ts : ∀ r, (z.view r).ts = r.ts
  eventId : ∀ r, (z.view r).eventId = r.eventId
  evType : ∀ r, (z.view r).evType = r.evType

/-- `GetStream` (store.go:129-131): `fmt.Sprintf("%s!%s", aggregateType, aggregateID)`; 33 is `!`. -/
def getStream (aggType aggId : Str) : Str := aggType ++ 33 :: aggId

/-- One call that changes a store. -/
inductive Op where
  /-- `Save` (`expected = none`) or `OptimisticSave` (`expected = some n`). `cancelAt = some i` means
  that the context is observed cancelled from the check made for event `i` (counting from 0) on. -/
  | save (stream : Str) (expected : Option Nat) (cancelAt : Option Nat) (ers : List EventRecord)
  /-- `OptimisticDeleteStream`. -/
  | delete (stream : Str) (expected : Nat) (cancelled : Bool)
deriving DecidableEq, Repr

/-- Is the context observed as done at check number `i`? A context stays done once it is done. -/
def ctxDone (cancelAt : Option Nat) (i : Nat) : Bool :=
  match cancelAt with
  | none => false
  | some c => c ≤ i

end RangeDB

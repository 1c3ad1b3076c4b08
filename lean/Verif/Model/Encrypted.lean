import Verif.Model.Crypto
import Verif.Model.InMemory
import Verif.Model.Iterator
import Verif.Model.Merge

/-!
# Model: the encrypted store

`provider/encryptedstore/*` on top of the in-memory store, with `eventencryptor.New(keyStore, engine)`.
Events are passed by pointer and encrypted in place, so every call also yields the caller's events as
they are after the call.
-/

namespace RangeDB.ES

open RangeDB.Key RangeDB.Cry

variable {σ : Type}

/-- How the personal data sits in the data of an event. `asP t d` is `some p` if events of type `t`
implement `crypto.SelfEncryptor` and `p` are the fields of the event with data `d`; `ofP t d q` is the data
after assigning `q` to those fields. -/
structure Codec where
  asP : (evType data : Str) → Option PEvent
  ofP : (evType data : Str) → PEvent → Str

/-- The same event but for the values of the personal fields. -/
def SameShape (p q : PEvent) : Prop :=
  q.subject = p.subject ∧ q.rest = p.rest ∧ q.strs.length = p.strs.length ∧ q.ints.length = p.ints.length ∧ q.sers.length = p.sers.length

/-- What reading and assigning struct fields obeys. -/
structure Codec.Lawful (C : Codec) : Prop where
  get_put : ∀ t d p q, C.asP t d = some p → SameShape p q → C.asP t (C.ofP t d q) = some q
  put_get : ∀ t d p, C.asP t d = some p → C.ofP t d p = d
  put_put : ∀ t d p q r, C.asP t d = some p → SameShape p q → C.ofP t (C.ofP t d q) r = C.ofP t d r

/-- `eventEncryptor.Encrypt` (event_encryptor.go:22-28) on the data of an event: the new data and the
error; `none` if it panics. -/
def encData (C : Codec) (K : Store σ) (enc : Encryptor) (w : World σ) (t d : Str) :
    World σ × Option (Str × Option KErr) :=
  match C.asP t d with
  | none => (w, some (d, none))
  | some p => match genEncrypt K enc w p with
    | (w, none) => (w, none)
    | (w, some (q, e)) => (w, some (C.ofP t d q, e))

/-- `eventEncryptor.Decrypt` (event_encryptor.go:30-36). -/
def decData (C : Codec) (K : Store σ) (enc : Encryptor) (w : World σ) (t d : Str) :
    World σ × Option (Str × Option KErr) :=
  match C.asP t d with
  | none => (w, some (d, none))
  | some p => match genDecrypt K enc w p with
    | (w, none) => (w, none)
    | (w, some (q, e)) => (w, some (C.ofP t d q, e))

/-- Assign new data to an event. -/
def setData (er : EventRecord) (d : Str) : EventRecord := { er with event := { er.event with data := d } }

/-- How the encryption of a batch ended. -/
inductive BatchEnd where
  | ok
  | err (e : KErr)
  | panic
deriving DecidableEq, Repr

/-- The loop of `Save` and `OptimisticSave` (encrypted_store.go:44-49, 55-60): the events afterwards
and how it ended. The events of one call are distinct objects. -/
def encBatch (C : Codec) (K : Store σ) (enc : Encryptor) :
    World σ → List EventRecord → World σ × List EventRecord × BatchEnd
  | w, [] => (w, [], .ok)
  | w, er :: ers =>
    match encData C K enc w er.event.evType er.event.data with
    | (w, none) => (w, er :: ers, .panic)
    | (w, some (d, some e)) => (w, setData er d :: ers, .err e)
    | (w, some (d, none)) => match encBatch C K enc w ers with
      | (w, ers', r) => (w, setData er d :: ers', r)

/-- How a save through the encrypted store ended. -/
inductive SaveEnd where
  /-- the parent store was called and this is what it returned -/
  | parent (o : Outcome Nat)
  /-- encryption failed -/
  | encErr (e : KErr)
  | panic
deriving DecidableEq, Repr

/-- The state of an encrypted store: its parent, and the world of its encryptor. -/
structure State (σ : Type) where
  parent : IM.State
  world : World σ

/-- The result of a save: the new state, how it ended, the caller's events afterwards and the records the
parent broadcasts. -/
structure SaveResult (σ : Type) where
  state : State σ
  out : SaveEnd
  events : List EventRecord
  broadcast : List Record

/-- `Save` (`expected = none`) and `OptimisticSave` (encrypted_store.go:43-63). -/
def save (C : Codec) (K : Store σ) (enc : Encryptor) (z : Serializer) (s : State σ) (st : Str)
    (expected cancelAt : Option Nat) (ers : List EventRecord) : SaveResult σ :=
  match encBatch C K enc s.world ers with
  | (w, ers', .panic) => ⟨⟨s.parent, w⟩, .panic, ers', []⟩
  | (w, ers', .err e) => ⟨⟨s.parent, w⟩, .encErr e, ers', []⟩
  | (w, ers', .ok) =>
    let r := IM.saveEvents z s.parent st expected cancelAt ers'
    ⟨⟨r.state, w⟩, .parent r.out, ers', r.broadcast⟩

/-- `OptimisticDeleteStream` (encrypted_store.go:39-41). -/
def delete (s : State σ) (st : Str) (expected : Nat) (cancelled : Bool) : State σ × Outcome Unit :=
  match IM.deleteStream s.parent st expected cancelled with
  | (p, o) => ({ s with parent := p }, o)

/-- `TotalEventsInStream` (encrypted_store.go:73-75). -/
def totalEventsInStream (s : State σ) (st : Str) (cancelled : Bool) : Outcome Nat :=
  IM.totalEventsInStream s.parent st cancelled

/-! ## Reading -/

/-- The error an iterator of the encrypted store reports. -/
inductive RErr where
  | store (e : Err)
  | crypto (e : KErr)
deriving DecidableEq, Repr

/-- `decryptingRecordIterator` (decrypting_record_iterator.go:10-14). -/
structure DIter where
  parent : RecordIterator
  currentErr : Option KErr
deriving DecidableEq, Repr

/-- `NewDecryptingRecordIterator` (decrypting_record_iterator.go:17-22) on an iterator that will yield
`it`. -/
def DIter.new (it : Iter) : DIter := ⟨RecordIterator.new it.results, none⟩

/-- `Next` (decrypting_record_iterator.go:24-30); `NextContext` (32-38) is the same on the parent's
`NextContext`. -/
def DIter.next (it : DIter) : DIter × Bool :=
  if it.currentErr ≠ none then (it, false)
  else match it.parent.next with
    | (p, b) => ({ it with parent := p }, b)

/-- Replace the record an iterator is at: the record is shared by pointer. -/
def setCurrent (p : RecordIterator) (r : Record) : RecordIterator :=
  { p with current := { p.current with record := some r } }

/-- `Record` (decrypting_record_iterator.go:40-57): decrypts the parent's current record in place.
`none` if it panics, `some none` is `nil`. `record.Data` is assumed to implement `rangedb.Event`; for other
data the codec yields `none`. -/
def DIter.record (C : Codec) (K : Store σ) (enc : Encryptor) (w : World σ) (it : DIter) :
    World σ × DIter × Option (Option Record) :=
  match it.parent.record with
  | none => (w, it, some none)
  | some r =>
    match decData C K enc w r.evType r.data with
    | (w, none) => (w, it, none)
    | (w, some (d, some e)) => (w, ⟨setCurrent it.parent { r with data := d }, some e⟩, some none)
    | (w, some (d, none)) =>
      (w, { it with parent := setCurrent it.parent { r with data := d } }, some (some { r with data := d }))

/-- `Err` (decrypting_record_iterator.go:59-65). -/
def DIter.error (it : DIter) : Option RErr :=
  match it.currentErr with
  | some e => some (.crypto e)
  | none => it.parent.error.map .store

/-- What a reader got: what `Record` returned after each successful `Next` (`none` is `nil`), the error
reported at the end, and whether `Record` panicked. -/
structure Got where
  recs : List (Option Record)
  err : Option RErr
  panicked : Bool
deriving DecidableEq, Repr

/-- The usual loop `for it.Next() { it.Record() }`, then `it.Err()`. `fuel` bounds the number of calls. -/
def consume (C : Codec) (K : Store σ) (enc : Encryptor) : Nat → World σ → DIter → World σ × Got
  | 0, w, it => (w, ⟨[], it.error, false⟩)
  | fuel + 1, w, it =>
    match it.next with
    | (it, false) => (w, ⟨[], it.error, false⟩)
    | (it, true) => match it.record C K enc w with
      | (w, it, none) => (w, ⟨[], it.error, true⟩)
      | (w, it, some r) => match consume C K enc fuel w it with
        | (w, g) => (w, { g with recs := r :: g.recs })

/-- Read everything the parent's iterator yields. -/
def readAll (C : Codec) (K : Store σ) (enc : Encryptor) (w : World σ) (it : Iter) : World σ × Got :=
  consume C K enc (it.recs.length + 2) w (DIter.new it)

/-- `Events`, drained (encrypted_store.go:27-29). -/
def events (C : Codec) (K : Store σ) (enc : Encryptor) (z : Serializer) (s : State σ)
    (cancelAt : Option Nat) (g : Nat) : World σ × Got :=
  readAll C K enc s.world (IM.events z s.parent cancelAt g)

/-- `EventsByStream`, drained (encrypted_store.go:35-37). -/
def eventsByStream (C : Codec) (K : Store σ) (enc : Encryptor) (z : Serializer) (s : State σ)
    (cancelAt : Option Nat) (n : Nat) (st : Str) : World σ × Got :=
  readAll C K enc s.world (IM.eventsByStream z s.parent cancelAt n st)

/-- `EventsByAggregateTypes`, drained (encrypted_store.go:31-33). -/
def eventsByTypes (C : Codec) (K : Store σ) (enc : Encryptor) (z : Serializer) (s : State σ)
    (cancelAt : Str → Option Nat) (g : Nat) (types : List Str) : World σ × Got :=
  readAll C K enc s.world (IM.eventsByAggregateTypes z s.parent cancelAt g types)

/-- `decryptingRecordSubscriber.Accept` (decrypting_record_subscriber.go:21-27): the record handed to the
subscriber, which is the shared record decrypted in place; errors are ignored. `none` if it panics. -/
def accept (C : Codec) (K : Store σ) (enc : Encryptor) (w : World σ) (r : Record) :
    World σ × Option Record :=
  match decData C K enc w r.evType r.data with
  | (w, none) => (w, none)
  | (w, some (d, _)) => (w, some { r with data := d })

/-! ## Histories -/

/-- What can happen to an encrypted store: calls on it, and operations on the key store and engine by
anybody (its own reads among them: a read only decrypts). -/
inductive HOp where
  | save (st : Str) (expected cancelAt : Option Nat) (ers : List EventRecord)
  | delete (st : Str) (expected : Nat) (cancelled : Bool)
  | world (o : Cry.Op)
deriving DecidableEq, Repr

/-- One of these. -/
def hstep (C : Codec) (K : Store σ) (enc : Encryptor) (z : Serializer) (s : State σ) : HOp → State σ
  | .save st expected cancelAt ers => (save C K enc z s st expected cancelAt ers).state
  | .delete st expected cancelled => (delete s st expected cancelled).1
  | .world o => { s with world := opStep K enc s.world o }

/-- A history. -/
def hrun (C : Codec) (K : Store σ) (enc : Encryptor) (z : Serializer) (s : State σ) (ops : List HOp) :
    State σ := ops.foldl (hstep C K enc z) s

end RangeDB.ES

import Verif.Base.Types

/-!
# Model of record_iterator.go, publish_record.go and `ReadNRecords` (store.go:140-162)
-/

namespace RangeDB

/-- `rangedb.ResultRecord` (store.go:82-85): either field may be nil. -/
structure ResultRecord where
  record : Option Record
  err : Option Err
deriving DecidableEq, Repr

/-- The zero value, which a receive from a closed channel yields. -/
def ResultRecord.zero : ResultRecord := ⟨none, none⟩

/-- `recordIterator` (record_iterator.go:7-10). `chan` is what the channel will still deliver before
it is closed. -/
structure RecordIterator where
  chan : List ResultRecord
  current : ResultRecord
deriving DecidableEq, Repr

namespace RecordIterator

/-- `NewRecordIterator` (record_iterator.go:13-15). -/
def new (chan : List ResultRecord) : RecordIterator := ⟨chan, .zero⟩

/-- `NewRecordIteratorWithError` (record_iterator.go:52-57). -/
def newWithError (e : Err) : RecordIterator := new [⟨none, some e⟩]

/-- `Next` (record_iterator.go:17-25). -/
def next (it : RecordIterator) : RecordIterator × Bool :=
  if it.current.err ≠ none then (it, false)
  else
    match it.chan with
    | [] => ({ it with current := .zero }, false)
    | r :: rs => (⟨rs, r⟩, r.record.isSome)

/-- `NextContext` (record_iterator.go:27-42): `done = some e` means that the `select` takes the
`ctx.Done()` branch and `ctx.Err()` is `e`. -/
def nextContext (it : RecordIterator) (done : Option Err) : RecordIterator × Bool :=
  if it.current.err ≠ none then (it, false)
  else
    match done with
    | some e => ({ it with current := ⟨none, some e⟩ }, false)
    | none => next it

/-- `Record` (record_iterator.go:44-46). -/
def record (it : RecordIterator) : Option Record := it.current.record

/-- `Err` (record_iterator.go:48-50). -/
def error (it : RecordIterator) : Option Err := it.current.err

/-- `n` calls of `Next`, ignoring the results. -/
def nextN (it : RecordIterator) : Nat → RecordIterator
  | 0 => it
  | n + 1 => (nextN it n).next.1

/-- The usual loop `for it.Next() { ... it.Record() ... }`; `fuel` bounds the number of calls. -/
def drain : (fuel : Nat) → RecordIterator → List (Option Record) × RecordIterator
  | 0, it => ([], it)
  | fuel + 1, it =>
    match it.next with
    | (it', true) => let r := drain fuel it'; (it'.record :: r.1, r.2)
    | (it', false) => ([], it')

end RecordIterator

/-- The results a store goroutine sends for an `Iter`: its records, then its error if any. -/
def Iter.results (it : Iter) : List ResultRecord :=
  it.recs.map (fun r => ⟨some r, none⟩) ++
    (match it.err with
     | none => []
     | some e => [⟨none, some e⟩])

/-- The environment of one `PublishRecordOrCancel` call: is the context done at the first `select`, does
the second `select` take the `ctx.Done()` branch, does somebody receive the error before the timeout,
and what is `ctx.Err()`? -/
structure PublishEnv where
  doneAtStart : Bool
  doneWhileWaiting : Bool
  errReceived : Bool
  ctxErr : Err
deriving DecidableEq, Repr

/-- The inner `select` (publish_record.go:12-15 and 23-26): offer the context's error or time out. -/
def offerErr (env : PublishEnv) : List ResultRecord :=
  if env.errReceived then [⟨none, some env.ctxErr⟩] else []

/-- `PublishRecordOrCancel` (publish_record.go:9-33): the returned value and what was sent. -/
def publishRecordOrCancel (env : PublishEnv) (record : Record) : Bool × List ResultRecord :=
  if env.doneAtStart then (false, offerErr env)
  else if env.doneWhileWaiting then (false, offerErr env)
  else (true, [⟨some record, none⟩])

/-- The sending loop of a store's goroutine (e.g. inmemory_store.go:138-163): publish the records one
after the other until a publish returns false, then close the channel. `envs` are the successive
environments. -/
def publishAll : List PublishEnv → List Record → List ResultRecord
  | _, [] => []
  | [], _ :: _ => []
  | env :: envs, r :: rs =>
    match publishRecordOrCancel env r with
    | (true, out) => out ++ publishAll envs rs
    | (false, out) => out

/-- The loop of `ReadNRecords` (store.go:145-155): `cnt` counts the records seen; `fuel` bounds the
number of `Next` calls. -/
def readNLoop (n : Nat) : (fuel : Nat) → (cnt : Nat) → RecordIterator → List (Option Record) × RecordIterator
  | 0, _, it => ([], it)
  | fuel + 1, cnt, it =>
    match it.next with
    | (it', false) => ([], it')
    | (it', true) =>
      if it'.error ≠ none then ([], it')
      else if cnt + 1 > n then ([], it')
      else let r := readNLoop n fuel (cnt + 1) it'; (it'.record :: r.1, r.2)

/-- `ReadNRecords` (store.go:140-162). After the loop it cancels the context and drains the iterator
(lines 157-159): `rest` is what the producer still sends after the cancellation. -/
def readNRecords (n : Nat) (chan : List ResultRecord) (rest : List ResultRecord → List ResultRecord) :
    List (Option Record) × RecordIterator :=
  let r := readNLoop n (chan.length + 1) 0 (.new chan)
  let after := rest r.2.chan
  (r.1, (RecordIterator.drain (after.length + 1) { r.2 with chan := after }).2)

end RangeDB

import Verif.Model.KV
import Verif.Model.Merge

/-!
# Model of provider/leveldbstore/leveldb_store.go

`mux`-protected sections are atomic functions on the state. A goleveldb database has at most one open
transaction: `OpenTransaction` blocks while another one is open. `OptimisticDeleteStream` returns
without discarding its transaction on three paths; then `txOpen` stays true, the next writer blocks
inside `OpenTransaction` while holding `mux`, and from then on everything that takes `mux` blocks.
Errors of the database itself (disk full, closed) are not modelled.
-/

namespace RangeDB.LD

open KV

/-- `binary.Write(BigEndian)` of a number below `256^k` as `k` bytes (leveldb_store.go:481-485). -/
def beBytes : (k n : Nat) → Str
  | 0, _ => []
  | k + 1, n => (n / 256 ^ k) :: beBytes k (n % 256 ^ k)

/-- `uint64ToBytes` (leveldb_store.go:481-485); the argument is a `uint64`. -/
def uint64ToBytes (n : Nat) : Str := beBytes 8 (n % 2 ^ 64)

/-- `bytesToUint64` (leveldb_store.go:487-491): reads 8 bytes; with fewer the read fails and the number
stays 0. -/
def bytesToUint64 (b : Str) : Nat :=
  if b.length < 8 then 0 else (b.take 8).foldl (fun acc x => acc * 256 + x) 0

/-- `"$all$"` (leveldb_store.go:31). -/
def allEventsPrefix : Str := [36, 97, 108, 108, 36]
/-- `"$s$"` (leveldb_store.go:32). -/
def streamPrefix : Str := [36, 115, 36]
/-- `"$at$"` (leveldb_store.go:33). -/
def aggregateTypePrefix : Str := [36, 97, 116, 36]
/-- `"$gsn$"` (leveldb_store.go:34). -/
def globalSequenceNumberKey : Str := [36, 103, 115, 110, 36]

/-- `getStreamKeyPrefix` (leveldb_store.go:469-471): `"$s$" + stream + "$!"`. -/
def getStreamKeyPrefix (stream : Str) : Str := streamPrefix ++ (stream ++ [36, 33])
/-- `getAggregateTypeKeyPrefix` (leveldb_store.go:473-475): `"$at$" + type + "$!"`. -/
def getAggregateTypeKeyPrefix (t : Str) : Str := aggregateTypePrefix ++ (t ++ [36, 33])
/-- `getKeyWithNumber` (leveldb_store.go:477-479). -/
def getKeyWithNumber (key : Str) (n : Nat) : Str := key ++ uint64ToBytes n

/-- `levelDbStore` (leveldb_store.go:37-46): what is committed, whether a transaction was left open,
and whether `mux` is held by a goroutine that is stuck. -/
structure State where
  db : DB
  txOpen : Bool
  muxHeld : Bool
deriving DecidableEq

/-- `New` on an empty directory (leveldb_store.go:80-100). -/
def init : State := ⟨[], false, false⟩

/-- `getGlobalSequenceNumber` (leveldb_store.go:497-505). -/
def getGlobalSequenceNumber (db : DB) : Nat :=
  match get db globalSequenceNumberKey with
  | some b => bytesToUint64 b
  | none => 0

/-- `getSequenceNumber` (leveldb_store.go:511-522). -/
def getSequenceNumber (db : DB) (key : Str) : Nat :=
  match (DbIter.new db key).last.1.entry with
  | some (k, _) => if k.length > key.length then bytesToUint64 (k.drop key.length) else 0
  | none => 0

/-- `getStreamSequenceNumber` (leveldb_store.go:507-509). -/
def getStreamSequenceNumber (db : DB) (stream : Str) : Nat :=
  getSequenceNumber db (getStreamKeyPrefix stream)

/-- The batch written for one event (leveldb_store.go:314-324). -/
def eventBatch (stream : Str) (record : Record) (data : Str) : List Write :=
  let streamKey := getKeyWithNumber (getStreamKeyPrefix stream) record.seq
  [.put globalSequenceNumberKey (uint64ToBytes record.gsn),
   .put streamKey data,
   .put (getKeyWithNumber (getAggregateTypeKeyPrefix record.aggType) record.gsn) streamKey,
   .put (getKeyWithNumber allEventsPrefix record.gsn) streamKey]

/-- `saveEvent` (leveldb_store.go:276-332) against the transaction's view `db`. -/
def saveEvent (z : Serializer) (db : DB) (stream : Str) (expected : Option Nat) (cancelled : Bool)
    (er : EventRecord) : Except Err (DB × Str × Nat) :=
  if cancelled then .error .canceled
  else
    let seq := getStreamSequenceNumber db stream
    match expected with
    | some e => if e ≠ seq then .error (.unexpected e seq) else store db seq
    | none => store db seq
where
  /-- leveldb_store.go:294-331 -/
  store (db : DB) (seq : Nat) : Except Err (DB × Str × Nat) :=
    let record := mkRecord stream (getGlobalSequenceNumber db + 1) (seq + 1) er
    match z.ser record with
    | none => .error .serialize
    | some data => .ok (apply db (eventBatch stream record data), data, record.seq)

/-- The loop of `saveEvents` (leveldb_store.go:219-257) on the transaction's view. -/
def saveLoop (z : Serializer) (stream : Str) (cancelAt : Option Nat) :
    (i : Nat) → DB → (prevType prevId : Str) → (expected : Option Nat) →
    (pending : List Str) → (last : Nat) → List EventRecord → Except Err (DB × List Str × Nat)
  | _, db, _, _, _, pending, last, [] => .ok (db, pending, last)
  | i, db, prevType, prevId, expected, pending, _, er :: ers =>
    if prevType ≠ [] ∧ prevType ≠ er.event.aggType then .error .unmatchedType
    else if prevId ≠ [] ∧ prevId ≠ er.event.aggId then .error .unmatchedId
    else
      match saveEvent z db stream expected (ctxDone cancelAt i) er with
      | .error e => .error e
      | .ok (db', data, seq) =>
        saveLoop z stream cancelAt (i + 1) db' er.event.aggType er.event.aggId
          (expected.map (· + 1)) (pending ++ [data]) seq ers

/-- Result of a save: new state, outcome, and the records handed to the broadcaster. -/
structure SaveResult where
  state : State
  out : Outcome Nat
  broadcast : List Record

/-- `saveEvents` (leveldb_store.go:203-273), called by `Save` (`expected = none`, line 200) and
`OptimisticSave` (line 196). -/
def saveEvents (z : Serializer) (s : State) (stream : Str) (expected cancelAt : Option Nat)
    (ers : List EventRecord) : SaveResult :=
  if ers.length < 1 then ⟨s, .err .missingEvents, []⟩
  else if s.muxHeld then ⟨s, .blocked, []⟩
  else if s.txOpen then ⟨{ s with muxHeld := true }, .blocked, []⟩
  else
    match saveLoop z stream cancelAt 0 s.db [] [] expected [] 0 ers with
    | .error e => ⟨s, .err e, []⟩
    | .ok (db, pending, last) => ⟨{ s with db := db }, .ok last, pending.filterMap z.deser⟩

/-- The loop of `OptimisticDeleteStream` (leveldb_store.go:154-167): how many entries were seen and the
batch, or an error. -/
def deleteLoop (z : Serializer) : (cnt : Nat) → (batch : List Write) → DB →
    Except Err (Nat × List Write)
  | cnt, batch, [] => .ok (cnt, batch)
  | cnt, batch, (k, v) :: rest =>
    match z.deser v with
    | none => .error .deserialize
    | some record =>
      deleteLoop z (cnt + 1) (batch ++
        [.del k,
         .del (getKeyWithNumber (getAggregateTypeKeyPrefix record.aggType) record.gsn),
         .del (getKeyWithNumber allEventsPrefix record.gsn)]) rest

/-- `OptimisticDeleteStream` (leveldb_store.go:133-193). The error returns in the loop and at lines
170 and 174 leave the transaction open. -/
def deleteStream (z : Serializer) (s : State) (stream : Str) (expected : Nat) (cancelled : Bool) :
    State × Outcome Unit :=
  if cancelled then (s, .err .canceled)
  else if s.muxHeld then (s, .blocked)
  else if s.txOpen then ({ s with muxHeld := true }, .blocked)
  else
    let it := DbIter.new s.db (getStreamKeyPrefix stream)
    match deleteLoop z 0 [] (DbIter.each (it.items.length + 1) it) with
    | .error e => ({ s with txOpen := true }, .err e)
    | .ok (cnt, batch) =>
      if cnt = 0 then ({ s with txOpen := true }, .err .notFound)
      else if cnt ≠ expected then ({ s with txOpen := true }, .err (.unexpected expected cnt))
      else ({ s with db := apply s.db batch }, .ok ())

/-- The loop of `getEventsByPrefix` (leveldb_store.go:379-395), drained by its reader; `published`
counts the records sent so far. -/
def prefixLoop (z : Serializer) (cancelAt : Option Nat) (n : Nat) : (published : Nat) → DB → Iter
  | _, [] => ⟨[], none⟩
  | p, (_, v) :: rest =>
    match z.deser v with
    | none => ⟨[], some .deserialize⟩
    | some record =>
      if record.seq < n then prefixLoop z cancelAt n p rest
      else if ctxDone cancelAt p then ⟨[], some .canceled⟩
      else let r := prefixLoop z cancelAt n (p + 1) rest; ⟨record :: r.recs, r.err⟩

/-- `getEventsByPrefix` (leveldb_store.go:366-406). -/
def getEventsByPrefix (z : Serializer) (db : DB) (cancelAt : Option Nat) (key : Str) (n : Nat) : Iter :=
  let it := DbIter.new db key
  let visited := DbIter.each (it.items.length + 1) it
  if visited.length = 0 then ⟨[], some .notFound⟩ else prefixLoop z cancelAt n 0 visited

/-- The loop of `getEventsByLookup` (leveldb_store.go:427-443). -/
def lookupLoop (z : Serializer) (db : DB) (cancelAt : Option Nat) (g : Nat) :
    (published : Nat) → DB → Iter
  | _, [] => ⟨[], none⟩
  | p, (_, target) :: rest =>
    match get db target with
    | none => ⟨[], some .db⟩
    | some v =>
      match z.deser v with
      | none => ⟨[], some .deserialize⟩
      | some record =>
        if record.gsn < g then lookupLoop z db cancelAt g p rest
        else if ctxDone cancelAt p then ⟨[], some .canceled⟩
        else let r := lookupLoop z db cancelAt g (p + 1) rest; ⟨record :: r.recs, r.err⟩

/-- Positioning the iterator of `getEventsByLookup` (leveldb_store.go:416-425). -/
def lookupStart (db : DB) (key : Str) (g : Nat) : DbIter :=
  let it := DbIter.new db key
  if g > 0 then
    let r := it.seek (getKeyWithNumber key g)
    if r.2 then r.1.prev.1 else r.1
  else it

/-- `getEventsByLookup` (leveldb_store.go:408-447). -/
def getEventsByLookup (z : Serializer) (db : DB) (cancelAt : Option Nat) (key : Str) (g : Nat) : Iter :=
  let it := lookupStart db key g
  lookupLoop z db cancelAt g 0 (DbIter.each (it.items.length + 1) it)

/-- `Events` (leveldb_store.go:112-114); `blocked` when `mux` is stuck (`RLock`, line 410). -/
def events (z : Serializer) (s : State) (cancelAt : Option Nat) (g : Nat) : Outcome Iter :=
  if s.muxHeld then .blocked else .ok (getEventsByLookup z s.db cancelAt allEventsPrefix g)

/-- `EventsByStream` (leveldb_store.go:129-131). -/
def eventsByStream (z : Serializer) (s : State) (cancelAt : Option Nat) (n : Nat) (stream : Str) :
    Outcome Iter :=
  if s.muxHeld then .blocked else .ok (getEventsByPrefix z s.db cancelAt (getStreamKeyPrefix stream) n)

/-- `EventsByAggregateTypes` (leveldb_store.go:116-127). With no types at all no lock is taken. -/
def eventsByAggregateTypes (z : Serializer) (s : State) (cancelAt : Str → Option Nat) (g : Nat)
    (types : List Str) : Outcome Iter :=
  if s.muxHeld ∧ types ≠ [] then .blocked
  else .ok (match types with
    | [t] => getEventsByLookup z s.db (cancelAt t) (getAggregateTypeKeyPrefix t) g
    | _ => mergeIters (types.map (fun t =>
        getEventsByLookup z s.db (cancelAt t) (getAggregateTypeKeyPrefix t) g)))

/-- `TotalEventsInStream` (leveldb_store.go:355-364): takes no lock. -/
def totalEventsInStream (s : State) (stream : Str) (cancelled : Bool) : Outcome Nat :=
  if cancelled then .err .canceled else .ok (getStreamSequenceNumber s.db stream)

/-- One state-changing call. -/
def step (z : Serializer) (s : State) : Op → State
  | .save stream expected cancelAt ers => (saveEvents z s stream expected cancelAt ers).state
  | .delete stream expected cancelled => (deleteStream z s stream expected cancelled).1

/-- A history of calls from the empty store. -/
def run (z : Serializer) (ops : List Op) : State := ops.foldl (step z) init

/-! ## The same calls in small steps, for crashes

`disk` is what survives a crash. goleveldb commits a transaction by one atomic manifest update. -/

/-- Where a save call is. -/
inductive PC where
  /-- before `OpenTransaction` (line 214) -/
  | start
  /-- at the top of the loop (line 219) with the transaction's view and the loop variables -/
  | loop (view : DB) (i : Nat) (prevType prevId : Str) (expected : Option Nat) (pending : List Str)
      (last : Nat) (todo : List EventRecord)
  /-- committed (line 258); still to broadcast `pending` -/
  | broadcasting (pending : List Str) (last : Nat)
  /-- returned -/
  | done (r : Except Err Nat)

/-- A process inside a save call. -/
structure Proc where
  disk : DB
  pc : PC

/-- One step of `saveEvents` (leveldb_store.go:203-273) on a store without stuck locks. -/
def Proc.step (z : Serializer) (stream : Str) (expected cancelAt : Option Nat)
    (ers : List EventRecord) (p : Proc) : Proc :=
  match p.pc with
  | .start =>
    if ers.length < 1 then ⟨p.disk, .done (.error .missingEvents)⟩
    else ⟨p.disk, .loop p.disk 0 [] [] expected [] 0 ers⟩
  | .loop view _ _ _ _ pending last [] => ⟨view, .broadcasting pending last⟩
  | .loop view i prevType prevId exp pending _ (er :: todo) =>
    if prevType ≠ [] ∧ prevType ≠ er.event.aggType then ⟨p.disk, .done (.error .unmatchedType)⟩
    else if prevId ≠ [] ∧ prevId ≠ er.event.aggId then ⟨p.disk, .done (.error .unmatchedId)⟩
    else
      match saveEvent z view stream exp (ctxDone cancelAt i) er with
      | .error e => ⟨p.disk, .done (.error e)⟩
      | .ok (view', data, seq) =>
        ⟨p.disk, .loop view' (i + 1) er.event.aggType er.event.aggId (exp.map (· + 1))
          (pending ++ [data]) seq todo⟩
  | .broadcasting [] last => ⟨p.disk, .done (.ok last)⟩
  | .broadcasting (_ :: ps) last => ⟨p.disk, .broadcasting ps last⟩
  | .done r => ⟨p.disk, .done r⟩

/-- `n` steps of a save call started on `disk`. -/
def saveSteps (z : Serializer) (stream : Str) (expected cancelAt : Option Nat)
    (ers : List EventRecord) (disk : DB) : Nat → Proc
  | 0 => ⟨disk, .start⟩
  | n + 1 => (saveSteps z stream expected cancelAt ers disk n).step z stream expected cancelAt ers

/-- Where a delete call is. -/
inductive DelPC where
  /-- before `OpenTransaction` (line 144) -/
  | start
  /-- in the loop (line 154) -/
  | loop (cnt : Nat) (batch : List Write) (todo : DB)
  /-- before `transaction.Commit` (line 187), with the transaction's view -/
  | written (view : DB)
  /-- returned -/
  | done (r : Except Err Unit)

/-- A process inside a delete call. -/
structure DelProc where
  disk : DB
  pc : DelPC

/-- One step of `OptimisticDeleteStream` (leveldb_store.go:133-193) on a store without stuck locks and
with a live context. -/
def DelProc.step (z : Serializer) (stream : Str) (expected : Nat) (p : DelProc) : DelProc :=
  match p.pc with
  | .start =>
    let it := DbIter.new p.disk (getStreamKeyPrefix stream)
    ⟨p.disk, .loop 0 [] (DbIter.each (it.items.length + 1) it)⟩
  | .loop cnt batch [] =>
    if cnt = 0 then ⟨p.disk, .done (.error .notFound)⟩
    else if cnt ≠ expected then ⟨p.disk, .done (.error (.unexpected expected cnt))⟩
    else ⟨p.disk, .written (apply p.disk batch)⟩
  | .loop cnt batch ((k, v) :: todo) =>
    match z.deser v with
    | none => ⟨p.disk, .done (.error .deserialize)⟩
    | some record =>
      ⟨p.disk, .loop (cnt + 1) (batch ++
        [.del k,
         .del (getKeyWithNumber (getAggregateTypeKeyPrefix record.aggType) record.gsn),
         .del (getKeyWithNumber allEventsPrefix record.gsn)]) todo⟩
  | .written view => ⟨view, .done (.ok ())⟩
  | .done r => ⟨p.disk, .done r⟩

/-- `n` steps of a delete call started on `disk`. -/
def deleteSteps (z : Serializer) (stream : Str) (expected : Nat) (disk : DB) : Nat → DelProc
  | 0 => ⟨disk, .start⟩
  | n + 1 => (deleteSteps z stream expected disk n).step z stream expected

/-- Opening the store again after a crash: the open transaction and all locks are gone. -/
def reopen (disk : DB) : State := ⟨disk, false, false⟩

end RangeDB.LD

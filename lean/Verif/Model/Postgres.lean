import Verif.Model.Remote

/-!
# Model: the PostgreSQL store (provider/postgresstore/postgres_store.go)

Calls are processes whose SQL statements interleave in any order; every statement is one atomic step. PostgreSQL itself
is not in /repo. Modelled of it, at the default isolation level READ COMMITTED that `BeginTx(ctx, nil)` asks for: a
statement sees the rows that are committed when it starts; rows become visible or disappear at the commit; `SERIAL`
numbers are drawn row by row from a sequence while the insert runs and are not given back; `pg_advisory_xact_lock` waits
until nobody holds the key and holds it until the end of the transaction; `max_connections`, or the pool's limit, bounds
the number of open transactions. Any statement may fail, and the reply to a commit may be lost. A `DELETE` that waits for
a row lock of another `DELETE` is not modelled: the rows are removed by the first one to commit. The limit of
65535 parameters of a statement and the width of `SERIAL` are in `Model/PgNotify.lean`; here such an insert is a failing
statement. Broken connections are not modelled.

Data and metadata are JSON texts, as in `Model/JsonRecord.lean`; the event ID and time are given with the event.
-/

namespace RangeDB.PG

open RangeDB.Json

/-- `fnv.New32a` over the bytes of the name (postgres_store.go:523-525). -/
def fnv32a (s : Str) : Nat := s.foldl (fun h b => ((h ^^^ b) * 16777619) % 4294967296) 2166136261

/-- How the store was set up (postgres_store.go:60-109). -/
structure Config where
  /-- `WithUUIDGenerator` was given; otherwise the generator is nil -/
  uuid : Bool
  /-- `WithPgNotify` was given -/
  notify : Bool
  /-- the bound event types -/
  ty : Types
  /-- the number of connections -/
  cap : Nat

/-- A call of `Save`, `OptimisticSave` or `OptimisticDeleteStream`. -/
inductive Call where
  | save (stream : Str) (expected : Option Nat) (ers : List EventRecord)
  | delete (stream : Str) (expected : Nat)

/-- How far a call is. -/
inductive Proc where
  | idle
  /-- `BeginTx` has returned -/
  | begun (c : Call)
  /-- `lockStream` has returned -/
  | locked (stream : Str) (expected : Option Nat) (ers : List EventRecord)
  /-- the insert is running: rows without a global number, rows with one -/
  | inserting (stream : Str) (expected : Option Nat) (ers : List EventRecord) (todo rows : List Record)
  /-- `Commit` has returned -/
  | committed (stream : Str) (expected : Option Nat) (ers : List EventRecord) (rows : List Record)
  /-- the delete has found the expected number of events -/
  | delCounted (stream : Str) (expected : Nat)
  /-- the `DELETE` has run on these global numbers -/
  | delExecuted (stream : Str) (expected : Nat) (gsns : List Nat)
  | returned (c : Call) (out : Outcome Nat)

structure State where
  /-- the committed rows, by global number -/
  table : Nat → Option Record
  /-- the next number of the sequence -/
  nextGsn : Nat
  /-- who holds which advisory lock -/
  locks : Nat → Option Nat
  procs : Nat → Proc
  /-- open transactions -/
  conns : Nat
  /-- what was handed to the broadcaster -/
  live : List Record
  /-- the notifications that the database has sent -/
  notified : List Record
  /-- ghost: the saves that were committed, in order -/
  hist : List (Str × Option Nat × List Record)

def init : State := ⟨fun _ => none, 1, fun _ => none, fun _ => .idle, 0, [], [], []⟩

def setProc (s : State) (p : Nat) (x : Proc) : State := { s with procs := fun q => if q = p then x else s.procs q }

/-- The committed rows in the order of their global numbers. -/
def State.rows (s : State) : List Record := (List.range s.nextGsn).filterMap s.table

/-- The committed rows of a stream. -/
def State.streamRows (s : State) (st : Str) : List Record := s.rows.filter (fun r => r.streamName == st)

/-- `getStreamSequenceNumber` (postgres_store.go:580-600). -/
def lastSeq (s : State) (st : Str) : Nat := (s.streamRows st).foldl (fun m r => max m r.seq) 0

/-- `eventRecordsToBatchRecords` (postgres_store.go:421-463): the rows, without their global numbers. `t` and `i` are
those of the first event. A nil UUID generator panics. -/
def toBatch (uuid : Bool) (st t i : Str) : Nat → List EventRecord → Outcome (List Record)
  | _, [] => .ok []
  | n, er :: ers =>
    if t ≠ er.event.aggType then .err .unmatchedType
    else if i ≠ er.event.aggId then .err .unmatchedId
    else
      match marshalValue er.event.data, marshalValue er.metadata with
      | some d, some m =>
        if uuid then
          match toBatch uuid st t i (n + 1) ers with
          | .ok rs =>
            .ok (⟨st, er.event.aggType, er.event.aggId, 0, n + 1, er.now, er.uuid, er.event.evType, d.text, m.text⟩ :: rs)
          | x => x
        else .panic
      | _, _ => .err .serialize

/-- The end of a transaction: the advisory locks are released and the connection goes back to the pool. -/
def endTx (s : State) (p : Nat) : State :=
  { s with locks := fun k => if s.locks k = some p then none else s.locks k, conns := s.conns - 1 }

/-- `Rollback`, and the call returns. -/
def rollback (s : State) (p : Nat) (c : Call) (e : Err) : State := setProc (endTx s p) p (.returned c (.err e))

/-- The rows with their global numbers become visible. -/
def insertRows (table : Nat → Option Record) (rows : List Record) : Nat → Option Record :=
  rows.foldl (fun t r => fun g => if g = r.gsn then some r else t g) table

/-- `json.Unmarshal(text, metadata)` with a nil `metadata` always fails; it is not called for `null`
(postgres_store.go:405-411, 645-653, 753-760). -/
def metadataOk (r : Record) : Bool := r.metadata == nullText

/-- A row as it is handed out: data decoded (postgres_store.go:634-642), metadata nil. -/
def decodeRow (ty : Types) (r : Record) : Option Record :=
  match Rem.decodeData ty r.evType r.data with
  | none => none
  | some d => if metadataOk r then some { r with data := d, metadata := nullText } else none

/-- `batchNotifySubscribers` (postgres_store.go:381-419): what is handed to the broadcaster, and whether all was. -/
def notifyRows (ty : Types) : List Record → List Record × Bool
  | [] => ([], true)
  | r :: rs =>
    match decodeRow ty r with
    | none => ([], false)
    | some x => let rest := notifyRows ty rs; (x :: rest.1, rest.2)

/-- The last sequence number of a batch (postgres_store.go:468-487). -/
def lastOf (rows : List Record) : Nat := (rows.getLast?.map (·.seq)).getD 0

/-- What happens next to a process. -/
inductive Move where
  /-- a new call -/
  | call (c : Call)
  /-- the next statement succeeds, or waits if it cannot proceed -/
  | go
  /-- the next statement fails -/
  | fail
  /-- the commit takes place, but its reply is lost -/
  | lost

/-- One step of process `p`. Moves that do not apply change nothing. -/
def step (cfg : Config) (s : State) (p : Nat) (m : Move) : State :=
  match s.procs p, m with
  | .idle, .call c => if s.conns < cfg.cap then setProc { s with conns := s.conns + 1 } p (.begun c) else s
  -- a call that has panicked still holds its transaction and does not go on
  | .returned _ .panic, .call _ => s
  | .returned _ _, .call c => if s.conns < cfg.cap then setProc { s with conns := s.conns + 1 } p (.begun c) else s
  -- saveEvents (postgres_store.go:302-338): lockStream (519-533)
  | .begun (.save st e ers), .go =>
    if ers.length < 1 then rollback s p (.save st e ers) .missingEvents
    else
      match s.locks (fnv32a st) with
      | none => setProc { s with locks := fun k => if k = fnv32a st then some p else s.locks k } p (.locked st e ers)
      | some _ => s
  | .begun (.save st e ers), .fail => rollback s p (.save st e ers) .db
  -- validateStreamSequenceNumber (365-379) and eventRecordsToBatchRecords
  | .locked st e ers, .go =>
    match (match e with
      | some x => if lastSeq s st ≠ x then some (Err.unexpected x (lastSeq s st)) else none
      | none => none) with
    | some err => rollback s p (.save st e ers) err
    | none =>
      match toBatch cfg.uuid st ((ers.map (·.event.aggType)).headD []) ((ers.map (·.event.aggId)).headD []) (lastSeq s st)
        ers with
      | .ok rs => setProc s p (.inserting st e ers rs [])
      | .err x => rollback s p (.save st e ers) x
      -- the panic passes through: the transaction is neither committed nor rolled back
      | .panic => setProc s p (.returned (.save st e ers) .panic)
      | .blocked => s
  | .locked st e ers, .fail => rollback s p (.save st e ers) .db
  -- batchInsert (465-517)
  | .inserting st e ers (r :: todo) rows, .go =>
    setProc { s with nextGsn := s.nextGsn + 1 } p (.inserting st e ers todo (rows ++ [{ r with gsn := s.nextGsn }]))
  | .inserting st e ers (_ :: _) _, .fail => rollback s p (.save st e ers) .db
  -- Commit (287-290)
  | .inserting st e ers [] rows, .go =>
    setProc (endTx { s with
      table := insertRows s.table rows, hist := s.hist ++ [(st, e, rows)],
      notified := s.notified ++ (if cfg.notify then rows else []) } p) p (.committed st e ers rows)
  | .inserting st e ers [] rows, .lost =>
    setProc (endTx { s with
      table := insertRows s.table rows, hist := s.hist ++ [(st, e, rows)],
      notified := s.notified ++ (if cfg.notify then rows else []) } p) p (.returned (.save st e ers) (.err .db))
  | .inserting st e ers [] _, .fail => rollback s p (.save st e ers) .db
  -- after the commit (292-299)
  | .committed st e ers rows, .go =>
    if cfg.notify then setProc s p (.returned (.save st e ers) (.ok (lastOf rows)))
    else
      let n := notifyRows cfg.ty rows
      setProc { s with live := s.live ++ n.1 } p
        (.returned (.save st e ers) (if n.2 then .ok (lastOf rows) else .err .deserialize))
  -- OptimisticDeleteStream (225-259): three returns without Rollback
  | .begun (.delete st n), .go =>
    if lastSeq s st = 0 then setProc s p (.returned (.delete st n) (.err .notFound))
    else if lastSeq s st ≠ n then setProc s p (.returned (.delete st n) (.err (.unexpected n (lastSeq s st))))
    else setProc s p (.delCounted st n)
  | .begun (.delete st n), .fail => setProc s p (.returned (.delete st n) (.err .db))
  | .delCounted st n, .go => setProc s p (.delExecuted st n ((s.streamRows st).map (·.gsn)))
  | .delCounted st n, .fail => rollback s p (.delete st n) .db
  | .delExecuted st n gsns, .go =>
    setProc (endTx { s with table := fun g => (s.table g).filter (fun r => !(gsns.contains g && r.streamName == st)) } p) p
      (.returned (.delete st n) (.ok 0))
  | .delExecuted st n gsns, .lost =>
    setProc (endTx { s with table := fun g => (s.table g).filter (fun r => !(gsns.contains g && r.streamName == st)) } p) p
      (.returned (.delete st n) (.err .db))
  | .delExecuted st n _, .fail => rollback s p (.delete st n) .db
  | _, _ => s

/-- A schedule: which process moves, and how. -/
abbrev Schedule := List (Nat × Move)

def runFrom (cfg : Config) (s : State) (ms : Schedule) : State := ms.foldl (fun s m => step cfg s m.1 m.2) s

def run (cfg : Config) (ms : Schedule) : State := runFrom cfg init ms

/-! ## Reading -/

/-- `readResultRecords` (postgres_store.go:602-682), without cancellation (see C48). -/
def readRows (ty : Types) : List Record → Iter
  | [] => ⟨[], none⟩
  | r :: rs =>
    match decodeRow ty r with
    | none => ⟨[], some .deserialize⟩
    | some x => let rest := readRows ty rs; ⟨x :: rest.recs, rest.err⟩

/-- `Events` (postgres_store.go:120-151). -/
def events (cfg : Config) (s : State) (g : Nat) : Iter := readRows cfg.ty (s.rows.filter (fun r => g ≤ r.gsn))

/-- `EventsByAggregateTypes` (postgres_store.go:157-187). -/
def eventsByAggregateTypes (cfg : Config) (s : State) (g : Nat) (types : List Str) : Iter :=
  readRows cfg.ty (s.rows.filter (fun r => types.contains r.aggType && decide (g ≤ r.gsn)))

/-- `EventsByStream` (postgres_store.go:189-223). -/
def eventsByStream (cfg : Config) (s : State) (n : Nat) (st : Str) : Iter :=
  let it := readRows cfg.ty ((s.streamRows st).filter (fun r => n ≤ r.seq))
  if it.err = none ∧ it.recs = [] then ⟨[], some .notFound⟩ else it

/-- `TotalEventsInStream` (postgres_store.go:361-363). -/
def totalEventsInStream (s : State) (st : Str) : Nat := lastSeq s st

/-! ## The listener -/

/-- What became of the goroutine `listen`. -/
inductive Listener where
  | listening
  | stopped
  | panicked
deriving DecidableEq, Repr

/-- `listen` (postgres_store.go:732-786): the records that it broadcasts. A nil notification, which lib/pq sends after it
has reconnected, is dereferenced (line 737). The row is read from the JSON of the notification without loss, see
`Model/PgNotify.lean` and C115. -/
def listen (ty : Types) : List (Option Record) → List Record × Listener
  | [] => ([], .listening)
  | none :: _ => ([], .panicked)
  | some r :: ns =>
    match decodeRow ty r with
    | none => ([], .stopped)
    | some x => let rest := listen ty ns; (x :: rest.1, rest.2)

end RangeDB.PG

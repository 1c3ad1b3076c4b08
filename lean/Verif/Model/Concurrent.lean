import Verif.Spec.Linearizable
import Verif.Model.InMemory
import Verif.Model.LevelDB

/-!
# Model: any number of goroutines calling one in-memory or LevelDB store

Each call is a program of small steps. Its steps and those of other calls interleave as the schedule says, subject
to the store's `sync.RWMutex`. The programs below follow the functions of `Model/InMemory` and `Model/LevelDB`
statement by statement; that they do the same when nothing runs at the same time is a theorem
(`Proof/Concurrent`).

Simplifications. A waiting writer keeps no new reader out (Go's does; so there are more schedules here than in Go,
see `Model/Lock` for deadlocks). A read of several aggregate types takes the lock several times and is not
treated here (C23, C24). A read returns when its last record has been received. Handing the saved records to the
broadcaster is part of the result (C21, C53 treat subscriptions).
-/

namespace RangeDB.Lin

/-- A program: a step reads the content, changes it, and goes on. -/
inductive Prog (σ ρ : Type) where
  | ret (r : ρ)
  | step (f : σ → σ) (k : σ → Prog σ ρ)

variable {κ σ ρ : Type}

/-- The program with nothing else happening. -/
def Prog.run : Prog σ ρ → σ → σ × ρ
  | .ret r, s => (s, r)
  | .step f k, s => (k s).run (f s)

/-- What a call holds while its program runs. -/
inductive Mode where
  | none | read | write
deriving DecidableEq

/-- A store: for each call its lock and its program, and the results with which a goroutine stops for good without
giving its lock back. -/
structure Impl (κ σ ρ : Type) where
  mode : κ → Mode
  body : κ → Prog σ ρ
  keeps : ρ → Bool

/-- Where a call is. -/
inductive PC (σ ρ : Type) where
  /-- made, without the lock -/
  | called
  /-- running, with its lock -/
  | body (p : Prog σ ρ)
  /-- has given back the lock -/
  | done (r : ρ)
  /-- has returned -/
  | returned (r : ρ)

/-- A call and where it is. -/
structure Entry (κ σ ρ : Type) where
  call : κ
  pc : PC σ ρ

/-- The store, all calls in the order in which they were made, and what happened so far. -/
structure State (κ σ ρ : Type) where
  content : σ
  calls : List (Entry κ σ ρ)
  hist : List (Event ρ)

/-- Before the first call. -/
def init (x : σ) : State κ σ ρ := ⟨x, [], []⟩

/-- Scheduling choices. -/
inductive Label (κ : Type) where
  /-- somebody makes a call -/
  | invoke (c : κ)
  /-- call `i` gets its lock -/
  | lock (i : Nat)
  /-- the next step of call `i` -/
  | step (i : Nat)
  /-- call `i` is at its end and gives the lock back -/
  | unlock (i : Nat)
  /-- call `i` returns -/
  | ret (i : Nat)

/-- The call holds its lock in this mode. -/
def Entry.holds (I : Impl κ σ ρ) (m : Mode) (e : Entry κ σ ρ) : Bool :=
  match e.pc with
  | .body _ => I.mode e.call = m
  | _ => false

/-- Can a call get this lock? -/
def State.free (I : Impl κ σ ρ) (s : State κ σ ρ) : Mode → Bool
  | .none => true
  | .read => !s.calls.any (Entry.holds I .write)
  | .write => !s.calls.any (Entry.holds I .write) && !s.calls.any (Entry.holds I .read)

/-- Set where call `i` is. -/
def State.set (s : State κ σ ρ) (i : Nat) (c : κ) (pc : PC σ ρ) : State κ σ ρ :=
  { s with calls := s.calls.set i ⟨c, pc⟩ }

/-- One step; `none` if it is not possible. -/
def step (I : Impl κ σ ρ) (s : State κ σ ρ) : Label κ → Option (State κ σ ρ)
  | .invoke c => some ⟨s.content, s.calls ++ [⟨c, .called⟩], s.hist ++ [.inv s.calls.length]⟩
  | .lock i =>
    match s.calls[i]? with
    | some ⟨c, .called⟩ => if s.free I (I.mode c) then some (s.set i c (.body (I.body c))) else none
    | _ => none
  | .step i =>
    match s.calls[i]? with
    | some ⟨c, .body (.step f k)⟩ => some { s.set i c (.body (k s.content)) with content := f s.content }
    | _ => none
  | .unlock i =>
    match s.calls[i]? with
    | some ⟨c, .body (.ret r)⟩ => if I.keeps r then none else some (s.set i c (.done r))
    | _ => none
  | .ret i =>
    match s.calls[i]? with
    | some ⟨c, .done r⟩ => some { s.set i c (.returned r) with hist := s.hist ++ [.res i r] }
    | _ => none

/-- A schedule. -/
def exec (I : Impl κ σ ρ) : State κ σ ρ → List (Label κ) → Option (State κ σ ρ)
  | s, [] => some s
  | s, l :: ls =>
    match step I s l with
    | none => none
    | some s' => exec I s' ls

/-! ## The calls of a store -/

/-- The methods of a store, with their arguments. -/
inductive Call where
  /-- `Save` (`expected = none`) and `OptimisticSave`; the context is done from event `cancelAt` on -/
  | save (stream : Str) (expected cancelAt : Option Nat) (ers : List EventRecord)
  /-- `OptimisticDeleteStream` -/
  | delete (stream : Str) (expected : Nat) (cancelled : Bool)
  /-- `TotalEventsInStream` -/
  | total (stream : Str) (cancelled : Bool)
  /-- `Events`, read to the end -/
  | events (cancelAt : Option Nat) (from_ : Nat)
  /-- `EventsByStream` -/
  | stream (cancelAt : Option Nat) (from_ : Nat) (name : Str)
  /-- `EventsByAggregateTypes` of one type -/
  | type (cancelAt : Option Nat) (from_ : Nat) (name : Str)

/-- What they return. -/
inductive Res where
  /-- the outcome, and the records for the broadcaster -/
  | saved (out : Outcome Nat) (broadcast : List Record)
  | deleted (out : Outcome Unit)
  | total (out : Outcome Nat)
  | read (it : Outcome Iter)
deriving DecidableEq

/-- The goroutine never gets to its `Unlock`: it waits for ever, or it panicked in `saveEvents` of the in-memory
store, which has no deferred `Unlock`. (`OptimisticDeleteStream` has one, inmemory_store.go:177.) -/
def Res.keeps : Res → Bool
  | .saved .blocked _ => true
  | .saved .panic _ => true
  | .deleted .blocked => true
  | .total .blocked => true
  | .read .blocked => true
  | _ => false

/-- A step that changes nothing. -/
def look (k : σ → Prog σ ρ) : Prog σ ρ := .step id k

/-! ## The in-memory store -/

namespace InM

/-- The loop of `saveEvents` (inmemory_store.go:238-285): one step for `saveEvent`, another for the removal after
an error. -/
def saveLoop (z : Serializer) (stream : Str) (cancelAt : Option Nat) :
    (i : Nat) → (prevType prevId : Str) → (expected : Option Nat) →
    (created : List Nat) → (pending : List Str) → (last : Nat) → List EventRecord → Prog IM.State Res
  | _, _, _, _, _, pending, last, [] => .ret (.saved (.ok last) (pending.filterMap z.deser))
  | i, prevType, prevId, expected, created, pending, _, er :: ers =>
    if prevType ≠ [] ∧ prevType ≠ er.event.aggType then .ret (.saved (.err .unmatchedType) [])
    else if prevId ≠ [] ∧ prevId ≠ er.event.aggId then .ret (.saved (.err .unmatchedId) [])
    else if ctxDone cancelAt i then .ret (.saved (.err .canceled) [])
    else
      .step (fun s => (IM.saveEvent z s stream expected er).1) fun s =>
        match (IM.saveEvent z s stream expected er).2 with
        | .error e =>
          .step (fun s1 =>
              match IM.removeRecentEvents s1 created er.event.aggType er.event.aggId with
              | (s2, true) => { s2 with locked := true }
              | (s2, false) => s2) fun s1 =>
            if (IM.removeRecentEvents s1 created er.event.aggType er.event.aggId).2 then .ret (.saved .panic [])
            else .ret (.saved (.err e) [])
        | .ok (data, record) =>
          saveLoop z stream cancelAt (i + 1) er.event.aggType er.event.aggId
            (expected.map (· + 1)) (created ++ [record.gsn]) (pending ++ [data]) record.seq ers

/-- The loop of `OptimisticDeleteStream` (191-208). -/
def deleteLoop (stream : Str) : List Nat → Prog IM.State Res
  | [] => .step (fun s => { s with streams := IM.setMap s.streams stream none }) fun _ => .ret (.deleted (.ok ()))
  | x :: xs =>
    .step (fun s => (IM.deleteOne s x).1) fun s =>
      if (IM.deleteOne s x).2 then .ret (.deleted .panic) else deleteLoop stream xs

/-- `recordsByIDs` (138-163): one step per ID; `out` is what has been sent. -/
def readLoop (z : Serializer) (cancelAt : Option Nat) (keep : Record → Bool) (out : List Record) :
    List Nat → Prog IM.State Res
  | [] => .ret (.read (.ok ⟨out, none⟩))
  | id :: ids =>
    look fun s =>
      match s.data id with
      | none => .ret (.read (.ok ⟨out, some .recordMissing⟩))
      | some data =>
        match z.deser data with
        | none => .ret (.read (.ok ⟨out, some .deserialize⟩))
        | some record =>
          if keep record then
            if ctxDone cancelAt out.length then .ret (.read (.ok ⟨out, some .canceled⟩))
            else readLoop z cancelAt keep (out ++ [record]) ids
          else readLoop z cancelAt keep out ids

/-- The calls. A test before the lock is taken (169-174, 227-229, 385-390) that fails ends the call. The test for
`locked` never succeeds when a call has the lock; it is there because `Model/InMemory` has it. -/
def impl (z : Serializer) : Impl Call IM.State Res where
  keeps := Res.keeps
  mode
    | .save _ _ _ ers => if ers.length < 1 then .none else .write
    | .delete _ _ cancelled => if cancelled then .none else .write
    | .total _ cancelled => if cancelled then .none else .read
    | _ => .read
  body
    | .save stream expected cancelAt ers =>
      if ers.length < 1 then .ret (.saved (.err .missingEvents) [])
      else look fun s =>
        if s.locked then .ret (.saved .blocked [])
        else saveLoop z stream cancelAt 0 [] [] expected [] [] 0 ers
    | .delete stream expected cancelled =>
      if cancelled then .ret (.deleted (.err .canceled))
      else look fun s =>
        if s.locked then .ret (.deleted .blocked)
        else
          match s.streams stream with
          | none => .ret (.deleted (.err .notFound))
          | some gsns =>
            if expected ≠ gsns.length then .ret (.deleted (.err (.unexpected expected gsns.length)))
            else deleteLoop stream gsns
    | .total stream cancelled =>
      if cancelled then .ret (.total (.err .canceled))
      else look fun s => .ret (.total (IM.totalEventsInStream s stream false))
    | .events cancelAt g => look fun s => readLoop z cancelAt (fun r => r.gsn ≥ g) [] s.records
    | .stream cancelAt n name => look fun s =>
      if (s.streams name).isNone ∨ (IM.get s.streams name).length = 0 then .ret (.read (.ok ⟨[], some .notFound⟩))
      else readLoop z cancelAt (fun r => r.seq ≥ n) [] (IM.get s.streams name)
    | .type cancelAt g name => look fun s => readLoop z cancelAt (fun r => r.gsn ≥ g) [] (IM.get s.aggTypes name)

/-- What a call does when nothing else happens: the functions of `Model/InMemory`. -/
def spec (z : Serializer) : Call → IM.State → IM.State × Res
  | .save stream expected cancelAt ers, s =>
    ((IM.saveEvents z s stream expected cancelAt ers).state,
      .saved (IM.saveEvents z s stream expected cancelAt ers).out
        (IM.saveEvents z s stream expected cancelAt ers).broadcast)
  | .delete stream expected cancelled, s =>
    ((IM.deleteStream s stream expected cancelled).1, .deleted (IM.deleteStream s stream expected cancelled).2)
  | .total stream cancelled, s => (s, .total (IM.totalEventsInStream s stream cancelled))
  | .events cancelAt g, s => (s, .read (.ok (IM.events z s cancelAt g)))
  | .stream cancelAt n name, s => (s, .read (.ok (IM.eventsByStream z s cancelAt n name)))
  | .type cancelAt g name, s => (s, .read (.ok (IM.eventsByType z s cancelAt g name)))

end InM

/-! ## The LevelDB store -/

namespace Lev

open KV

/-- The loop of `saveEvents` (leveldb_store.go:219-258) on the transaction's view; committing is one step. -/
def saveLoop (z : Serializer) (stream : Str) (cancelAt : Option Nat) :
    (i : Nat) → (view : DB) → (prevType prevId : Str) → (expected : Option Nat) →
    (pending : List Str) → (last : Nat) → List EventRecord → Prog LD.State Res
  | _, view, _, _, _, pending, last, [] =>
    .step (fun s => { s with db := view }) fun _ => .ret (.saved (.ok last) (pending.filterMap z.deser))
  | i, view, prevType, prevId, expected, pending, _, er :: ers =>
    if prevType ≠ [] ∧ prevType ≠ er.event.aggType then .ret (.saved (.err .unmatchedType) [])
    else if prevId ≠ [] ∧ prevId ≠ er.event.aggId then .ret (.saved (.err .unmatchedId) [])
    else
      look fun _ =>
        match LD.saveEvent z view stream expected (ctxDone cancelAt i) er with
        | .error e => .ret (.saved (.err e) [])
        | .ok (view', data, seq) =>
          saveLoop z stream cancelAt (i + 1) view' er.event.aggType er.event.aggId
            (expected.map (· + 1)) (pending ++ [data]) seq ers

/-- The rest of `OptimisticDeleteStream` from its loop on (154-192); every error leaves the transaction open. -/
def deleteLoop (z : Serializer) (expected : Nat) : (cnt : Nat) → (batch : List Write) → DB → Prog LD.State Res
  | cnt, batch, [] =>
    if cnt = 0 then .step (fun s => { s with txOpen := true }) fun _ => .ret (.deleted (.err .notFound))
    else if cnt ≠ expected then
      .step (fun s => { s with txOpen := true }) fun _ => .ret (.deleted (.err (.unexpected expected cnt)))
    else .step (fun s => { s with db := apply s.db batch }) fun _ => .ret (.deleted (.ok ()))
  | cnt, batch, (k, v) :: rest =>
    match z.deser v with
    | none => .step (fun s => { s with txOpen := true }) fun _ => .ret (.deleted (.err .deserialize))
    | some record =>
      look fun _ => deleteLoop z expected (cnt + 1) (batch ++
        [.del k,
         .del (LD.getKeyWithNumber (LD.getAggregateTypeKeyPrefix record.aggType) record.gsn),
         .del (LD.getKeyWithNumber LD.allEventsPrefix record.gsn)]) rest

/-- The loop of `getEventsByPrefix` (379-395); `out` is what has been sent. -/
def prefixLoop (z : Serializer) (cancelAt : Option Nat) (n : Nat) (out : List Record) : DB → Prog LD.State Res
  | [] => .ret (.read (.ok ⟨out, none⟩))
  | (_, v) :: rest =>
    look fun _ =>
      match z.deser v with
      | none => .ret (.read (.ok ⟨out, some .deserialize⟩))
      | some record =>
        if record.seq < n then prefixLoop z cancelAt n out rest
        else if ctxDone cancelAt out.length then .ret (.read (.ok ⟨out, some .canceled⟩))
        else prefixLoop z cancelAt n (out ++ [record]) rest

/-- The loop of `getEventsByLookup` (427-443): each record is fetched from the database in its own step. -/
def lookupLoop (z : Serializer) (cancelAt : Option Nat) (g : Nat) (out : List Record) : DB → Prog LD.State Res
  | [] => .ret (.read (.ok ⟨out, none⟩))
  | (_, target) :: rest =>
    look fun s =>
      match get s.db target with
      | none => .ret (.read (.ok ⟨out, some .db⟩))
      | some v =>
        match z.deser v with
        | none => .ret (.read (.ok ⟨out, some .deserialize⟩))
        | some record =>
          if record.gsn < g then lookupLoop z cancelAt g out rest
          else if ctxDone cancelAt out.length then .ret (.read (.ok ⟨out, some .canceled⟩))
          else lookupLoop z cancelAt g (out ++ [record]) rest

/-- `getEventsByLookup` (408-447). -/
def lookup (z : Serializer) (cancelAt : Option Nat) (key : Str) (g : Nat) : Prog LD.State Res :=
  look fun s =>
    if s.muxHeld then .ret (.read .blocked)
    else
      let it := LD.lookupStart s.db key g
      lookupLoop z cancelAt g [] (DbIter.each (it.items.length + 1) it)

/-- The calls. `OpenTransaction` (144, 214) waits for ever if an earlier delete has left its transaction open.
`TotalEventsInStream` (355-364) takes no lock. The test for `muxHeld` never succeeds when a call has the lock. -/
def impl (z : Serializer) : Impl Call LD.State Res where
  keeps := Res.keeps
  mode
    | .save _ _ _ ers => if ers.length < 1 then .none else .write
    | .delete _ _ cancelled => if cancelled then .none else .write
    | .total _ _ => .none
    | _ => .read
  body
    | .save stream expected cancelAt ers =>
      if ers.length < 1 then .ret (.saved (.err .missingEvents) [])
      else look fun s =>
        if s.muxHeld then .ret (.saved .blocked [])
        else if s.txOpen then .step (fun s => { s with muxHeld := true }) fun _ => .ret (.saved .blocked [])
        else saveLoop z stream cancelAt 0 s.db [] [] expected [] 0 ers
    | .delete stream expected cancelled =>
      if cancelled then .ret (.deleted (.err .canceled))
      else look fun s =>
        if s.muxHeld then .ret (.deleted .blocked)
        else if s.txOpen then .step (fun s => { s with muxHeld := true }) fun _ => .ret (.deleted .blocked)
        else
          let it := DbIter.new s.db (LD.getStreamKeyPrefix stream)
          deleteLoop z expected 0 [] (DbIter.each (it.items.length + 1) it)
    | .total stream cancelled =>
      if cancelled then .ret (.total (.err .canceled))
      else look fun s => .ret (.total (LD.totalEventsInStream s stream false))
    | .events cancelAt g => lookup z cancelAt LD.allEventsPrefix g
    | .stream cancelAt n name => look fun s =>
      if s.muxHeld then .ret (.read .blocked)
      else
        let it := DbIter.new s.db (LD.getStreamKeyPrefix name)
        let visited := DbIter.each (it.items.length + 1) it
        if visited.length = 0 then .ret (.read (.ok ⟨[], some .notFound⟩)) else prefixLoop z cancelAt n [] visited
    | .type cancelAt g name => lookup z cancelAt (LD.getAggregateTypeKeyPrefix name) g

/-- What a call does when nothing else happens: the functions of `Model/LevelDB`. -/
def spec (z : Serializer) : Call → LD.State → LD.State × Res
  | .save stream expected cancelAt ers, s =>
    ((LD.saveEvents z s stream expected cancelAt ers).state,
      .saved (LD.saveEvents z s stream expected cancelAt ers).out
        (LD.saveEvents z s stream expected cancelAt ers).broadcast)
  | .delete stream expected cancelled, s =>
    ((LD.deleteStream z s stream expected cancelled).1, .deleted (LD.deleteStream z s stream expected cancelled).2)
  | .total stream cancelled, s => (s, .total (LD.totalEventsInStream s stream cancelled))
  | .events cancelAt g, s => (s, .read (LD.events z s cancelAt g))
  | .stream cancelAt n name, s => (s, .read (LD.eventsByStream z s cancelAt n name))
  | .type cancelAt g name, s => (s, .read (LD.eventsByAggregateTypes z s (fun _ => cancelAt) g [name]))

end Lev

end RangeDB.Lin

import Verif.Model.Merge
import Verif.Spec.EventLog

/-!
# Model of a subscription running beside savers and the broadcaster

A state machine: one transition per atomic action of the store's savers, the broadcaster goroutine and
one subscriber. An execution is any list of transitions, so the theorems quantify over all schedules.

Simplifications. The store is the abstract `Log` that the in-memory and the LevelDB store are proved to
implement (C01-C15). Channels are unbounded queues and a receiver may time out at any send, which allows
more schedules than bounded channels and the 100 ms timer do. A save may commit while a reader still
holds unread records; the real lock allows this only for the last of them. Other subscribers are not
part of the state: they do not influence what this one is sent (C22).
-/

namespace RangeDB.Sub

/-- What a subscriber registers for at the broadcaster (broadcaster.go:44-45): all events (`none`) or one
aggregate type. -/
abbrev Topic := Option Str

/-- Is the record sent to the subscribers of the topic (broadcaster.go:130, 140)? -/
def Topic.matches (t : Topic) (r : Record) : Bool :=
  match t with
  | none => true
  | some a => decide (r.aggType = a)

/-- The fixed parameters of an execution. -/
structure Params where
  /-- Does a saver keep the store's lock while it hands records to the broadcaster?
  `true`: leveldb_store.go:212-213, 263-270. `false`: inmemory_store.go:286-295. -/
  holds : Bool
  /-- What the subscriber asked for: `[none]` for `AllEventsSubscription` (recordsubscriber/config.go:21-36), the
  requested types for `AggregateTypesSubscription` (config.go:39-54). -/
  topics : List Topic
  /-- `some n` for `StartFrom(n)`, `none` for `Start()`. -/
  startFrom : Option Nat

/-- Where the subscriber's goroutine stands (record_subscriber.go:57-115). -/
inductive PC where
  /-- before the call of `StartFrom`/`Start` -/
  | idle
  /-- in `getRecords`: the topics still to be read, and the snapshots taken so far -/
  | fetch (second : Bool) (todo : List Topic) (got : List (List Record))
  /-- in `writeRecords` (125-139): records the iterator still holds -/
  | reading (second : Bool) (rest : List Record)
  /-- in `subscribe`: the topics still to be registered -/
  | registering (todo : List Topic)
  /-- in `work` (90-115) -/
  | working
  /-- returned -/
  | finished
deriving DecidableEq, Repr

/-- The state of an execution. -/
structure State where
  /-- the store -/
  log : Log
  /-- for each saver that has stored its batch: the records it has yet to pass to `Accept` -/
  savers : List (List Record)
  /-- `bufferedRecords` of the broadcaster -/
  queue : List Record
  /-- the topics the subscriber is registered for -/
  regs : List Topic
  /-- `bufferedRecords` of the subscriber -/
  buf : List Record
  /-- the subscriber's goroutine -/
  pc : PC
  /-- `lastGlobalSequenceNumber` -/
  last : Nat
  /-- the records passed to `consumeRecord`, oldest first -/
  out : List Record
  /-- the subscription's context is done, or its consumer has failed -/
  cancelled : Bool
  /-- history: every record ever stored, oldest first -/
  saved : List Record
  /-- history: the number above which this subscription promises to deliver: `n` for `StartFrom(n)`,
  the store's last number at registration for `Start()` -/
  floor : Nat

/-- Atomic actions. -/
inductive Label where
  /-- a saver stores its whole batch under the lock -/
  | commit (st : Str) (ers : List EventRecord)
  /-- a batch of the in-memory store fails part-way: its first events stay stored (C06) and are never
  broadcast (inmemory_store.go:238-274 returns before line 288) -/
  | orphan (st : Str) (ers : List EventRecord)
  /-- a stream is deleted -/
  | delete (st : Str)
  /-- saver number `i` passes its next record to `Accept` (broadcaster.go:68-70) -/
  | accept (i : Nat)
  /-- the broadcaster takes the next record and sends it to this subscriber if registered, or gives up
  after the timeout (broadcaster.go:129-149) -/
  | broadcast (timedOut : Bool)
  /-- the subscriber's goroutine does its next action -/
  | sub
  /-- the subscription's context is cancelled (by `Stop` or by the caller) -/
  | cancel
  /-- the iterator being read ends early with the context's error, which `writeRecords` ignores
  (record_subscriber.go:127-128: the loop ends before `Err` is looked at) -/
  | cut
  /-- `work` notices the done context and unregisters (93-101) -/
  | finish
  /-- `consumeRecord` returns an error for the next record: the subscription ends
  (record_subscriber.go:60-62, 67-70, 109-112) -/
  | fail

/-- Does the record interest the subscriber? -/
def Params.wants (p : Params) (r : Record) : Bool := p.topics.any (fun t => t.matches r)

/-- The initial state: a store holding `L`, no saver active, the subscription not started. -/
def init (p : Params) (L : Log) : State :=
  ⟨L, [], [], [], [], .idle, 0, [], false, L.recs, p.startFrom.getD 0⟩

/-- What reading topic `t` from number `g` on returns (C03, C04 / C11). -/
def readTopic (L : Log) (t : Topic) (g : Nat) : List Record :=
  L.recs.filter (fun r => t.matches r && decide (r.gsn ≥ g))

/-- Registering (broadcaster.go:104-105, 110-114): a map, so registering twice is registering once. -/
def addReg (regs : List Topic) (t : Topic) : List Topic := if t ∈ regs then regs else regs ++ [t]

/-- The next action of the subscriber's goroutine; `none` if it waits. -/
def subStep (p : Params) (s : State) : Option State :=
  match s.pc with
  | .idle =>
    match p.startFrom with
    | some n => some { s with last := n, pc := .fetch false p.topics [] }     -- lines 58-59
    | none =>                                                                 -- lines 77-88
      if s.cancelled then some { s with pc := .finished }
      else some { s with pc := .registering p.topics }
  | .fetch second (t :: todo) got =>
    -- taking the read lock waits for a saver that holds the lock
    if p.holds ∧ s.savers ≠ [] then none
    else
      let l := readTopic s.log t (if second then s.last + 1 else s.last)
      if p.topics.length = 1 then some { s with pc := .reading second l }
      else some { s with pc := .fetch second todo (got ++ [l]) }
  | .fetch second [] got =>
    some { s with pc := .reading second (mergeIters (got.map (fun l => ⟨l, none⟩))).recs }
  | .reading second (r :: rest) =>                                            -- lines 132, 141-144
    some { s with last := r.gsn, out := s.out ++ [r], pc := .reading second rest }
  | .reading false [] => some { s with pc := .registering p.topics }          -- line 64
  | .reading true [] => some { s with pc := .working }                        -- line 72
  | .registering (t :: todo) => some { s with regs := addReg s.regs t, pc := .registering todo }
  | .registering [] =>
    match p.startFrom with
    | some _ => some { s with pc := .fetch true p.topics [] }                 -- line 66
    | none => some { s with pc := .working, floor := s.log.last }             -- line 85
  | .working =>
    match s.buf with
    | [] => none
    | r :: buf =>                                                             -- lines 103-112
      if r.gsn ≤ s.last then some { s with buf := buf }
      else some { s with buf := buf, last := r.gsn, out := s.out ++ [r] }
  | .finished => none

/-- One action; `none` if it is not possible in the state. -/
def step (z : Serializer) (p : Params) (s : State) : Label → Option State
  | .commit st ers =>
    if p.holds ∧ s.savers ≠ [] then none
    else if ers = [] then none
    else
      let rs := (numbered st s.log.last (s.log.streamLen st) ers).map z.view
      some { s with log := s.log.append z.view st ers, savers := s.savers ++ [rs],
                    saved := s.saved ++ rs }
  | .orphan st ers =>
    if p.holds then none
    else
      let rs := (numbered st s.log.last (s.log.streamLen st) ers).map z.view
      some { s with log := s.log.append z.view st ers, saved := s.saved ++ rs }
  | .delete st => if p.holds ∧ s.savers ≠ [] then none else some { s with log := s.log.delete st }
  | .accept i =>
    match s.savers[i]? with
    | some (r :: rest) =>
      some { s with queue := s.queue ++ [r],
                    savers := if rest = [] then s.savers.eraseIdx i else s.savers.set i rest }
    | _ => none
  | .broadcast timedOut =>
    match s.queue with
    | [] => none
    | r :: queue =>
      let hit := s.regs.filter (fun t => t.matches r)
      if timedOut then
        if hit = [] then none
        else some { s with queue := queue, regs := s.regs.filter (fun t => !t.matches r),
                           cancelled := true }
      else some { s with queue := queue, buf := s.buf ++ hit.map (fun _ => r) }
  | .sub => subStep p s
  | .cancel => some { s with cancelled := true }
  | .cut =>
    match s.cancelled, s.pc with
    | true, .reading second _ => some { s with pc := .reading second [] }
    | _, _ => none
  | .finish =>
    match s.cancelled, s.pc with
    | true, .working => some { s with pc := .finished, regs := [] }
    | _, _ => none
  | .fail =>
    match subStep p s with
    | some s' =>
      if s'.out = s.out then none
      else some { s' with pc := .finished, regs := [], cancelled := true }
    | none => none

/-- An execution; `none` if some action is not possible. -/
def exec (z : Serializer) (p : Params) : State → List Label → Option State
  | s, [] => some s
  | s, l :: ls =>
    match step z p s l with
    | none => none
    | some s' => exec z p s' ls

/-- Everything has come to rest and the subscription is alive. -/
def Quiescent (s : State) : Prop :=
  s.savers = [] ∧ s.queue = [] ∧ s.buf = [] ∧ s.pc = .working ∧ s.cancelled = false

/-- The parameters of a subscription the API can create: to all events, or to distinct types. -/
def Params.Valid (p : Params) : Prop :=
  p.topics = [none] ∨ ∃ ts : List Str, ts.Nodup ∧ p.topics = ts.map some

/-- Saves do not overlap: whenever a batch is stored, every earlier saver has handed all its records to
the broadcaster; and no batch fails part-way. -/
def Serial (z : Serializer) (p : Params) (s : State) (ls : List Label) : Prop :=
  ∀ pre l post s', ls = pre ++ l :: post → exec z p s pre = some s' →
    match l with
    | .commit _ _ => s'.savers = []
    | .orphan _ _ => False
    | _ => True

end RangeDB.Sub

import Verif.Model.Subscription

/-!
# Broadcaster and subscriptions with their channels: who waits for whom

`Model/Broadcast` and `Model/Subscription` say what is delivered. This model says who waits: the buffered channel
`Accept` writes to, the unbuffered channels on which the broadcaster takes registrations, the buffer of each
subscription, the callback that may never return, and `Done`.
(pkg/broadcast/broadcaster.go, pkg/recordsubscriber/record_subscriber.go)
-/

namespace RangeDB.Stop

abbrev Topic := RangeDB.Sub.Topic

/-- Why a subscription ends. -/
inductive Cause where
  /-- its context is done, or `Stop` was called, by the user or by the broadcaster
  (record_subscriber.go:93-101, 121-123) -/
  | context
  /-- its callback returned an error (record_subscriber.go:108-112) -/
  | consumer
  /-- the second read of `StartFrom` failed, and `StartFrom` returns the error (record_subscriber.go:66-70) -/
  | startError
deriving DecidableEq, Repr

/-- Where the goroutine of a subscription is (record_subscriber.go:57-118). The first read of `StartFrom`, before it
registers, does not involve the broadcaster and is left out. -/
inductive PC where
  /-- in `s.subscribe(s)`: the topics still to be sent to the broadcaster (lines 64, 84) -/
  | starting (todo : List Topic)
  /-- in the second read of `StartFrom` (line 66) -/
  | catchUp
  /-- at the select of `work` (line 91) -/
  | loop
  /-- in the callback (line 108) -/
  | consuming
  /-- in `s.unsubscribe(s)`: the topics still to be sent (lines 68, 94, 99, 110) -/
  | leaving (todo : List Topic) (why : Cause)
  /-- the goroutine has returned -/
  | ended (why : Cause)
deriving DecidableEq, Repr

/-- A subscription (record_subscriber.go:22-34). -/
structure Subscr where
  /-- what it subscribes to: `[none]` for all events, else its aggregate types -/
  topics : List Topic
  /-- `BufferSize` -/
  cap : Nat
  /-- begun by `Start`, not by `StartFrom` -/
  live : Bool
  /-- the channel `bufferedRecords` -/
  buf : List Record
  pc : PC
  /-- its context is done -/
  cancelled : Bool
deriving DecidableEq, Repr

/-- The broadcaster's goroutine (broadcaster.go:102-128). -/
inductive Bc where
  /-- at its select -/
  | idle
  /-- in `broadcastRecord`: the record, and the registrations still to be served (lines 130-149) -/
  | sending (r : Record) (todo : List (Topic × Nat))
  /-- it has returned (line 126) -/
  | closed
deriving DecidableEq, Repr

structure State where
  /-- the channel `bufferedRecords` of the broadcaster, and its size (broadcaster.go:57) -/
  queue : List Record
  cap : Nat
  bc : Bc
  /-- the maps `allEventsSubscribers` and `aggregateTypeSubscribers` -/
  regs : List (Topic × Nat)
  subs : List Subscr
  /-- callers of `Accept` and the records each has still to hand over -/
  savers : List (List Record)
deriving DecidableEq, Repr

/-- `broadcast.New(bufferSize, timeout)` (broadcaster.go:50-68). -/
def init (cap : Nat) : State := ⟨[], cap, .idle, [], [], []⟩

inductive Label where
  /-- a caller comes with records to `Accept` -/
  | newSaver (rs : List Record)
  /-- `Start` or `StartFrom` reaches `s.subscribe(s)` -/
  | newSub (topics : List Topic) (cap : Nat) (live : Bool)
  /-- the user calls `Stop` or cancels the context -/
  | stopSub (i : Nat)
  /-- a callback returns an error -/
  | consumeFail (i : Nat)
  /-- the second read of `StartFrom` fails -/
  | readFail (i : Nat)
  /-- `Close`, and the broadcaster notices -/
  | close
  /-- `Accept` hands over a record -/
  | accept (k : Nat)
  /-- the broadcaster takes a record; `order` is the order in which Go visits the maps -/
  | take (order : List (Topic × Nat))
  /-- the broadcaster's send succeeds -/
  | deliver
  /-- the broadcaster's send times out -/
  | timeout
  /-- one registration -/
  | register (i : Nat)
  /-- the second read of `StartFrom` ends well -/
  | caughtUp (i : Nat)
  /-- `work` takes a record -/
  | pick (i : Nat)
  /-- `work` sees that the context is done -/
  | quit (i : Nat)
  /-- a callback returns -/
  | consume (i : Nat)
  /-- one withdrawal of a registration; after the last the goroutine returns -/
  | leave (i : Nat)

/-- Replace subscription `i`. -/
def State.setSub (s : State) (i : Nat) (x : Subscr) : State := { s with subs := s.subs.set i x }

/-- Add a registration (broadcaster.go:105, 111-114: a set). -/
def addReg (regs : List (Topic × Nat)) (x : Topic × Nat) : List (Topic × Nat) :=
  if x ∈ regs then regs else regs ++ [x]

/-- The registrations that match a record (broadcaster.go:131, 141). -/
def targets (s : State) (r : Record) : List (Topic × Nat) := s.regs.filter (fun x => Sub.Topic.matches x.1 r)

/-- The broadcaster after one send of `broadcastRecord`. -/
def next (r : Record) : List (Topic × Nat) → Bc
  | [] => .idle
  | x :: xs => .sending r (x :: xs)

/-- Does a send to the subscription's channel go through at once? With buffer size 0 only if `work` is waiting. -/
def Subscr.room (x : Subscr) : Bool := decide (x.buf.length < x.cap) || (x.buf.isEmpty && decide (x.pc = .loop))

/-- Does a send to the broadcaster's channel go through at once? -/
def State.room (s : State) : Bool :=
  decide (s.queue.length < s.cap) || (s.queue.isEmpty && decide (s.bc = .idle))

/-- The state of a subscription that has told the broadcaster all its topics. -/
def started (x : Subscr) : PC := if x.live then .loop else .catchUp

/-- The next state of `unsubscribe`. -/
def leavingPC (why : Cause) : List Topic → PC
  | [] => .ended why
  | t :: ts => .leaving (t :: ts) why

/-- One action, `none` if it is not possible now. -/
def step (s : State) : Label → Option State
  | .newSaver rs => some { s with savers := s.savers ++ [rs] }
  | .newSub topics cap live =>
    let x : Subscr := ⟨topics, cap, live, [], .loop, false⟩
    some { s with subs := s.subs ++ [{ x with pc := if topics.isEmpty then started x else .starting topics }] }
  | .stopSub i =>                                                       -- record_subscriber.go:121-123
    match s.subs[i]? with
    | none => none
    | some x => some (s.setSub i { x with cancelled := true })
  | .consumeFail i =>                                                   -- lines 108-112
    match s.subs[i]? with
    | none => none
    | some x => if x.pc = .consuming then some (s.setSub i { x with pc := leavingPC .consumer x.topics }) else none
  | .readFail i =>                                                      -- lines 66-70
    match s.subs[i]? with
    | none => none
    | some x => if x.pc = .catchUp then some (s.setSub i { x with pc := leavingPC .startError x.topics }) else none
  | .close =>                                                           -- broadcaster.go:123-126, 155-165
    match s.bc with
    | .idle => some { s with bc := .closed, subs := s.subs.mapIdx (fun i x =>
        if s.regs.any (fun y => y.2 == i) then { x with cancelled := true } else x) }
    | _ => none
  | .accept k =>                                                        -- broadcaster.go:70-72
    match s.savers[k]? with
    | some (r :: rest) =>
      if s.room then some { s with queue := s.queue ++ [r], savers := s.savers.set k rest } else none
    | _ => none
  | .take order =>                                                      -- broadcaster.go:119-120
    match s.bc, s.queue with
    | .idle, r :: q =>
      if order.isPerm (targets s r) then some { s with queue := q, bc := next r order } else none
    | _, _ => none
  | .deliver =>                                                         -- broadcaster.go:136, 146
    match s.bc with
    | .sending r ((_, i) :: todo) =>
      match s.subs[i]? with
      | none => none
      | some x =>
        if x.room then some { (s.setSub i { x with buf := x.buf ++ [r] }) with bc := next r todo } else none
    | _ => none
  | .timeout =>                                                         -- broadcaster.go:132-134, 142-144
    match s.bc with
    | .sending r ((t, i) :: todo) =>
      match s.subs[i]? with
      | none => none
      | some x =>
        if x.buf.length < x.cap then none
        else some { (s.setSub i { x with cancelled := true }) with
                    bc := next r todo, regs := s.regs.filter (fun y => y ≠ (t, i)) }
    | _ => none
  | .register i =>                                                      -- broadcaster.go:74-78, 85-92, 105-114
    match s.bc, s.subs[i]? with
    | .idle, some x =>
      match x.pc with
      | .starting [] => some (s.setSub i { x with pc := started x })
      | .starting (t :: todo) =>
        some { (s.setSub i { x with pc := if todo.isEmpty then started x else .starting todo }) with
               regs := addReg s.regs (t, i) }
      | _ => none
    | _, _ => none
  | .caughtUp i =>                                                      -- record_subscriber.go:72
    match s.subs[i]? with
    | none => none
    | some x => if x.pc = .catchUp then some (s.setSub i { x with pc := .loop }) else none
  | .pick i =>                                                          -- lines 103-106
    match s.subs[i]? with
    | none => none
    | some x =>
      match x.pc, x.buf with
      | .loop, _ :: buf => some (s.setSub i { x with buf := buf, pc := .consuming })
      | _, _ => none
  | .quit i =>                                                          -- lines 98-101
    match s.subs[i]? with
    | none => none
    | some x =>
      if x.pc = .loop ∧ x.cancelled = true then some (s.setSub i { x with pc := leavingPC .context x.topics })
      else none
  | .consume i =>                                                       -- line 108
    match s.subs[i]? with
    | none => none
    | some x => if x.pc = .consuming then some (s.setSub i { x with pc := .loop }) else none
  | .leave i =>                                                         -- broadcaster.go:79-83, 94-101, 108, 117
    match s.bc, s.subs[i]? with
    | .idle, some x =>
      match x.pc with
      | .leaving (t :: todo) why =>
        some { (s.setSub i { x with pc := leavingPC why todo }) with regs := s.regs.filter (fun y => y ≠ (t, i)) }
      | _ => none
    | _, _ => none

/-- Run a schedule. -/
def exec : State → List Label → Option State
  | s, [] => some s
  | s, l :: ls =>
    match step s l with
    | none => none
    | some s' => exec s' ls

/-- What the store's goroutines do by themselves: the broadcaster, and `Accept`. No callback, no read and no user
is needed for these. -/
def Core : Label → Prop
  | .accept _ | .take _ | .deliver | .timeout => True
  | _ => False

/-- What happens without a new call from the user, if callbacks return without an error and reads end. -/
def Work : Label → Prop
  | .accept _ | .take _ | .deliver | .timeout => True
  | .register _ | .caughtUp _ | .pick _ | .quit _ | .consume _ | .leave _ => True
  | _ => False

/-- `Done()` of subscription `i` is closed (record_subscriber.go:49-51, 95, 100). -/
def Told (s : State) (i : Nat) : Prop := ∃ x, s.subs[i]? = some x ∧ x.pc = .ended .context

/-- Subscription `i`, which `Start` or `StartFrom` has returned for without an error, is to end: its context is
done, or its callback has returned an error. -/
def Ending (s : State) (i : Nat) : Prop :=
  ∃ x, s.subs[i]? = some x ∧
    ((x.cancelled = true ∧ (x.pc = .loop ∨ x.pc = .consuming)) ∨
     (∃ todo, x.pc = .leaving todo .context ∨ x.pc = .leaving todo .consumer) ∨
     x.pc = .ended .context ∨ x.pc = .ended .consumer)

end RangeDB.Stop

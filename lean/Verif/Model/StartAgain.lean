import Verif.Model.Text

/-!
# Model: one subscription that is started and stopped by several goroutines

`recordSubscriber` (pkg/recordsubscriber/record_subscriber.go) with its broadcaster reduced to the channel that it fills. A record is
its global sequence number. `Start` and `StartFrom` may be called more than once: nothing in the code forbids it. Reads and writes of
`lastGlobalSequenceNumber`, which no lock protects, are taken to be atomic.
-/

namespace RangeDB.Again

/-- A call of `StartFrom` that has not returned (record_subscriber.go:58-77). -/
inductive Caller where
  /-- it reads the past for the first time (record_subscriber.go:60) -/
  | first
  /-- it is registered and reads for the second time (record_subscriber.go:67) -/
  | second
  /-- it has returned, with a worker of its own or with an error -/
  | over
  deriving DecidableEq, Repr

/-- A goroutine that runs `work` (record_subscriber.go:92-117). -/
inductive Worker where
  /-- at the `select` -/
  | idle
  /-- it has received a record (record_subscriber.go:105) -/
  | holds (r : Nat)
  /-- the record is not one that was already sent (record_subscriber.go:106) -/
  | fresh (r : Nat)
  /-- the subscription was stopped or its context cancelled, and it is unregistered (record_subscriber.go:95-96, 100-101) -/
  | leaving
  /-- it has returned -/
  | gone
  deriving DecidableEq, Repr

/-- `recordSubscriber` (record_subscriber.go:21-32), its goroutines and its callers. -/
structure State where
  last : Nat
  /-- `bufferedRecords` and its capacity -/
  buffer : List Nat
  size : Nat
  registered : Bool
  cancelled : Bool
  /-- `finishChan` is closed -/
  finished : Bool
  /-- a goroutine panicked: the process is over -/
  panicked : Bool
  callers : List Caller
  workers : List Worker
  /-- what the subscriber was given -/
  out : List Nat
  /-- what the broadcaster sent -/
  fed : List Nat
  deriving DecidableEq, Repr

/-- `New` (record_subscriber.go:35-48). -/
def init (size : Nat) : State := ⟨0, [], size, false, false, false, false, [], [], [], []⟩

/-- An atomic action. -/
inductive Act where
  | start
  | startFrom (g : Nat)
  /-- the `c`-th call of `StartFrom` passes a record of the past on -/
  | past (c r : Nat)
  /-- its read or the subscriber fails -/
  | fail (c : Nat)
  /-- its read is at its end -/
  | next (c : Nat)
  /-- `Stop`, or the context of the subscription is cancelled -/
  | stop
  /-- the broadcaster sends a record (broadcaster.go:136, 146) -/
  | feed (r : Nat)
  | take (w : Nat)
  | check (w : Nat)
  | give (w : Nat)
  /-- the subscriber fails when it is given the record (record_subscriber.go:110-114) -/
  | refuse (w : Nat)
  | quit (w : Nat)
  | close (w : Nat)
  deriving DecidableEq, Repr

/-- What an action does; an action that is not possible does nothing, and nothing is possible after a panic. -/
def step (s : State) (a : Act) : State :=
  if s.panicked then s
  else match a with
    | .start =>                                                         -- record_subscriber.go:79-90
      if s.cancelled then s else { s with registered := true, workers := s.workers ++ [.idle] }
    | .startFrom g => { s with last := g, callers := s.callers ++ [.first] }   -- record_subscriber.go:59-60
    | .past c r =>                                                      -- record_subscriber.go:125-139, 141-144
      match s.callers[c]? with
      | some .first | some .second => { s with last := r, out := s.out ++ [r] }
      | _ => s
    | .fail c =>                                                        -- record_subscriber.go:61-63, 68-71
      match s.callers[c]? with
      | some .first => { s with callers := s.callers.set c .over }
      | some .second => { s with callers := s.callers.set c .over, registered := false }
      | _ => s
    | .next c =>                                                        -- record_subscriber.go:65, 73-75
      match s.callers[c]? with
      | some .first => { s with callers := s.callers.set c .second, registered := true }
      | some .second => { s with callers := s.callers.set c .over, workers := s.workers ++ [.idle] }
      | _ => s
    | .stop => { s with cancelled := true }                             -- record_subscriber.go:121-123
    | .feed r =>                                                        -- broadcaster.go:136, 146
      if s.registered ∧ s.buffer.length < s.size then { s with buffer := s.buffer ++ [r], fed := s.fed ++ [r] } else s
    | .take w =>                                                        -- record_subscriber.go:105
      match s.workers[w]?, s.buffer with
      | some .idle, r :: b => { s with buffer := b, workers := s.workers.set w (.holds r) }
      | _, _ => s
    | .check w =>                                                       -- record_subscriber.go:106-108, 119-121
      match s.workers[w]? with
      | some (.holds r) => { s with workers := s.workers.set w (if r ≤ s.last then .idle else .fresh r) }
      | _ => s
    | .give w =>                                                        -- record_subscriber.go:110, 141-144
      match s.workers[w]? with
      | some (.fresh r) => { s with last := r, out := s.out ++ [r], workers := s.workers.set w .idle }
      | _ => s
    | .refuse w =>                                                      -- record_subscriber.go:110-114
      match s.workers[w]? with
      | some (.fresh r) => { s with last := r, registered := false, workers := s.workers.set w .gone }
      | _ => s
    | .quit w =>                                                        -- record_subscriber.go:95-96, 100-101
      match s.workers[w]? with
      | some .idle => if s.cancelled then { s with registered := false, workers := s.workers.set w .leaving } else s
      | _ => s
    | .close w =>                                                       -- record_subscriber.go:97-98, 102-103
      match s.workers[w]? with
      | some .leaving =>
        if s.finished then { s with panicked := true } else { s with finished := true, workers := s.workers.set w .gone }
      | _ => s

/-- The subscription after the actions. -/
def run (size : Nat) (acts : List Act) : State := acts.foldl step (init size)

end RangeDB.Again

import Verif.Model.Text

/-!
# Model: the goroutines of one read

A read of events starts one goroutine per requested aggregate type (one for `Events` and `EventsByStream`), and, when several types
were requested, one more, which merges (merge_record_iterators.go:26-68). A record is its global sequence number. The locks of the
store are left out: `Model/Lock` has them. All channels are without buffer, so that a send and its receive are one action.
-/

namespace RangeDB.Left

/-- A goroutine that reads from the store (inmemory_store.go:138-163, leveldb_store.go:370-403, 412-442). -/
inductive Src where
  /-- it is in `PublishRecordOrCancel` with the first of these records (publish_record.go:9-33), or at its end if there are none -/
  | at (todo : List Nat) (fails : Bool)
  /-- the context is done: it tries to send the error for a second (publish_record.go:12-15, 23-26) -/
  | giving
  /-- it sends an error of the store, a plain send (inmemory_store.go:145, 153, leveldb_store.go:384, 398, 432) -/
  | failing
  /-- it has returned, and its channel is closed -/
  | over
  deriving DecidableEq, Repr

/-- The goroutine of `MergeRecordIteratorsInOrder` (merge_record_iterators.go:29-65). -/
inductive Merge where
  /-- the `k`-th iterator is read for the first time (merge_record_iterators.go:33-38) -/
  | fill (k : Nat)
  /-- the record of the `i`-th pipe is sent (merge_record_iterators.go:45, 55) -/
  | send (i : Nat)
  /-- the next record of the `i`-th pipe is read (merge_record_iterators.go:49, 59) -/
  | read (i : Nat)
  /-- it has returned, and its channel is closed -/
  | over
  deriving DecidableEq, Repr

/-- A pipe: its iterator and its current record (merge_record_iterators.go:3-6). -/
abbrev Pipe := Nat × Nat

/-- A read. -/
structure State where
  srcs : List Src
  merge : Merge
  pipes : List Pipe
  /-- `currentPosition` (merge_record_iterators.go:40) -/
  pos : Nat
  cancelled : Bool
  /-- what the consumer was given -/
  out : List Nat
  deriving DecidableEq, Repr

/-- A read of several types that was just started; for each type the records, and whether an error of the store follows. -/
def init (srcs : List (List Nat × Bool)) : State :=
  ⟨srcs.map (fun p => .at p.1 p.2), .fill 0, [], 0, false, []⟩

/-- `getIndexWithSmallestGlobalSequenceNumber` (merge_record_iterators.go:75-85). -/
def smallest : (best min i : Nat) → List Pipe → Nat
  | best, _, _, [] => best
  | best, min, i, p :: ps => if p.2 < min then smallest i p.2 (i + 1) ps else smallest best min (i + 1) ps

/-- `remove` (merge_record_iterators.go:70-73). -/
def remove (pipes : List Pipe) (i : Nat) : List Pipe :=
  match pipes.getLast? with
  | none => []
  | some l => (pipes.set i l).dropLast

/-- The head of the outer loop (merge_record_iterators.go:42-45). -/
def choose : List Pipe → Merge
  | [] => .over
  | p :: ps => .send (smallest 0 p.2 0 (p :: ps))

/-- What a receive from the channel of a goroutine yields, and how the goroutine goes on; `none`: it waits. A goroutine that has
begun to wait for a receiver may send its record although the context is done (publish_record.go:21-30). -/
def Src.give : Src → Option (Option Nat × Src)
  | .at (r :: rs) f => some (some r, .at rs f)
  | .at [] _ => none
  | .giving => some (none, .over)
  | .failing => some (none, .over)
  | .over => some (none, .over)

/-- What a goroutine does on its own. -/
def Src.turn (cancelled : Bool) : Src → Src
  | .at (r :: rs) f => if cancelled then .giving else .at (r :: rs) f
  | .at [] true => .failing
  | .at [] false => .over
  | .giving => .over                                 -- `time.After` (publish_record.go:13, 24)
  | .failing => .failing
  | .over => .over

/-- An atomic action. -/
inductive Act where
  /-- the context of the read is cancelled -/
  | cancel
  /-- the `k`-th goroutine goes on without anybody's help -/
  | turn (k : Nat)
  /-- the merging goroutine receives from the iterator at which it waits -/
  | pull
  /-- the consumer calls `Next` and receives a record -/
  | next
  deriving DecidableEq, Repr

/-- The iterators have been read once up to the `k`-th. -/
def State.filled (s : State) (k : Nat) : State :=
  if k + 1 < s.srcs.length then { s with merge := .fill (k + 1) } else { s with merge := choose s.pipes }

/-- What an action does; an action that is not possible does nothing. -/
def step (s : State) : Act → State
  | .cancel => { s with cancelled := true }
  | .turn k =>
    match s.srcs[k]? with
    | some x => { s with srcs := s.srcs.set k (x.turn s.cancelled) }
    | none => s
  | .pull =>
    match s.merge with
    | .fill k =>                                                              -- merge_record_iterators.go:33-38
      match s.srcs[k]? with
      | none => { s with merge := choose s.pipes }
      | some x =>
        match x.give with
        | none => s
        | some (some r, y) => { s with srcs := s.srcs.set k y, pipes := s.pipes ++ [(k, r)] }.filled k
        | some (none, y) => { s with srcs := s.srcs.set k y }.filled k
    | .read i =>                                                              -- merge_record_iterators.go:49-63
      match s.pipes[i]? with
      | none => s
      | some p =>
        match (s.srcs[p.1]?).bind Src.give with
        | none => s
        | some (some r, y) =>
          let pipes := s.pipes.set i (p.1, r)
          { s with srcs := s.srcs.set p.1 y, pipes, merge := if r = s.pos + 1 then .send i else choose pipes }
        | some (none, y) =>
          { s with srcs := s.srcs.set p.1 y, pipes := remove s.pipes i, merge := choose (remove s.pipes i) }
    | _ => s
  | .next =>
    match s.merge with
    | .send i =>                                                              -- merge_record_iterators.go:45-47, 55-57
      match s.pipes[i]? with
      | some p => { s with merge := .read i, pos := p.2, out := s.out ++ [p.2] }
      | none => s
    | _ => s

/-- The read after the actions. -/
def run (s : State) (acts : List Act) : State := acts.foldl step s

/-! ## A read with one goroutine -/

/-- `Events`, `EventsByStream`, and `EventsByAggregateTypes` of one type: the consumer receives from the goroutine itself
(inmemory_store.go:93-104, 121-132, leveldb_store.go:111-115, 127-129). -/
structure One where
  src : Src
  cancelled : Bool
  out : List Nat
  deriving DecidableEq, Repr

/-- What an action does; `pull` is not possible. -/
def One.step (s : One) : Act → One
  | .cancel => { s with cancelled := true }
  | .turn _ => { s with src := s.src.turn s.cancelled }
  | .pull => s
  | .next =>
    match s.src.give with
    | some (some r, y) => { s with src := y, out := s.out ++ [r] }
    | some (none, y) => { s with src := y }
    | none => s

def One.run (s : One) (acts : List Act) : One := acts.foldl One.step s

end RangeDB.Left

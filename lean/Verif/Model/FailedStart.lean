import Verif.Model.Abandoned

/-!
# Model: the reads of `StartFrom`

`StartFrom` (record_subscriber.go:57-75) reads the past twice, all events or one type, with the context of its configuration
(config.go:31-33, 49-51), and hands each record to the callback. The goroutine behind a read holds the read lock of the store until it
returns (inmemory_store.go:136-139, leveldb_store.go:410-413). Left out: the broadcaster (`Model/StartAgain` has it), the merge of several
types.
-/

namespace RangeDB.Left

/-- Where `StartFrom` is. -/
inductive Phase where
  /-- in its first `writeRecords` (record_subscriber.go:59) -/
  | first
  /-- in its second `writeRecords` (record_subscriber.go:66) -/
  | second
  /-- it has returned the error of the callback (record_subscriber.go:61, 69) -/
  | failed
  /-- it has returned nil (record_subscriber.go:74) -/
  | started
  deriving DecidableEq, Repr

/-- A call of `StartFrom` and the goroutine behind its present read; `one.cancelled` is the context of the configuration. -/
structure Start where
  one : One
  phase : Phase
  /-- `lastGlobalSequenceNumber` -/
  last : Nat
  /-- what was handed to the callback -/
  got : List Nat
  /-- `Stop` was called: the context that `New` derived is cancelled (record_subscriber.go:35, 121-123) -/
  stopped : Bool
  deriving DecidableEq, Repr

/-- `StartFrom(n)`; the records of the first read, and whether an error of the store follows. -/
def Start.init (n : Nat) (l : List Nat) (f : Bool) : Start := ⟨⟨.at l f, false, []⟩, .first, n, [], false⟩

/-- `StartFrom(n)` on a store with the events `hist`: `Events(ctx, n)` reads those from `n` on (inmemory_store.go:93-99, 135-165,
leveldb_store.go:112-114, 408-447). -/
def Start.on (n : Nat) (hist : List Nat) (f : Bool) : Start := Start.init n (hist.filter (fun x => decide (n ≤ x))) f

/-- What can happen (record_subscriber.go:57-75, 121-123, 125-139). -/
inductive StartAct where
  /-- `StartFrom` goes on: it receives from its iterator, and calls the callback -/
  | call
  /-- the goroutine behind the read goes on -/
  | turn
  /-- the context of the configuration is cancelled -/
  | cancel
  /-- `Stop` -/
  | stop
  deriving DecidableEq, Repr

/-- `writeRecord` of a received record (record_subscriber.go:141-144) in the loop of `writeRecords` (record_subscriber.go:125-139). -/
def Start.take (bad : Nat → Bool) (s : Start) (r : Nat) (y : Src) : Start :=
  ⟨{ s.one with src := y, out := s.one.out ++ [r] }, if bad r then .failed else s.phase, r, s.got ++ [r], s.stopped⟩

/-- What an action does. `bad`: the records for which the callback fails; `later`: the records of the store when the second read starts. -/
def Start.step (bad : Nat → Bool) (later : List Nat × Bool) (s : Start) : StartAct → Start
  | .call =>
    match s.phase, s.one.src.give with
    | .first, some (some r, y) => s.take bad r y
    | .first, some (none, _) =>                                        -- record_subscriber.go:64-66
      { s with phase := .second,
               one := { s.one with src := .at (later.1.filter (fun x => decide (s.last + 1 ≤ x))) later.2 } }
    | .second, some (some r, y) => s.take bad r y
    | .second, some (none, y) => { s with phase := .started, one := { s.one with src := y } }
    | _, _ => s
  | .turn => { s with one := { s.one with src := s.one.src.turn s.one.cancelled } }
  | .cancel => { s with one := { s.one with cancelled := true } }
  | .stop => { s with stopped := true }

/-- A schedule (record_subscriber.go:57-75 beside the goroutine of the read). -/
def Start.run (bad : Nat → Bool) (later : List Nat × Bool) (s : Start) (acts : List StartAct) : Start :=
  acts.foldl (Start.step bad later) s

end RangeDB.Left

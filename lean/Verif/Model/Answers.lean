import Verif.Model.Abandoned

/-!
# Model: what the consumer of a read learns

`Next` returns true with a record; or false, and then `Err` tells whether there was an error (record_iterator.go:17-25, 48-50). A closed
channel gives the zero `ResultRecord`, which has no error.
-/

namespace RangeDB.Left

/-- What a call of `Next`, and of `Err` after it, tells (record_iterator.go:22-24, 48-50). -/
inductive Answer where
  | record (r : Nat)
  /-- false, and `Err` gives an error -/
  | error
  /-- false, and `Err` gives nil -/
  | closed
  deriving DecidableEq, Repr

/-- The answer to a receive from the channel of a goroutine that reads; `none`: the receive waits. The error of the context or of the
store is received (publish_record.go:14, 25; inmemory_store.go:145, 153), or the channel is closed. -/
def Src.answer : Src → Option Answer
  | .at (r :: _) _ => some (.record r)
  | .at [] _ => none
  | .giving => some .error
  | .failing => some .error
  | .over => some .closed

/-- The answers to the calls of `Next` of a read with one goroutine. -/
def One.answers : One → List Act → List Answer
  | _, [] => []
  | s, .next :: acts => s.src.answer.toList ++ One.answers (s.step .next) acts
  | s, a :: acts => One.answers (s.step a) acts

/-- The answer to a receive from the channel of the merging goroutine: it sends records only, and then closes the channel
(merge_record_iterators.go:30, 45, 55). -/
def State.answer (s : State) : Option Answer :=
  match s.merge with
  | .send i => (s.pipes[i]?).map (fun p => .record p.2)
  | .over => some .closed
  | _ => none

/-- The answers to the calls of `Next` of a read of several types. -/
def State.answers : State → List Act → List Answer
  | _, [] => []
  | s, .next :: acts => s.answer.toList ++ State.answers (step s .next) acts
  | s, a :: acts => State.answers (step s a) acts

end RangeDB.Left

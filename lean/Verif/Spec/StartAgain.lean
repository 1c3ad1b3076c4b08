import Verif.Model.StartAgain

/-! # Specification: a subscription that may be started more than once -/

namespace RangeDB.Again

/-- A call of `Start` or `StartFrom`. -/
def Act.starts : Act → Bool
  | .start => true
  | .startFrom _ => true
  | _ => false

/-- The number of calls of `Start` and `StartFrom`. -/
def starts (acts : List Act) : Nat := (acts.filter Act.starts).length

/-- A call of `Start` or `StartFrom` that is not refused at once: `Start` refuses when the subscription was stopped. -/
def Act.begins (s : State) : Act → Bool
  | .start => !s.cancelled
  | .startFrom _ => true
  | _ => false

/-- Nothing that was started is still running, and nothing that was started came to its end by a stop. -/
def Over (s : State) : Prop :=
  (∀ c ∈ s.callers, c = .over) ∧ (∀ w ∈ s.workers, w = .gone) ∧ s.finished = false

/-- Whoever starts the subscription again does so after the last start failed, at once or later: `StartFrom` returned an error, or the
subscriber failed. -/
def OneByOne : State → List Act → Prop
  | _, [] => True
  | s, a :: acts => (a.begins s = true → Over s) ∧ OneByOne (step s a) acts

/-- What the broadcaster sends has increasing numbers, all of them above 0, whenever it is sent (C140). -/
def Rising (fed : List Nat) : Prop := fed.Pairwise (· < ·) ∧ ∀ r ∈ fed, 0 < r

/-- The subscriber never fails, and nobody asks for the past. -/
def Act.Plain : Act → Prop
  | .startFrom _ => False
  | .refuse _ => False
  | _ => True

/-- The full property, for a subscription that is started by anybody at any time: the process does not crash; and, if nobody asks for
the past and the subscriber does not fail, then what the subscriber was given is what was sent to it, in order, up to what is still
under way. -/
def C165_full : Prop :=
  ∀ size acts, (run size acts).panicked = false ∧
    ((∀ a ∈ acts, a.Plain) → Rising (run size acts).fed → (run size acts).out <+: (run size acts).fed)

end RangeDB.Again

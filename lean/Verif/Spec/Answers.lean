import Verif.Model.Answers

/-! # Specification: a read that looks complete is complete -/

namespace RangeDB.Left

/-- The read looks complete: after some records `Next` returns false, and `Err` has no error. -/
def LooksComplete (as : List Answer) : Prop := ∃ (rs : List Nat) (rest : List Answer), as = rs.map .record ++ .closed :: rest

/-- The consumer takes the error of the context within the second for which it is offered: the timer does not fire
(publish_record.go:12-15, 23-26). -/
def Prompt : One → List Act → Prop
  | _, [] => True
  | s, a :: acts => (s.src = .giving → ∀ k, a ≠ .turn k) ∧ Prompt (s.step a) acts

/-- The full property, for reads of one and of several types: if a read looks complete, then the store had no error and every record was
handed over. -/
def C171_full : Prop :=
  (∀ (l : List Nat) (f : Bool) (acts : List Act), LooksComplete (One.answers ⟨.at l f, false, []⟩ acts) →
    f = false ∧ (One.run ⟨.at l f, false, []⟩ acts).out = l) ∧
  ∀ (srcs : List (List Nat × Bool)) (acts : List Act), LooksComplete (State.answers (init srcs) acts) →
    ∀ p ∈ srcs, p.2 = false ∧ ∀ x ∈ p.1, x ∈ (run (init srcs) acts).out

end RangeDB.Left

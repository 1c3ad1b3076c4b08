import Verif.Spec.FailedStart

/-! # Specification: what the callback of `StartFrom` gets -/

namespace RangeDB.Left

/-- The full property about completeness: a `StartFrom(n)` that has returned nil has handed over every event from `n` on that was there
when it read. -/
def C173_full : Prop :=
  ∀ (bad : Nat → Bool) (n : Nat) (hist new : List Nat) (acts : List StartAct), (hist ++ new).Pairwise (· < ·) →
    ((Start.on n hist false).run bad (hist ++ new, false) acts).phase = .started →
    ((Start.on n hist false).run bad (hist ++ new, false) acts).got = (hist ++ new).filter (fun x => decide (n ≤ x))

end RangeDB.Left

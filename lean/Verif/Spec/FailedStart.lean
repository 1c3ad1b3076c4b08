import Verif.Model.FailedStart

/-! # Specification: a `StartFrom` that has returned lets go of the store -/

namespace RangeDB.Left

/-- The read lock of the store is held by the read of `StartFrom`: no event can be saved. -/
def Start.Locked (s : Start) : Prop := s.one.src ≠ .over

/-- `StartFrom` has returned. -/
def Start.Returned (s : Start) : Prop := s.phase = .failed ∨ s.phase = .started

/-- The full property: when `StartFrom` has returned and the subscription is stopped, then the store is free, after the goroutine has got
a few turns. -/
def C172_full : Prop :=
  ∀ (bad : Nat → Bool) (n : Nat) (l : List Nat) (f : Bool) (later : List Nat × Bool) (acts after : List StartAct),
    ((Start.init n l f).run bad later acts).Returned → .stop ∈ after → 2 ≤ after.count .turn →
    ¬ ((Start.init n l f).run bad later (acts ++ after)).Locked

end RangeDB.Left

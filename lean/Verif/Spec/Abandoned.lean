import Verif.Model.Abandoned

/-! # Specification: what an abandoned read leaves behind -/

namespace RangeDB.Left

/-- How often the `k`-th goroutine gets a turn. -/
def turns (k : Nat) (acts : List Act) : Nat := acts.countP (· == .turn k)

/-- The consumer does not ask for another record. -/
def Abandons (acts : List Act) : Prop := .next ∉ acts

/-- All goroutines of the read have returned. -/
def State.Gone (s : State) : Prop := (∀ x ∈ s.srcs, x = .over) ∧ s.merge = .over

/-- The consumer asks for a record, and the merging goroutine gets a chance to go on. -/
def Round (acts : List Act) : Prop := .next ∈ acts ∧ .pull ∈ acts

/-- The full property: once the context of a read is cancelled and its goroutines get their turns, they all return, although the consumer
does not ask for records any more. For all records and errors, whatever happened before. -/
def C168_full : Prop :=
  ∀ (srcs : List (List Nat × Bool)) (before : List Act), ∃ n, ∀ after, Abandons after →
    (∀ k, k < srcs.length → n ≤ turns k after) → n ≤ after.countP (· == .pull) →
    (run (init srcs) (before ++ .cancel :: after)).Gone

end RangeDB.Left

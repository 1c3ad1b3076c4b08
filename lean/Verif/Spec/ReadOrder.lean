import Verif.Model.Abandoned

/-! # Specification: what the goroutines of a read of several types hand over -/

namespace RangeDB.Left

/-- What the goroutines have to start with: the records of each type are in order, and no record is of two types. -/
def Sorted (srcs : List (List Nat × Bool)) : Prop :=
  (∀ p ∈ srcs, p.1.Pairwise (· < ·)) ∧ (srcs.map (·.1)).Pairwise (fun a b => ∀ x ∈ a, x ∉ b)

/-- The records among `out` that are of the type with the records `l`. -/
def ofType (l out : List Nat) : List Nat := out.filter (fun x => decide (x ∈ l))

/-- Nothing is left out between the records that were handed over, or before them. -/
def NoGap (srcs : List (List Nat × Bool)) (out : List Nat) : Prop :=
  ∀ p ∈ srcs, ∀ x ∈ p.1, ∀ y ∈ out, x < y → x ∈ out

/-- Everybody gets a chance: each of the `n` goroutines that read, then the merging goroutine and the consumer. -/
def Fair (n : Nat) (acts : List Act) : Prop :=
  ∃ a b, acts = a ++ b ∧ (∀ k, k < n → .turn k ∈ a) ∧ .pull ∈ b ∧ .next ∈ b

/-- The number of records. -/
def total (srcs : List (List Nat × Bool)) : Nat := (srcs.map (·.1.length)).sum

/-- The full property: what a consumer was handed over so far has no gap, whatever the goroutines do and whenever the read is cancelled. -/
def C169_full : Prop :=
  ∀ (srcs : List (List Nat × Bool)) (acts : List Act), Sorted srcs → NoGap srcs (run (init srcs) acts).out

end RangeDB.Left

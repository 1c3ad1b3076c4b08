import Verif.Model.Clock

/-!
# C52: the test clocks
-/

namespace RangeDB.Clock

theorem sequential_from (n : Nat) : ∀ s, calls sequentialNow n s = List.range' s n := by
  induction n with
  | zero => intro s; rfl
  | succ n ih =>
    intro s
    rw [calls, ih, List.range'_succ]
    rfl

/-- **C52** (sequential clock): the `i`-th call, counting from 0, returns second `i`. -/
theorem C52_sequential (n : Nat) : calls sequentialNow n 0 = List.range n := by
  rw [sequential_from, List.range_eq_range']

/-- **C52** (sequential clock): the times strictly increase. -/
theorem C52_increasing (n : Nat) : (calls sequentialNow n 0).Pairwise (· < ·) := by
  rw [C52_sequential]; exact List.pairwise_lt_range

theorem seeded_from (times : List Nat) (h : times ≠ []) (n : Nat) : ∀ k,
    calls Seeded.now n ⟨times, k % times.length⟩
      = (List.range' k n).map (fun i => times[i % times.length]?) ∧
    calls Seeded.now n ⟨times, if k % times.length = 0 then times.length else k % times.length⟩
      = (List.range' k n).map (fun i => times[i % times.length]?) := by
  have hl : 0 < times.length := List.length_pos_iff.mpr h
  induction n with
  | zero => intro k; exact ⟨rfl, rfl⟩
  | succ n ih =>
    intro k
    have hk := Nat.mod_lt k hl
    have hnext : calls Seeded.now n ⟨times, k % times.length + 1⟩
        = (List.range' (k + 1) n).map (fun i => times[i % times.length]?) := by
      by_cases hw : k % times.length + 1 = times.length
      · have : (k + 1) % times.length = 0 := by
          rw [Nat.add_mod]
          by_cases h1 : times.length = 1
          · rw [h1]; omega
          · rw [Nat.mod_eq_of_lt (by omega : 1 < times.length), hw, Nat.mod_self]
        have h2 := (ih (k + 1)).2
        rw [if_pos this] at h2
        rw [hw]; exact h2
      · have : (k + 1) % times.length = k % times.length + 1 := by
          rw [Nat.add_mod]
          by_cases h1 : times.length = 1
          · exfalso; rw [h1] at hw hk; omega
          · rw [Nat.mod_eq_of_lt (by omega : 1 < times.length)]
            exact Nat.mod_eq_of_lt (by omega)
        rw [← this]; exact (ih (k + 1)).1
    constructor
    · rw [calls, List.range'_succ, List.map_cons]
      simp only [Seeded.now]
      rw [if_neg (by omega : ¬ k % times.length ≥ times.length)]
      rw [hnext]
    · rw [calls, List.range'_succ, List.map_cons]
      by_cases h0 : k % times.length = 0
      · simp only [Seeded.now, if_pos h0, ge_iff_le, Nat.le_refl, if_true]
        rw [h0] at hnext
        rw [hnext, h0]
      · simp only [Seeded.now, if_neg h0]
        rw [if_neg (by omega : ¬ k % times.length ≥ times.length)]
        rw [hnext]

/-- **C52** (seeded clock): it never panics, and the `i`-th call returns the time at position `i` modulo
the number of seeds; without seeds it always returns 0. -/
theorem C52_seeded (times : List Nat) (n : Nat) :
    calls Seeded.now n (newSeeded times)
      = (List.range n).map (fun i => some ((if times = [] then [0] else times)[i %
          (if times = [] then [0] else times).length]'(by
            apply Nat.mod_lt
            split
            · simp
            · rename_i h; exact List.length_pos_iff.mpr h))) := by
  by_cases h : times = []
  · subst h
    have := (seeded_from [0] (by simp) n 0).1
    rw [List.range_eq_range']
    refine this.trans ?_
    apply List.map_congr_left
    intro i _
    simp [Nat.mod_one]
  · have := (seeded_from times h n 0).1
    rw [List.range_eq_range']
    have hl : 0 < times.length := List.length_pos_iff.mpr h
    rw [show newSeeded times = ⟨times, 0 % times.length⟩ by simp [newSeeded, h]]
    refine this.trans ?_
    apply List.map_congr_left
    intro i _
    simp [h, Nat.mod_lt i hl]

example : calls Seeded.now 5 (newSeeded [10, 20]) = [some 10, some 20, some 10, some 20, some 10] := by decide
example : calls sequentialNow 4 0 = [0, 1, 2, 3] := by decide

end RangeDB.Clock

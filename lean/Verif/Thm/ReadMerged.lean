import Verif.Proof.Resume
import Verif.Thm.Abandoned

/-!
# C169 and C47: what a merged read gives is a prefix of the merged history
-/

namespace RangeDB.Left

/-- **C169**, partial, in one line: if `m` is what was asked for, in order, then what the consumer of a read that is not cancelled was
handed over is a prefix of `m`, and all of `m` at the end. -/
theorem C169_prefix_partial (srcs : List (List Nat × Bool)) (h : Sorted srcs) (m : List Nat) (hm : m.Pairwise (· < ·))
    (hmem : ∀ x, x ∈ m ↔ ∃ p ∈ srcs, x ∈ p.1) (acts : List Act) (hc : .cancel ∉ acts) :
    (run (init srcs) acts).out <+: m ∧ ((run (init srcs) acts).merge = .over → (run (init srcs) acts).out = m) := by
  obtain ⟨h1, h2, _⟩ := C169_order srcs h acts
  have hb : Beginning (run (init srcs) acts).out m := by
    refine ⟨h1, fun x hx => (hmem x).2 (h2 x hx), fun x hx y hy hxy => ?_⟩
    obtain ⟨p, hp, hxp⟩ := (hmem x).1 hx
    exact C169_no_gap_partial srcs h acts hc p hp x hxp y hy hxy
  have hp := beginning_prefix m _ hm hb
  refine ⟨hp, fun ho => ?_⟩
  have hall := C169_complete srcs h acts hc ho
  obtain ⟨t, ht⟩ := hp
  cases t with
  | nil => simpa using ht
  | cons x t =>
    exfalso
    have hx : x ∈ m := by rw [← ht]; simp
    obtain ⟨p, hp, hxp⟩ := (hmem x).1 hx
    have hxo := hall p hp x hxp
    rw [← ht, List.pairwise_append] at hm
    have := hm.2.2 x hxo x (by simp)
    omega

/-- **C47**, a read of several types: `ReadNRecords` calls `Next` until it has seen one record more than it was asked for, or the end
(store.go:145-155), cancels (store.go:157), and calls `Next` until it returns false (store.go:158-159). However the goroutines run, its
result is the first `n` records of what was asked for, and no goroutine is left, if the store has no errors. -/
theorem C47_merged (srcs : List (List Nat × Bool)) (hne : srcs ≠ []) (h : Sorted srcs) (hf : ∀ p ∈ srcs, p.2 = false)
    (m : List Nat) (hm : m.Pairwise (· < ·)) (hmem : ∀ x, x ∈ m ↔ ∃ p ∈ srcs, x ∈ p.1) (n : Nat)
    (first : List Act) (hc : .cancel ∉ first)
    (hn : (run (init srcs) first).out.length = n + 1 ∨
      ((run (init srcs) first).out.length ≤ n ∧ (run (init srcs) first).merge = .over))
    (after : List Act) (ha : ∀ k, k < srcs.length → 2 ≤ turns k after) (rounds : List (List Act)) (hr : ∀ r ∈ rounds, Round r)
    (hl : 2 * srcs.length + 1 ≤ rounds.length) :
    (run (init srcs) first).out.take n = m.take n ∧
    (run (init srcs) (first ++ .cancel :: after ++ rounds.flatten)).Gone := by
  refine ⟨?_, C168_drained_partial srcs hne hf first after ha rounds hr hl⟩
  obtain ⟨⟨t, ht⟩, h2⟩ := C169_prefix_partial srcs h m hm hmem first hc
  rcases hn with hn | ⟨_, hn⟩
  · rw [← ht, List.take_append_of_le_length (by omega)]
  · rw [h2 hn]

/-! The hypotheses are met: two records of the read of three types, one of which has nothing. -/

def demoThree : List (List Nat × Bool) := [([1, 4, 5], false), ([], false), ([2, 3, 7], false)]

example : [1, 2, 3, 4, 5, 7].Pairwise (· < ·) := by decide
example : ∀ x, x ∈ [1, 2, 3, 4, 5, 7] ↔ ∃ p ∈ demoThree, x ∈ p.1 := by
  intro x
  simp [demoThree]
  omega
example : (run (init demoThree) [.turn 1, .pull, .pull, .pull, .next, .pull, .next, .pull, .next]).out.length = 2 + 1 := by decide
example : (run (init demoThree) [.turn 1, .pull, .pull, .pull, .next, .pull, .next, .pull, .next]).out.take 2 = [1, 2] := by decide
example : ∀ k, k < demoThree.length → 2 ≤ turns k [.turn 0, .turn 1, .turn 2, .turn 2, .turn 1, .turn 0] := by decide
example : Round [.next, .pull] := ⟨by decide, by decide⟩

end RangeDB.Left

import Verif.Proof.Abandoned

/-!
# C168: what an abandoned read leaves behind
-/

namespace RangeDB.Left

/-- **C168**, partial, reads with one goroutine: whatever happened before, once the context is cancelled the goroutine returns as soon as
it has had two turns, whether the consumer asks for more or not; the store has no error to report. -/
theorem C168_one_partial (l : List Nat) (before after : List Act) (h : 2 ≤ turns 0 after) :
    (One.run ⟨.at l false, false, []⟩ (before ++ .cancel :: after)).src = .over := by
  have e : One.run ⟨.at l false, false, []⟩ (before ++ .cancel :: after) =
      One.run ((One.run ⟨.at l false, false, []⟩ before).step .cancel) after := by simp [One.run]
  rw [e]
  have h1 := one_sound before ⟨.at l false, false, []⟩ rfl
  have h2 := one_run after ((One.run ⟨.at l false, false, []⟩ before).step .cancel) rfl h1
  have hr : ((One.run ⟨.at l false, false, []⟩ before).step .cancel).src.rank ≤ 2 := by
    generalize ((One.run ⟨.at l false, false, []⟩ before).step .cancel).src = x
    cases x <;> simp [Src.rank]
  exact over_of_rank (by omega) h2.1

/-- **C168**, partial, reads of several types: the goroutines that read from the store return in the same way, and with them the locks
that they hold, although the consumer does not ask for more. -/
theorem C168_sources_partial (srcs : List (List Nat × Bool)) (hf : ∀ p ∈ srcs, p.2 = false) (before after : List Act) (k : Nat)
    (hk : k < srcs.length) (h : 2 ≤ turns k after) :
    (run (init srcs) (before ++ .cancel :: after)).srcs[k]? = some .over := by
  have hx : (init srcs).srcs[k]? = some (.at srcs[k].1 srcs[k].2) := by simp [init, hk]
  have hs : (Src.at srcs[k].1 srcs[k].2).sound = true := by simp [Src.sound, hf _ (List.getElem_mem hk)]
  obtain ⟨y, h1, h2⟩ := run_sound before _ k _ hx hs
  have e : run (init srcs) (before ++ .cancel :: after) = run (step (run (init srcs) before) .cancel) after := by simp [run]
  rw [e]
  obtain ⟨w, h3, h4, h5⟩ := run_src after (step (run (init srcs) before) .cancel) k y rfl h1 h2
  have hr : y.rank ≤ 2 := by cases y <;> simp [Src.rank]
  rw [h3, over_of_rank (by omega) h4]

/-- **C168**, partial: and if the consumer goes on until `Next` returns false, then the merging goroutine returns too: it takes at
most two calls of `Next` for each type and one more. -/
theorem C168_drained_partial (srcs : List (List Nat × Bool)) (hne : srcs ≠ []) (hf : ∀ p ∈ srcs, p.2 = false) (before after : List Act)
    (h : ∀ k, k < srcs.length → 2 ≤ turns k after) (rounds : List (List Act)) (hr : ∀ r ∈ rounds, Round r)
    (hn : 2 * srcs.length + 1 ≤ rounds.length) :
    (run (init srcs) (before ++ .cancel :: after ++ rounds.flatten)).Gone := by
  rw [run_append]
  have hlen : (run (init srcs) (before ++ .cancel :: after)).srcs.length = srcs.length := by
    rw [run_srcs_length]; simp [init]
  have he : Ended (run (init srcs) (before ++ .cancel :: after)) := by
    intro k hk
    rw [hlen] at hk
    exact C168_sources_partial srcs hf before after k hk (h k hk)
  have hg := good_run (before ++ .cancel :: after) _ (good_init srcs hne)
  have hfew := few_run (before ++ .cancel :: after) _ (good_init srcs hne) (by simp [Few, init])
  generalize run (init srcs) (before ++ .cancel :: after) = s at *
  have hend := (todo_run rounds.flatten s hg he).2.1
  refine ⟨?_, rounds_run rounds s hg he hr (Nat.le_trans (todo_few hg hfew) (by rw [hlen]; exact hn))⟩
  intro x hx
  obtain ⟨k, hk, rfl⟩ := List.mem_iff_getElem.mp hx
  have := hend k hk
  rw [List.getElem?_eq_getElem hk] at this
  exact Option.some.inj this

/-- **C168** is false for reads of several types: whenever the merging goroutine has a record for a consumer that does not come, it
waits for ever, whatever the others do and although the context is cancelled. -/
theorem C168_stuck (srcs : List (List Nat × Bool)) (before after : List Act) (i : Nat) (p : Pipe)
    (h : (run (init srcs) before).merge = .send i) (hp : (run (init srcs) before).pipes[i]? = some p) (ha : Abandons after) :
    (run (init srcs) (before ++ after)).merge = .send i ∧ ¬ (run (init srcs) (before ++ after)).Gone := by
  rw [run_append]
  have := (run_held after _ i p ha h hp).1
  refine ⟨this, fun hg => ?_⟩
  rw [hg.2] at this
  cases this

/-- It comes to that in every read of two types that have an event each, before the consumer asks for anything. -/
theorem C168_left_behind (r q : Nat) (rs qs : List Nat) (f g : Bool) (after : List Act) (ha : Abandons after) :
    ¬ (run (init [(r :: rs, f), (q :: qs, g)]) ([.pull, .pull] ++ .cancel :: after)).Gone := by
  have hne : ∃ i, i < 2 ∧ (run (init [(r :: rs, f), (q :: qs, g)]) [.pull, .pull]).merge = .send i ∧
      (run (init [(r :: rs, f), (q :: qs, g)]) [.pull, .pull]).pipes = [(0, r), (1, q)] := by
    by_cases hqr : q < r
    · exact ⟨1, by omega, by simp [run, init, step, Src.give, State.filled, choose, smallest, hqr],
        by simp [run, init, step, Src.give, State.filled]⟩
    · exact ⟨0, by omega, by simp [run, init, step, Src.give, State.filled, choose, smallest, hqr],
        by simp [run, init, step, Src.give, State.filled]⟩
  obtain ⟨i, hi, h1, h2⟩ := hne
  have hp : ∃ p, (run (init [(r :: rs, f), (q :: qs, g)]) [.pull, .pull]).pipes[i]? = some p := by
    rw [h2]
    exact ⟨_, List.getElem?_eq_getElem hi⟩
  obtain ⟨p, hp⟩ := hp
  refine (C168_stuck _ _ (.cancel :: after) i p h1 hp ?_).2
  intro h
  rcases List.mem_cons.mp h with e | e
  · cases e
  · exact ha e

/-- Nor does a goroutine return that has an error of the store to report to a consumer that does not come: that send does not look at
the context. -/
theorem C168_error_stuck (after : List Act) (ha : Abandons after) :
    (One.run ⟨.at [] true, false, []⟩ (.turn 0 :: .cancel :: after)).src = .failing := by
  have e : One.run ⟨.at [] true, false, []⟩ (.turn 0 :: .cancel :: after) = One.run ⟨.failing, true, []⟩ after := rfl
  rw [e]
  exact one_failing after _ ha rfl

/-- So the full property does not hold. -/
theorem C168_refuted : ¬ C168_full := by
  intro h
  obtain ⟨n, hn⟩ := h [([1], false), ([2], false)] [.pull, .pull]
  let after := List.replicate n (Act.turn 0) ++ List.replicate n (.turn 1) ++ List.replicate n .pull
  have ha : Abandons after := by
    intro hm
    simp only [after, List.mem_append, List.mem_replicate] at hm
    rcases hm with (⟨_, h⟩ | ⟨_, h⟩) | ⟨_, h⟩ <;> cases h
  refine C168_left_behind 1 2 [] [] false false after ha (hn after ha ?_ ?_)
  · intro k hk
    have : k = 0 ∨ k = 1 := by simp at hk; omega
    rcases this with rfl | rfl <;> simp [after, turns, List.countP_append, List.countP_replicate]
  · simp [after, List.countP_append, List.countP_replicate]

/-! ### The hypotheses are met -/

/-- Two types with two events each; the consumer takes one event, the context is cancelled, and the consumer takes the rest of what
is left. -/
example : (run (init [([1, 4], false), ([2, 3], false)])
    ([.pull, .pull, .next] ++ .cancel :: [.turn 0, .turn 1, .turn 1, .turn 0] ++
      (List.replicate 5 [.pull, .next]).flatten)).Gone :=
  C168_drained_partial _ (by simp) (by simp) _ _ (by
    intro k hk
    have : k = 0 ∨ k = 1 := by simp at hk; omega
    rcases this with rfl | rfl <;> decide) _ (by
    intro r hr
    rw [(List.mem_replicate.mp hr).2]
    exact ⟨by simp, by simp⟩) (by simp)

/-- Without cancellation the consumer is given everything in order. -/
example : (run (init [([1, 4], false), ([2, 3], false)]) ((List.replicate 12 [.pull, .next, .turn 0, .turn 1]).flatten)).out
    = [1, 2, 3, 4] := by decide

end RangeDB.Left

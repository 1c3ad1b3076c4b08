import Verif.Proof.StartOrder

/-!
# C173: What the callback of `StartFrom` gets
-/

namespace RangeDB.Left

/-- **C173**: the callback of `StartFrom(n)` gets events in ascending order, hence each once, whatever the schedule, the errors of the store
and the cancellation. -/
theorem C173_order (bad : Nat → Bool) (n : Nat) (hist : List Nat) (f : Bool) (later : List Nat × Bool) (hh : hist.Pairwise (· < ·))
    (hl : later.1.Pairwise (· < ·)) (acts : List StartAct) : ((Start.on n hist f).run bad later acts).got.Pairwise (· < ·) :=
  (ordered_run bad n (hist ++ later.1) later hl (fun x hx => by simp [hx]) acts _
    (ordered_on n hist _ f hh (fun x hx => by simp [hx]))).got

/-- **C173**: it gets events of the store only, from `n` on. -/
theorem C173_stored (bad : Nat → Bool) (n : Nat) (hist : List Nat) (f : Bool) (later : List Nat × Bool) (hh : hist.Pairwise (· < ·))
    (hl : later.1.Pairwise (· < ·)) (acts : List StartAct) (x : Nat) (hx : x ∈ ((Start.on n hist f).run bad later acts).got) :
    n ≤ x ∧ (x ∈ hist ∨ x ∈ later.1) := by
  have := (ordered_run bad n (hist ++ later.1) later hl (fun x hx => by simp [hx]) acts _
    (ordered_on n hist _ f hh (fun x hx => by simp [hx]))).from_ x hx
  simpa using this

/-- **C173**: `StartFrom` returns an error of the callback exactly if the callback failed, and the callback failed at the last event that it
got. -/
theorem C173_failed (bad : Nat → Bool) (n : Nat) (hist : List Nat) (f : Bool) (later : List Nat × Bool) (acts : List StartAct) :
    (((Start.on n hist f).run bad later acts).phase = .failed ↔ ∃ x ∈ ((Start.on n hist f).run bad later acts).got, bad x = true) ∧
    ∀ x ∈ ((Start.on n hist f).run bad later acts).got.dropLast, bad x = false := by
  have h := judged_run bad later acts (Start.on n hist f)
    ⟨fun _ x hx => by simp [Start.on, Start.init] at hx, fun h => by simp [Start.on, Start.init] at h⟩
  generalize (Start.on n hist f).run bad later acts = s at *
  by_cases hp : s.phase = .failed
  · obtain ⟨g, r, h1, h2, h3⟩ := h.ill hp
    refine ⟨⟨fun _ => ⟨r, by rw [h1]; simp, h2⟩, fun _ => hp⟩, ?_⟩
    rw [h1]
    simpa using h3
  · refine ⟨⟨fun h' => absurd h' hp, fun ⟨x, hx, hb⟩ => ?_⟩, fun x hx => h.well hp x (List.dropLast_subset _ hx)⟩
    have := h.well hp x hx
    rw [hb] at this; cases this

/-- **C173**: after `StartFrom` has returned the error of the callback, the callback is not called any more. -/
theorem C173_no_more (bad : Nat → Bool) (n : Nat) (hist : List Nat) (f : Bool) (later : List Nat × Bool) (acts after : List StartAct)
    (h : ((Start.on n hist f).run bad later acts).phase = .failed) :
    ((Start.on n hist f).run bad later (acts ++ after)).got = ((Start.on n hist f).run bad later acts).got := by
  rw [start_run_append]
  exact returned_got bad later after _ (.inl h)

/-- **C173**: what the callback got has no gap: it is a beginning of the events from `n` on, or, if event `n` was left out, of those after
`n`. This holds in every schedule, with errors of the store, cancellation and a callback that fails. -/
theorem C173_no_gap (bad : Nat → Bool) (n : Nat) (hist new : List Nat) (f g : Bool) (hs : (hist ++ new).Pairwise (· < ·))
    (acts : List StartAct) :
    ((Start.on n hist f).run bad (hist ++ new, g) acts).got <+: (hist ++ new).filter (fun x => decide (n ≤ x)) ∨
    ((Start.on n hist f).run bad (hist ++ new, g) acts).got <+: (hist ++ new).filter (fun x => decide (n < x)) := by
  have h := (gapless_run bad n (hist ++ new, g) hs acts _ (gapless_on n hist new f)).any
  exact h.imp (List.prefix_append _ _).trans (List.prefix_append _ _).trans

/-- **C173**, partial: if `StartFrom(n)` returned nil, was not cancelled and its first read found an event, then the callback got exactly the
events from `n` on. -/
theorem C173_complete_partial (bad : Nat → Bool) (n : Nat) (hist new : List Nat) (acts : List StartAct) (hs : (hist ++ new).Pairwise (· < ·))
    (hc : .cancel ∉ acts) (hn : ∃ x ∈ hist, n ≤ x)
    (h : ((Start.on n hist false).run bad (hist ++ new, false) acts).phase = .started) :
    ((Start.on n hist false).run bad (hist ++ new, false) acts).got = (hist ++ new).filter (fun x => decide (n ≤ x)) := by
  have hf := far_run bad n (hist.filter (fun x => decide (n ≤ x))) (hist ++ new) acts _ hc (far_init n _ _)
  obtain ⟨x, hx, hnx⟩ := hn
  rw [← two_reads n hist new hs (List.ne_nil_of_mem (a := x) (by simp [hx, hnx]))]
  exact hf.started h

/-- If its first read found none, it got those after `n`: an event `n` that was saved between the reads is left out. -/
theorem C173_skipped (bad : Nat → Bool) (n : Nat) (hist new : List Nat) (acts : List StartAct) (hc : .cancel ∉ acts)
    (hn : ∀ x ∈ hist, x < n) (h : ((Start.on n hist false).run bad (hist ++ new, false) acts).phase = .started) :
    ((Start.on n hist false).run bad (hist ++ new, false) acts).got = (hist ++ new).filter (fun x => decide (n < x)) := by
  have hf := far_run bad n (hist.filter (fun x => decide (n ≤ x))) (hist ++ new) acts _ hc (far_init n _ _)
  have e : hist.filter (fun x => decide (n ≤ x)) = [] := by
    rw [List.filter_eq_nil_iff]
    intro x hx
    have := hn x hx
    simp; omega
  have := hf.started h
  rw [e] at this
  simpa [lastOf, Nat.succ_le_iff, Start.on, e] using this

/-- **C173**, false in full: so event 0 is never handed over if it is saved between the reads of `StartFrom(0)`. -/
theorem C173_refuted : ¬ C173_full := by
  intro h
  have := h (fun _ => false) 0 [] [0, 1] [.turn, .call, .call, .turn, .call] (by decide) (by decide)
  revert this
  decide

/-- And a cancelled `StartFrom` may return nil without having handed over what was there. -/
theorem C173_cancelled : ∃ acts, ((Start.on 0 [0, 1] false).run (fun _ => false) ([0, 1], false) acts).phase = .started ∧
    ((Start.on 0 [0, 1] false).run (fun _ => false) ([0, 1], false) acts).got = [0] :=
  ⟨[.call, .cancel, .turn, .call, .turn, .call], by decide⟩

/-! The hypotheses are met. -/

example : ((Start.on 2 [1, 2, 3] false).run (fun _ => false) ([1, 2, 3] ++ [4], false) [.call, .call, .turn, .call, .call, .stop, .turn, .call]).got =
    [2, 3, 4] :=
  C173_complete_partial _ 2 [1, 2, 3] [4] _ (by decide) (by decide) ⟨2, by decide⟩ (by decide)

example : ((Start.on 1 [1, 2, 3] false).run (fun x => x == 2) ([1, 2, 3], false) ([.call, .call] ++ [.call, .turn, .call])).got = [1, 2] :=
  C173_no_more _ _ _ _ _ [.call, .call] _ (by decide)

example : ((Start.on 0 [] false).run (fun _ => false) ([] ++ [0, 1], false) [.turn, .call, .call, .turn, .call]).got = [1] :=
  C173_skipped _ 0 [] [0, 1] _ (by decide) (by simp) (by decide)

/-- A cancelled first read, continued by the second one. -/
example : ((Start.on 1 [1, 2] false).run (fun _ => false) ([1, 2] ++ [3], false)
    [.call, .cancel, .turn, .call, .call, .call]).got = [1, 2, 3] ∧ ([1, 2] ++ [3]).Pairwise (· < ·) := by decide

end RangeDB.Left

import Verif.Spec.FailedStart
import Verif.Proof.Abandoned

/-! # Lemmas for `Thm/FailedStart.lean` -/

namespace RangeDB.Left

theorem start_run_append (bad : Nat → Bool) (later : List Nat × Bool) (s : Start) (a b : List StartAct) :
    s.run bad later (a ++ b) = (s.run bad later a).run bad later b := by simp [Start.run]

theorem give_over {x y : Src} (h : x.give = some (none, y)) : y = .over := (rank_give x y none h).2.2 rfl

/-- A `StartFrom` that has returned nil has received the end of its read. -/
theorem started_step (bad : Nat → Bool) (later : List Nat × Bool) (s : Start) (a : StartAct)
    (h : s.phase = .started → s.one.src = .over) :
    (s.step bad later a).phase = .started → (s.step bad later a).one.src = .over := by
  cases a with
  | turn =>
    intro hp
    have := h hp
    simp [Start.step, this, Src.turn]
  | cancel => exact h
  | stop => exact h
  | call =>
    simp only [Start.step]
    split
    · rename_i r y hp hg
      intro h'
      simp only [Start.take] at h'
      split at h'
      · cases h'
      · rw [hp] at h'; cases h'
    · intro h'; cases h'
    · rename_i r y hp hg
      intro h'
      simp only [Start.take] at h'
      split at h'
      · cases h'
      · rw [hp] at h'; cases h'
    · rename_i y _ hg
      intro _
      exact give_over hg
    · exact h

theorem started_run (bad : Nat → Bool) (later : List Nat × Bool) (acts : List StartAct) : ∀ (s : Start),
    (s.phase = .started → s.one.src = .over) →
    (s.run bad later acts).phase = .started → (s.run bad later acts).one.src = .over := by
  induction acts with
  | nil => intro s h; exact h
  | cons a acts ih => intro s h; exact ih _ (started_step bad later s a h)

/-- When `StartFrom` has returned, the goroutine is on its own. -/
theorem returned_step (bad : Nat → Bool) (later : List Nat × Bool) (s : Start) (a : StartAct) (h : s.Returned) :
    (s.step bad later a).phase = s.phase ∧
    (s.step bad later a).one.src = (if a = .turn then s.one.src.turn s.one.cancelled else s.one.src) ∧
    (s.step bad later a).one.cancelled = (s.one.cancelled || decide (a = .cancel)) := by
  cases a with
  | turn => simp [Start.step]
  | cancel => simp [Start.step]
  | stop => simp [Start.step]
  | call =>
    have : s.step bad later .call = s := by
      simp only [Start.step]
      rcases h with h | h <;> split <;> simp_all
    rw [this]
    simp

theorem returned_run (bad : Nat → Bool) (later : List Nat × Bool) (acts : List StartAct) : ∀ (s : Start), s.Returned →
    (s.run bad later acts).Returned := by
  induction acts with
  | nil => intro s h; exact h
  | cons a acts ih =>
    intro s h
    apply ih (s.step bad later a)
    have := (returned_step bad later s a h).1
    unfold Start.Returned
    rw [this]
    exact h

/-- A goroutine with a record that nobody takes stays where it is until the context is cancelled. -/
theorem wedged_run (bad : Nat → Bool) (later : List Nat × Bool) (acts : List StartAct) : ∀ (s : Start) (r : Nat) (rs : List Nat) (f : Bool),
    s.Returned → s.one.src = .at (r :: rs) f → s.one.cancelled = false → .cancel ∉ acts →
    (s.run bad later acts).one.src = .at (r :: rs) f := by
  induction acts with
  | nil => intro s r rs f _ h _ _; exact h
  | cons a acts ih =>
    intro s r rs f hr hs hc hn
    simp only [List.mem_cons, not_or] at hn
    obtain ⟨h1, h2, h3⟩ := returned_step bad later s a hr
    apply ih (s.step bad later a) r rs f
    · unfold Start.Returned; rw [h1]; exact hr
    · rw [h2, hs, hc]
      split <;> simp [Src.turn]
    · rw [h3, hc]
      simpa using fun e => hn.1 e.symm
    · exact hn.2

/-- A read that is over stays over. -/
theorem start_over_run (bad : Nat → Bool) (later : List Nat × Bool) (acts : List StartAct) : ∀ (s : Start), s.Returned → s.one.src = .over →
    (s.run bad later acts).one.src = .over := by
  induction acts with
  | nil => intro s _ h; exact h
  | cons a acts ih =>
    intro s hr hs
    obtain ⟨h1, h2, _⟩ := returned_step bad later s a hr
    apply ih (s.step bad later a)
    · unfold Start.Returned; rw [h1]; exact hr
    · rw [h2, hs]
      split <;> simp [Src.turn]

/-- One turn is enough for a read without records left. -/
theorem start_last_run (bad : Nat → Bool) (later : List Nat × Bool) (acts : List StartAct) : ∀ (s : Start), s.Returned →
    s.one.src = .at [] false → .turn ∈ acts → (s.run bad later acts).one.src = .over := by
  induction acts with
  | nil => intro s _ _ h; cases h
  | cons a acts ih =>
    intro s hr hs ht
    obtain ⟨h1, h2, _⟩ := returned_step bad later s a hr
    have hr' : (s.step bad later a).Returned := by unfold Start.Returned; rw [h1]; exact hr
    by_cases e : a = .turn
    · refine start_over_run bad later acts (s.step bad later a) hr' ?_
      rw [h2, hs, if_pos e]
      simp [Src.turn]
    · refine ih (s.step bad later a) hr' ?_ ?_
      · rw [h2, hs, if_neg e]
      · rcases List.mem_cons.1 ht with h | h
        · exact absurd h.symm e
        · exact h

/-- Two turns are enough when the context is cancelled. -/
theorem freed_run (bad : Nat → Bool) (later : List Nat × Bool) (acts : List StartAct) : ∀ (s : Start),
    s.Returned → s.one.cancelled = true → s.one.src.sound = true →
    (s.run bad later acts).one.src.sound = true ∧ (s.run bad later acts).one.src.rank ≤ s.one.src.rank - acts.count .turn := by
  induction acts with
  | nil => intro s _ _ h; exact ⟨h, by simp [Start.run]⟩
  | cons a acts ih =>
    intro s hr hc hs
    obtain ⟨h1, h2, h3⟩ := returned_step bad later s a hr
    have hsound : (s.step bad later a).one.src.sound = true ∧
        (s.step bad later a).one.src.rank ≤ s.one.src.rank - (if a = .turn then 1 else 0) := by
      rw [h2]
      split
      · rw [hc]
        have := rank_turn s.one.src hs
        exact ⟨this.2, this.1⟩
      · exact ⟨hs, Nat.le_refl _⟩
    obtain ⟨g1, g2⟩ := ih (s.step bad later a) (by unfold Start.Returned; rw [h1]; exact hr) (by rw [h3, hc]; rfl) hsound.1
    refine ⟨g1, ?_⟩
    have hrun : s.run bad later (a :: acts) = (s.step bad later a).run bad later acts := rfl
    rw [hrun, List.count_cons]
    have : (a == StartAct.turn) = decide (a = .turn) := by cases a <;> rfl
    rw [this]
    by_cases e : a = .turn
    · simp only [e, if_true] at hsound
      simp only [e, decide_true, if_true]
      rw [e] at g2
      omega
    · simp only [e, if_false] at hsound
      simp only [e, decide_false, Bool.false_eq_true, if_false]
      omega

/-- The context stays cancelled. -/
theorem cancelled_run (bad : Nat → Bool) (later : List Nat × Bool) (acts : List StartAct) : ∀ (s : Start),
    s.one.cancelled = true ∨ .cancel ∈ acts → (s.run bad later acts).one.cancelled = true := by
  induction acts with
  | nil =>
    intro s h
    rcases h with h | h
    · exact h
    · cases h
  | cons a acts ih =>
    intro s h
    refine ih (s.step bad later a) ?_
    have keep : s.one.cancelled = true → (s.step bad later a).one.cancelled = true := by
      intro hc
      cases a with
      | turn => exact hc
      | cancel => rfl
      | stop => exact hc
      | call =>
        simp only [Start.step]
        split <;> exact hc
    rcases h with h | h
    · exact .inl (keep h)
    · rcases List.mem_cons.1 h with e | e
      · subst e; exact .inl rfl
      · exact .inr e

/-- Reads of a store without errors. -/
theorem start_sound (bad : Nat → Bool) (later : List Nat × Bool) (hl : later.2 = false) (acts : List StartAct) : ∀ (s : Start),
    s.one.src.sound = true → (s.run bad later acts).one.src.sound = true := by
  induction acts with
  | nil => intro s h; exact h
  | cons a acts ih =>
    intro s h
    apply ih (s.step bad later a)
    cases a with
    | turn =>
      simp only [Start.step]
      rcases hsrc : s.one.src with ⟨_ | ⟨r, rs⟩, _ | _⟩ | _ | _ | _ <;> cases s.one.cancelled <;> simp_all [Src.turn, Src.sound]
    | cancel => exact h
    | stop => exact h
    | call =>
      simp only [Start.step]
      split
      · rename_i hg; exact (rank_give _ _ _ hg).2.1 h
      · simp [Src.sound, hl]
      · rename_i hg; exact (rank_give _ _ _ hg).2.1 h
      · rename_i hg; exact (rank_give _ _ _ hg).2.1 h
      · exact h

end RangeDB.Left

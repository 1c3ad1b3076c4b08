import Verif.Spec.Answers
import Verif.Thm.ReadOrder

/-! # Lemmas for `Thm/Answers.lean` -/

namespace RangeDB.Left

theorem looks_nil : ¬ LooksComplete [] := by
  rintro ⟨rs, rest, h⟩
  cases rs <;> simp at h

theorem looks_error (as : List Answer) : ¬ LooksComplete (.error :: as) := by
  rintro ⟨rs, rest, h⟩
  cases rs <;> simp at h

theorem looks_record {r : Nat} {as : List Answer} (h : LooksComplete (.record r :: as)) : LooksComplete as := by
  obtain ⟨rs, rest, h⟩ := h
  cases rs with
  | nil => simp at h
  | cons x rs =>
    simp only [List.map_cons, List.cons_append, List.cons.injEq] at h
    exact ⟨rs, rest, h.2⟩

/-- What a consumer that sees a complete read has got, by the state of the goroutine. -/
def Told (acts : List Act) (s : One) : Prop :=
  match s.src with
  | .at t f => f = false ∧ (s.run acts).out = s.out ++ t
  | .over => (s.run acts).out = s.out
  | .giving => False
  | .failing => False

theorem over_out (acts : List Act) : ∀ s : One, s.src = .over → (s.run acts).out = s.out := by
  induction acts with
  | nil => intro s _; rfl
  | cons a acts ih =>
    intro s h
    have h1 : (s.step a).src = .over ∧ (s.step a).out = s.out := by
      cases a <;> simp [One.step, h, Src.turn, Src.give]
    exact (ih _ h1.1).trans h1.2

theorem told_run (acts : List Act) : ∀ s : One, Prompt s acts → LooksComplete (s.answers acts) → Told acts s := by
  induction acts with
  | nil => intro s _ h; exact absurd h looks_nil
  | cons a acts ih =>
    intro s hp hl
    have hrun : ∀ t : One, t.run (a :: acts) = (t.step a).run acts := fun t => rfl
    cases hsrc : s.src with
    | over =>
      simp only [Told, hsrc]
      exact over_out _ s hsrc
    | failing =>
      simp only [Told, hsrc]
      cases a with
      | next =>
        simp only [One.answers, hsrc, Src.answer, Option.toList_some, List.cons_append, List.nil_append] at hl
        exact looks_error _ hl
      | cancel => have := ih _ hp.2 hl; simp [Told, One.step, hsrc] at this
      | turn k => have := ih _ hp.2 hl; simp [Told, One.step, hsrc, Src.turn] at this
      | pull => have := ih _ hp.2 hl; simp [Told, One.step, hsrc] at this
    | giving =>
      simp only [Told, hsrc]
      cases a with
      | next =>
        simp only [One.answers, hsrc, Src.answer, Option.toList_some, List.cons_append, List.nil_append] at hl
        exact looks_error _ hl
      | cancel => have := ih _ hp.2 hl; simp [Told, One.step, hsrc] at this
      | turn k => exact hp.1 hsrc k rfl
      | pull => have := ih _ hp.2 hl; simp [Told, One.step, hsrc] at this
    | «at» t f =>
      simp only [Told, hsrc]
      rw [hrun]
      cases a with
      | cancel => simpa [Told, One.step, hsrc] using ih _ hp.2 hl
      | pull => simpa [Told, One.step, hsrc] using ih _ hp.2 hl
      | turn k =>
        have := ih _ hp.2 hl
        cases t with
        | nil =>
          cases f with
          | true => simp [Told, One.step, hsrc, Src.turn] at this
          | false =>
            simp only [Told, One.step, hsrc, Src.turn] at this
            refine ⟨rfl, ?_⟩
            simpa [One.step, hsrc, Src.turn] using this
        | cons r rs =>
          cases hc : s.cancelled with
          | true => simp [Told, One.step, hsrc, Src.turn, hc] at this
          | false =>
            simp only [Told, One.step, hsrc, Src.turn, hc, Bool.false_eq_true, if_false] at this
            simpa [One.step, hsrc, Src.turn, hc] using this
      | next =>
        cases t with
        | nil =>
          simp only [One.answers, hsrc, Src.answer, Option.toList_none, List.nil_append] at hl
          have := ih _ hp.2 hl
          simpa [Told, One.step, hsrc, Src.give] using this
        | cons r rs =>
          simp only [One.answers, hsrc, Src.answer, Option.toList_some, List.cons_append, List.nil_append] at hl
          have := ih _ hp.2 (looks_record hl)
          simpa [Told, One.step, hsrc, Src.give] using this

/-- The timer does not fire in a read that is not cancelled. -/
theorem prompt_of (acts : List Act) : ∀ s : One, s.cancelled = false → s.src ≠ .giving → .cancel ∉ acts → Prompt s acts := by
  induction acts with
  | nil => intro s _ _ _; exact trivial
  | cons a acts ih =>
    intro s hc hs hn
    simp only [List.mem_cons, not_or] at hn
    refine ⟨fun h => absurd h hs, ih _ ?_ ?_ hn.2⟩
    · cases a with
      | cancel => exact absurd rfl hn.1
      | turn k => exact hc
      | pull => exact hc
      | next => simp only [One.step]; split <;> exact hc
    · cases a with
      | cancel => exact absurd rfl hn.1
      | turn k =>
        simp only [One.step, hc]
        rcases h : s.src with ⟨_ | ⟨r, rs⟩, _ | _⟩ | _ | _ | _ <;> simp_all [Src.turn]
      | pull => exact hs
      | next =>
        simp only [One.step]
        rcases h : s.src with ⟨_ | ⟨r, rs⟩, _ | _⟩ | _ | _ | _ <;> simp [Src.give, h]

/-- The merging goroutine sends no errors. -/
theorem answers_no_error (acts : List Act) : ∀ s : State, .error ∉ s.answers acts := by
  induction acts with
  | nil => intro s; simp [State.answers]
  | cons a acts ih =>
    intro s
    cases a with
    | next =>
      simp only [State.answers, List.mem_append, not_or]
      refine ⟨?_, ih _⟩
      unfold State.answer
      split
      · rename_i i _
        cases h : s.pipes[i]? <;> simp
      · simp
      · simp
    | cancel => exact ih _
    | turn k => exact ih _
    | pull => exact ih _

/-- A closed channel is seen only when the merging goroutine has returned. -/
theorem closed_over (acts : List Act) : ∀ s : State, .closed ∈ s.answers acts → (run s acts).merge = .over := by
  induction acts with
  | nil => intro s h; simp [State.answers] at h
  | cons a acts ih =>
    intro s h
    have hrun : run s (a :: acts) = run (step s a) acts := rfl
    rw [hrun]
    cases a with
    | next =>
      simp only [State.answers, List.mem_append] at h
      rcases h with h | h
      · have : s.merge = .over := by
          unfold State.answer at h
          split at h
          · rename_i i _
            exfalso
            revert h
            cases s.pipes[i]? <;> simp
          · assumption
          · simp at h
        exact over_run _ _ (over_run [.next] s this)
      · exact ih _ h
    | cancel => exact ih _ h
    | turn k => exact ih _ h
    | pull => exact ih _ h

end RangeDB.Left

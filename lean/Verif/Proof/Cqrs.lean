import Verif.Spec.Cqrs
import Verif.Proof.InMemoryRead
import Verif.Proof.Log

namespace RangeDB.Cqrs

variable {z : Serializer} {ι σ κ : Type} [DecidableEq ι]

/-- The invariant of the store between calls. -/
def Inv (z : Serializer) (s : IM.State) (L : Log) : Prop := L.WF ∧ IM.Sim z s L

theorem saveOne_spec (hz : z.Lawful) {s : IM.State} {L : Log} (h : Inv z s L) (t : Stamp) (e : Event) :
    ((z.ser (mkRecord (getStream e.aggType e.aggId) (L.last + 1)
        (L.streamLen (getStream e.aggType e.aggId) + 1) (toRecord t e))).isSome = true ∧
      (saveOne z s t e).out = .ok (L.streamLen (getStream e.aggType e.aggId) + 1) ∧
      Inv z (saveOne z s t e).state (L.append z.view (getStream e.aggType e.aggId) [toRecord t e])) ∨
    ((z.ser (mkRecord (getStream e.aggType e.aggId) (L.last + 1)
        (L.streamLen (getStream e.aggType e.aggId) + 1) (toRecord t e))).isSome = false ∧
      (saveOne z s t e).out = .err .serialize ∧
      Inv z (saveOne z s t e).state { L with last := L.last + 1 }) := by
  have hs := IM.saveEvents_spec hz h.1 h.2 (getStream e.aggType e.aggId) none none [toRecord t e]
    (Or.inr (Or.inr (by simp))) (by simp)
  have hb : batchProblem z L (getStream e.aggType e.aggId) none none [toRecord t e]
      = if (z.ser (mkRecord (getStream e.aggType e.aggId) (L.last + 1)
          (L.streamLen (getStream e.aggType e.aggId) + 1) (toRecord t e))).isSome then none
        else some (0, .serialize) := by
    simp only [batchProblem, firstProblem, problem, differs, ctxDone]
    cases (z.ser (mkRecord (getStream e.aggType e.aggId) (L.last + 1)
          (L.streamLen (getStream e.aggType e.aggId) + 1) (toRecord t e))).isSome <;> simp
  cases hc : (z.ser (mkRecord (getStream e.aggType e.aggId) (L.last + 1)
          (L.streamLen (getStream e.aggType e.aggId) + 1) (toRecord t e))).isSome with
  | true =>
    left
    rw [hc] at hb
    have := hs.1 (by simpa using hb)
    exact ⟨rfl, this.1, h.1.append hz _ _, this.2.1⟩
  | false =>
    right
    rw [hc] at hb
    have := hs.2 0 .serialize (by simpa using hb)
    exact ⟨rfl, this.1, h.1.gap 1, this.2.1⟩

/-- `L'` extends `L` by the records of the events `es`. -/
def Grew (z : Serializer) (L L' : Log) (es : List Event) : Prop :=
  ∃ news, L'.recs = L.recs ++ news ∧ Each (Stored z) es news

theorem Grew.refl (L : Log) : Grew z L L [] := ⟨[], by simp, .nil⟩

theorem saveEvents_spec (hz : z.Lawful) (stamps : Nat → Stamp) (es : List Event) :
    ∀ (n : Nat) {s : IM.State} {L : Log}, Inv z s L →
    ∃ L' saved, (saveEvents z stamps n s es).2 = .ok saved ∧ Inv z (saveEvents z stamps n s es).1 L' ∧
      saved.Sublist es ∧ Grew z L L' saved ∧
      (∀ acc : Event → Bool, (∀ e ∈ es, ∀ g q t,
        (z.ser (mkRecord (getStream e.aggType e.aggId) g q (toRecord t e))).isSome = acc e) →
        saved = es.filter acc) := by
  induction es with
  | nil => intro n s L h; exact ⟨L, [], rfl, h, List.Sublist.refl _, .refl L, by simp⟩
  | cons e es ih =>
    intro n s L h
    rcases saveOne_spec hz h (stamps n) e with ⟨h1, h2, h3⟩ | ⟨h1, h2, h3⟩
    · obtain ⟨L', saved, i1, i2, i3, ⟨news, i4, i5⟩, i6⟩ := ih (n + 1) h3
      refine ⟨L', e :: saved, ?_, ?_, i3.cons_cons e, ?_, ?_⟩
      · simp only [saveEvents, h2]
        rw [show saveEvents z stamps (n + 1) (saveOne z s (stamps n) e).state es
          = ((saveEvents z stamps (n + 1) (saveOne z s (stamps n) e).state es).1, .ok saved) from
          Prod.ext rfl i1]
      · simp only [saveEvents, h2]
        rw [show saveEvents z stamps (n + 1) (saveOne z s (stamps n) e).state es
          = ((saveEvents z stamps (n + 1) (saveOne z s (stamps n) e).state es).1, .ok saved) from
          Prod.ext rfl i1]
        exact i2
      · refine ⟨?_ :: news, ?_, .cons ?_ i5⟩
        · exact z.view (mkRecord (getStream e.aggType e.aggId) (L.last + 1)
            (L.streamLen (getStream e.aggType e.aggId) + 1) (toRecord (stamps n) e))
        · rw [i4]; simp [Log.append, numbered]
        · exact ⟨_, _, _, rfl⟩
      · intro acc hacc
        have : acc e = true := by rw [← hacc e (by simp)]; exact h1
        rw [List.filter_cons_of_pos this, ← i6 acc (fun e' he' => hacc e' (by simp [he']))]
    · obtain ⟨L', saved, i1, i2, i3, ⟨news, i4, i5⟩, i6⟩ := ih (n + 1) h3
      refine ⟨L', saved, ?_, ?_, i3.trans (List.sublist_cons_self e es), ⟨news, i4, i5⟩, ?_⟩
      · simp only [saveEvents, h2]; exact i1
      · simp only [saveEvents, h2]; exact i2
      · intro acc hacc
        have : acc e = false := by rw [← hacc e (by simp)]; exact h1
        rw [List.filter_cons_of_neg (by simp [this]), ← i6 acc (fun e' he' => hacc e' (by simp [he']))]

theorem events_all {s : IM.State} {L : Log} (h : Inv z s L) :
    IM.events z s none 0 = ⟨L.recs, none⟩ := by
  rw [IM.events_spec h.2, List.filter_eq_self.mpr (by simp)]; rfl

theorem stream_recs {s : IM.State} {L : Log} (h : Inv z s L) (st : Str) :
    (IM.eventsByStream z s none 0 st).recs = L.stream st := by
  rw [IM.eventsByStream_spec h.2]
  by_cases h0 : L.streamLen st = 0
  · rw [if_pos h0]
    exact (List.length_eq_zero_iff.mp h0).symm
  · rw [if_neg h0, List.filter_eq_self.mpr (by simp)]; rfl

theorem dispatch_spec (hz : z.Lawful) (A : App ι σ κ) (stamps : Nat → Stamp) {st : State ι σ} {L : Log}
    (h : Inv z st.store L) (c : κ) :
    ∃ L' saved, (dispatch A z stamps st c).2 = .ok saved ∧ Inv z (dispatch A z stamps st c).1.store L' ∧
      saved.Sublist (decideEvents A z st.objs st.store c).2 ∧ Grew z L L' saved ∧
      (∀ acc : Event → Bool, (∀ e ∈ (decideEvents A z st.objs st.store c).2, ∀ g q t,
        (z.ser (mkRecord (getStream e.aggType e.aggId) g q (toRecord t e))).isSome = acc e) →
        saved = (decideEvents A z st.objs st.store c).2.filter acc) :=
  saveEvents_spec hz stamps _ 0 h

theorem serial_step (hz : z.Lawful) (A : App ι σ κ) {S : Serial ι σ} {L : Log} (h : Inv z S.store L)
    (it : Item κ) (hg : it.Guarded z) : ∃ L', Inv z (S.step A z it).store L' := by
  cases it with
  | dispatch p stamps c =>
    obtain ⟨L', _, _, h', _⟩ := dispatch_spec hz A stamps (st := ⟨S.objs p, S.store⟩) h c
    exact ⟨L', h'⟩
  | restart p => exact ⟨L, h⟩
  | other op => exact ⟨_, IM.specStep_WF hz h.1 op, IM.step_sim hz h.1 h.2 op hg⟩

theorem inv_init : Inv z IM.init Log.empty := ⟨Log.WF.empty, IM.sim_init⟩

theorem serial_inv (hz : z.Lawful) (A : App ι σ κ) (items : List (Item κ))
    (hg : ∀ it ∈ items, it.Guarded z) : ∃ L, Inv z (Serial.run A z items).store L := by
  have key : ∀ (items : List (Item κ)) (S : Serial ι σ) (L : Log), (∀ it ∈ items, it.Guarded z) →
      Inv z S.store L → ∃ L, Inv z (items.foldl (Serial.step A z) S).store L := by
    intro items
    induction items with
    | nil => intro S L _ h; exact ⟨L, h⟩
    | cons it items ih =>
      intro S L hg h
      obtain ⟨L', h'⟩ := serial_step hz A h it (hg it (by simp))
      exact ih _ L' (fun i hi => hg i (by simp [hi])) h'
  exact key items _ _ hg inv_init

theorem sys_step (hz : z.Lawful) (A : App ι σ κ) {S : Sys ι σ} {L : Log} (h : Inv z S.store L)
    (st : SysStep κ) (hg : st.Guarded z) : ∃ L', Inv z (S.step A z st).store L' := by
  cases st with
  | call p g c =>
    simp only [Sys.step]
    split
    · exact ⟨L, h⟩
    · exact ⟨L, h⟩
  | save g t =>
    simp only [Sys.step]
    cases hp : S.pending g with
    | nil => exact ⟨L, h⟩
    | cons e es =>
      rcases saveOne_spec hz h t e with ⟨_, _, h'⟩ | ⟨_, _, h'⟩ <;> exact ⟨_, h'⟩
  | restart p => exact ⟨L, h⟩
  | other op => exact ⟨_, IM.specStep_WF hz h.1 op, IM.step_sim hz h.1 h.2 op hg⟩

theorem sys_foldl (hz : z.Lawful) (A : App ι σ κ) (steps : List (SysStep κ)) :
    ∀ (S : Sys ι σ) (L : Log), (∀ it ∈ steps, it.Guarded z) →
      Inv z S.store L → ∃ L, Inv z (steps.foldl (Sys.step A z) S).store L := by
  induction steps with
  | nil => intro S L _ h; exact ⟨L, h⟩
  | cons it steps ih =>
    intro S L hg h
    obtain ⟨L', h'⟩ := sys_step hz A h it (hg it (by simp))
    exact ih _ L' (fun i hi => hg i (by simp [hi])) h'

theorem sys_inv (hz : z.Lawful) (A : App ι σ κ) (steps : List (SysStep κ))
    (hg : ∀ it ∈ steps, it.Guarded z) : ∃ L, Inv z (Sys.run A z steps).store L :=
  sys_foldl hz A steps _ _ hg inv_init

/-- A guarded operation that does not delete the stream keeps its records as a prefix. -/
theorem specStep_stream (hz : z.Lawful) (L : Log) (op : Op) (st : Str) (hk : keeps st op) :
    ∃ news, (specStep z L op).stream st = L.stream st ++ news := by
  cases op with
  | save st' expected cancelAt ers =>
    simp only [specStep]
    split
    · exact ⟨[], by simp⟩
    · split
      · exact ⟨_, by simp only [Log.stream, Log.append, List.filter_append]; rfl⟩
      · rename_i j e _
        have happ : ∃ news, (L.append z.view st' (ers.take j)).stream st = L.stream st ++ news :=
          ⟨_, by simp only [Log.stream, Log.append, List.filter_append]; rfl⟩
        cases e <;> simp only [afterFail] <;> first | exact happ | exact ⟨[], by simp [Log.stream]⟩
  | delete st' expected cancelled =>
    simp only [specStep]
    split
    · refine ⟨[], ?_⟩
      simp only [Log.stream, Log.delete, List.filter_filter, List.append_nil]
      apply List.filter_congr
      intro r _
      by_cases hr : r.streamName = st
      · simp [hr]
        exact fun h => hk (by rw [← h])
      · simp [hr]
    · exact ⟨[], by simp⟩

theorem Grew.stream {L L' : Log} {es : List Event} (h : Grew z L L' es) (st : Str) :
    ∃ news, L'.stream st = L.stream st ++ news := by
  obtain ⟨news, h1, _⟩ := h
  exact ⟨news.filter (fun r => r.streamName = st), by simp [Log.stream, h1, List.filter_append]⟩

theorem stored_stream (hz : z.Lawful) {e : Event} {r : Record} (h : Stored z e r) :
    r.streamName = getStream e.aggType e.aggId := by
  obtain ⟨g, q, t, rfl⟩ := h
  rw [hz.streamName]; rfl

theorem getStream_inj {t i j : Str} (h : getStream t i = getStream t j) : i = j := by
  simpa [getStream] using h

end RangeDB.Cqrs

import Verif.Spec.StartAgain

/-! # Lemmas for `Thm/StartAgain.lean` -/

namespace RangeDB.Again

/-- A call of `StartFrom` that has not returned, or a goroutine that has not. -/
def Caller.alive : Caller → Bool
  | .over => false
  | _ => true

def Worker.alive : Worker → Bool
  | .gone => false
  | _ => true

/-- All that may yet close the channel, and the one that has. -/
def load (s : State) : Nat :=
  s.callers.countP Caller.alive + s.workers.countP Worker.alive + (if s.finished then 1 else 0)

theorem countP_set {α : Type} (p : α → Bool) : ∀ (l : List α) (i : Nat) (x y : α), l[i]? = some x →
    (l.set i y).countP p + (if p x then 1 else 0) = l.countP p + (if p y then 1 else 0)
  | [], i, x, y, h => by simp at h
  | a :: l, 0, x, y, h => by
    simp only [List.getElem?_cons_zero, Option.some.injEq] at h
    subst h
    simp only [List.set_cons_zero, List.countP_cons]
    omega
  | a :: l, i + 1, x, y, h => by
    simp only [List.getElem?_cons_succ] at h
    have := countP_set p l i x y h
    simp only [List.set_cons_succ, List.countP_cons]
    omega

theorem countP_pos_of {α : Type} {p : α → Bool} {l : List α} {i : Nat} {x : α} (h : l[i]? = some x) (hp : p x = true) :
    0 < l.countP p :=
  List.countP_pos_iff.mpr ⟨x, List.mem_of_getElem? h, hp⟩

theorem step_load (s : State) (a : Act) (hp : s.panicked = false) (h1 : load s + (if a.starts then 1 else 0) ≤ 1) :
    (step s a).panicked = false ∧ load (step s a) ≤ load s + (if a.starts then 1 else 0) := by
  have hw : ∀ w x y, s.workers[w]? = some x → x.alive = true → y.alive = true →
      (s.workers.set w y).countP Worker.alive = s.workers.countP Worker.alive := by
    intro w x y h hx hy
    have := countP_set Worker.alive s.workers w x y h
    rw [hx, hy] at this
    simpa using this
  have hg : ∀ w x, s.workers[w]? = some x → x.alive = true →
      (s.workers.set w .gone).countP Worker.alive + 1 = s.workers.countP Worker.alive := by
    intro w x h hx
    have := countP_set Worker.alive s.workers w x .gone h
    rw [hx] at this
    simpa [Worker.alive] using this
  have hc : ∀ c x y, s.callers[c]? = some x → x.alive = true → y.alive = true →
      (s.callers.set c y).countP Caller.alive = s.callers.countP Caller.alive := by
    intro w x y h hx hy
    have := countP_set Caller.alive s.callers w x y h
    rw [hx, hy] at this
    simpa using this
  have ho : ∀ c x, s.callers[c]? = some x → x.alive = true →
      (s.callers.set c .over).countP Caller.alive + 1 = s.callers.countP Caller.alive := by
    intro w x h hx
    have := countP_set Caller.alive s.callers w x .over h
    rw [hx] at this
    simpa [Caller.alive] using this
  unfold step
  rw [if_neg (by simp [hp])]
  cases a with
  | start =>
    simp only []
    split
    · exact ⟨hp, by simp⟩
    · refine ⟨hp, ?_⟩
      simp only [load, List.countP_append, Act.starts]
      simp [Worker.alive]
      omega
  | startFrom g =>
    refine ⟨hp, ?_⟩
    simp only [load, List.countP_append, Act.starts]
    simp [Caller.alive]
    omega
  | past c r =>
    simp only []
    split <;> exact ⟨hp, by simp [load]⟩
  | fail c =>
    simp only []
    split
    · rename_i h
      have := ho c _ h rfl
      exact ⟨hp, by simp only [load]; omega⟩
    · rename_i h
      have := ho c _ h rfl
      exact ⟨hp, by simp only [load]; omega⟩
    · exact ⟨hp, by simp⟩
  | next c =>
    simp only []
    split
    · rename_i h
      have := hc c _ .second h rfl rfl
      exact ⟨hp, by simp only [load]; omega⟩
    · rename_i h
      have := ho c _ h rfl
      refine ⟨hp, ?_⟩
      simp only [load, List.countP_append]
      simp [Worker.alive]
      omega
    · exact ⟨hp, by simp⟩
  | stop => exact ⟨hp, by simp [load]⟩
  | feed r =>
    simp only []
    split <;> exact ⟨hp, by simp [load]⟩
  | take w =>
    simp only []
    split
    · rename_i r _ h _
      have := hw w _ (.holds r) h rfl rfl
      exact ⟨hp, by simp only [load]; rw [this]; omega⟩
    · exact ⟨hp, by simp⟩
  | check w =>
    simp only []
    split
    · rename_i r h
      have := hw w _ (if r ≤ s.last then .idle else .fresh r) h rfl (by split <;> rfl)
      exact ⟨hp, by simp only [load]; omega⟩
    · exact ⟨hp, by simp⟩
  | give w =>
    simp only []
    split
    · rename_i r h
      have := hw w _ .idle h rfl rfl
      exact ⟨hp, by simp only [load]; omega⟩
    · exact ⟨hp, by simp⟩
  | refuse w =>
    simp only []
    split
    · rename_i r h
      have := hg w _ h rfl
      exact ⟨hp, by simp only [load]; omega⟩
    · exact ⟨hp, by simp⟩
  | quit w =>
    simp only []
    split
    · rename_i h
      have := hw w _ .leaving h rfl rfl
      split
      · exact ⟨hp, by simp only [load]; omega⟩
      · exact ⟨hp, by simp⟩
    · exact ⟨hp, by simp⟩
  | close w =>
    simp only []
    split
    · rename_i h
      have h0 := countP_pos_of (p := Worker.alive) h rfl
      have := hg w _ h rfl
      split
      · rename_i hf
        simp only [load, hf, if_true] at h1
        omega
      · rename_i hf
        refine ⟨hp, ?_⟩
        simp only [load, hf, if_true, Bool.false_eq_true, if_false]
        omega
    · exact ⟨hp, by simp⟩

theorem run_load (acts : List Act) : ∀ s : State, s.panicked = false → load s + starts acts ≤ 1 →
    (acts.foldl step s).panicked = false ∧ load (acts.foldl step s) ≤ load s + starts acts := by
  induction acts with
  | nil => intro s h _; exact ⟨h, by simp⟩
  | cons a acts ih =>
    intro s h hb
    have e : starts (a :: acts) = (if a.starts then 1 else 0) + starts acts := by
      unfold starts
      cases ha : a.starts with
      | true => simp [ha]; omega
      | false => simp [ha]
    rw [e] at hb ⊢
    have h1 := step_load s a h (by omega)
    have h2 := ih (step s a) h1.1 (by omega)
    exact ⟨h2.1, by rw [List.foldl_cons]; omega⟩

theorem load_over {s : State} (h : Over s) : load s = 0 := by
  obtain ⟨h1, h2, h3⟩ := h
  have e1 : s.callers.countP Caller.alive = 0 := List.countP_eq_zero.mpr (fun c hc => by rw [h1 c hc]; simp [Caller.alive])
  have e2 : s.workers.countP Worker.alive = 0 := List.countP_eq_zero.mpr (fun c hc => by rw [h2 c hc]; simp [Worker.alive])
  simp [load, e1, e2, h3]

theorem run_oneByOne (acts : List Act) : ∀ s : State, s.panicked = false → load s ≤ 1 → OneByOne s acts →
    (acts.foldl step s).panicked = false ∧ load (acts.foldl step s) ≤ 1 := by
  induction acts with
  | nil => intro s h hl _; exact ⟨h, hl⟩
  | cons a acts ih =>
    intro s h hl ho
    have h1 : (step s a).panicked = false ∧ load (step s a) ≤ 1 := by
      cases hs : a.starts with
      | false =>
        have := step_load s a h (by rw [hs]; simpa using hl)
        rw [hs] at this
        exact ⟨this.1, by simp at this; omega⟩
      | true =>
        cases hb : a.begins s with
        | true =>
          have h0 := load_over (ho.1 hb)
          have := step_load s a h (by rw [hs, h0]; simp)
          rw [hs, h0] at this
          exact ⟨this.1, by simpa using this.2⟩
        | false =>
          have e : step s a = s := by
            cases a <;> simp only [Act.starts, reduceCtorEq] at hs <;> simp [Act.begins] at hb
            simp [step, h, hb]
          rw [e]
          exact ⟨h, hl⟩
    exact ih (step s a) h1.1 h1.2 ho.2

/-- All the records that are under way, when there is one worker. -/
def Worker.held : Worker → List Nat
  | .holds r => [r]
  | .fresh r => [r]
  | _ => []

/-- What is true while nobody asks for the past, the subscriber does not fail, and there is at most one worker. -/
structure Tidy (s : State) : Prop where
  callers : s.callers = []
  one : s.workers = [] ∧ s.fed = [] ∧ s.out = [] ∧ s.buffer = [] ∧ s.registered = false ∧ s.last = 0 ∨
    ∃ w, s.workers = [w] ∧ s.fed = s.out ++ w.held ++ s.buffer ∧ (s.last = 0 ∧ s.out = [] ∨ s.last ∈ s.out)

theorem step_tidy (s : State) (a : Act) (hp : s.panicked = false) (ha : a.Plain) (hs : a.starts = true → s.workers = [])
    (hr : Rising (step s a).fed) (h : Tidy s) : Tidy (step s a) := by
  have hmono : Rising s.fed := by
    revert hr
    unfold step
    rw [if_neg (by simp [hp])]
    cases a <;> simp only [] <;> (repeat' split) <;> first | exact id | skip
    intro hr
    simp only [] at hr
    exact ⟨(List.pairwise_append.mp hr.1).1, fun r h => hr.2 r (List.mem_append_left _ h)⟩
  obtain ⟨hc, h⟩ := h
  unfold step
  rw [if_neg (by simp [hp])]
  cases a with
  | start =>
    simp only []
    split
    · exact ⟨hc, h⟩
    · refine ⟨hc, .inr ?_⟩
      have hw := hs rfl
      rcases h with ⟨_, h2, h3, h4, _, h5⟩ | ⟨w, h1, _⟩
      · exact ⟨.idle, by simp [hw], by simp [h2, h3, h4, Worker.held], .inl ⟨h5, h3⟩⟩
      · rw [hw] at h1; simp at h1
  | startFrom g => exact ha.elim
  | past c r => simp [hc]; exact ⟨hc, h⟩
  | fail c => simp [hc]; exact ⟨hc, h⟩
  | next c => simp [hc]; exact ⟨hc, h⟩
  | stop => exact ⟨hc, h⟩
  | feed r =>
    simp only []
    split
    · rename_i hg
      rcases h with ⟨_, _, _, _, h5, _⟩ | ⟨w, h1, h2, h3⟩
      · rw [h5] at hg; simp at hg
      · exact ⟨hc, .inr ⟨w, h1, by simp [h2], h3⟩⟩
    · exact ⟨hc, h⟩
  | take w =>
    rcases h with h | ⟨x, h1, h2, h3⟩
    · simp only [h.1]; simp; exact ⟨hc, .inl h⟩
    · simp only []
      split
      · rename_i r b hx hb
        rw [h1] at hx
        have hw0 : w = 0 := by
          cases w with
          | zero => rfl
          | succ w => simp at hx
        subst hw0
        simp only [List.getElem?_cons_zero, Option.some.injEq] at hx
        subst hx
        exact ⟨hc, .inr ⟨.holds r, by simp [h1], by simp [h2, hb, Worker.held], h3⟩⟩
      · exact ⟨hc, .inr ⟨x, h1, h2, h3⟩⟩
  | check w =>
    rcases h with h | ⟨x, h1, h2, h3⟩
    · simp only [h.1]; simp; exact ⟨hc, .inl h⟩
    · simp only []
      split
      · rename_i r hx
        rw [h1] at hx
        have hw0 : w = 0 := by
          cases w with
          | zero => rfl
          | succ w => simp at hx
        subst hw0
        simp only [List.getElem?_cons_zero, Option.some.injEq] at hx
        subst hx
        have hlt : ¬ r ≤ s.last := by
          rw [h2] at hmono
          rcases h3 with h3 | h3
          · have := hmono.2 r (by simp [Worker.held])
            omega
          · have := (List.pairwise_append.mp (List.pairwise_append.mp hmono.1).1).2.2 s.last h3 r (by simp [Worker.held])
            omega
        exact ⟨hc, .inr ⟨.fresh r, by simp [h1, hlt], by simp [h2, Worker.held], h3⟩⟩
      · exact ⟨hc, .inr ⟨x, h1, h2, h3⟩⟩
  | give w =>
    rcases h with h | ⟨x, h1, h2, h3⟩
    · simp only [h.1]; simp; exact ⟨hc, .inl h⟩
    · simp only []
      split
      · rename_i r hx
        rw [h1] at hx
        have hw0 : w = 0 := by
          cases w with
          | zero => rfl
          | succ w => simp at hx
        subst hw0
        simp only [List.getElem?_cons_zero, Option.some.injEq] at hx
        subst hx
        exact ⟨hc, .inr ⟨.idle, by simp [h1], by simp [h2, Worker.held], .inr (by simp)⟩⟩
      · exact ⟨hc, .inr ⟨x, h1, h2, h3⟩⟩
  | refuse w => exact ha.elim
  | quit w =>
    rcases h with h | ⟨x, h1, h2, h3⟩
    · simp only [h.1]; simp; exact ⟨hc, .inl h⟩
    · simp only []
      split
      · rename_i hx
        rw [h1] at hx
        have hw0 : w = 0 := by
          cases w with
          | zero => rfl
          | succ w => simp at hx
        subst hw0
        simp only [List.getElem?_cons_zero, Option.some.injEq] at hx
        subst hx
        split
        · exact ⟨hc, .inr ⟨.leaving, by simp [h1], by simp [h2, Worker.held], h3⟩⟩
        · exact ⟨hc, .inr ⟨.idle, h1, h2, h3⟩⟩
      · exact ⟨hc, .inr ⟨x, h1, h2, h3⟩⟩
  | close w =>
    rcases h with h | ⟨x, h1, h2, h3⟩
    · simp only [h.1]; simp; exact ⟨hc, .inl h⟩
    · simp only []
      split
      · rename_i hx
        rw [h1] at hx
        have hw0 : w = 0 := by
          cases w with
          | zero => rfl
          | succ w => simp at hx
        subst hw0
        simp only [List.getElem?_cons_zero, Option.some.injEq] at hx
        subst hx
        split
        · exact ⟨hc, .inr ⟨.leaving, h1, h2, h3⟩⟩
        · exact ⟨hc, .inr ⟨.gone, by simp [h1], by simp [h2, Worker.held], h3⟩⟩
      · exact ⟨hc, .inr ⟨x, h1, h2, h3⟩⟩

theorem quit_idle {s : State} {i : Nat} (hp : s.panicked = false) (hc : s.cancelled = true) (hi : s.workers[i]? = some .idle) :
    (step s (.quit i)).panicked = false ∧ (step s (.quit i)).cancelled = true ∧
      (step s (.quit i)).workers = s.workers.set i .leaving := by
  simp [step, hp, hi, hc]

theorem close_two {s : State} {i j : Nat} (hp : s.panicked = false) (hij : i ≠ j) (hi : s.workers[i]? = some .leaving)
    (hj : s.workers[j]? = some .leaving) : (step (step s (.close i)) (.close j)).panicked = true := by
  cases hf : s.finished with
  | true =>
    have : step s (.close i) = { s with panicked := true } := by simp [step, hp, hi, hf]
    rw [this]
    simp [step]
  | false =>
    have : step s (.close i) = { s with finished := true, workers := s.workers.set i .gone } := by simp [step, hp, hi, hf]
    rw [this]
    have hj' : (s.workers.set i .gone)[j]? = some .leaving := by rw [List.getElem?_set_ne hij]; exact hj
    simp [step, hp, hj']

theorem step_fed (s : State) (a : Act) : s.fed <+: (step s a).fed := by
  unfold step
  split
  · exact List.prefix_refl _
  · cases a <;> simp only [] <;> (repeat' split) <;> simp

theorem run_fed (acts : List Act) : ∀ s : State, s.fed <+: (acts.foldl step s).fed := by
  induction acts with
  | nil => intro s; exact List.prefix_refl _
  | cons a acts ih => intro s; exact (step_fed s a).trans (ih _)

theorem Rising.of_prefix {a b : List Nat} (h : a <+: b) (hb : Rising b) : Rising a :=
  ⟨hb.1.sublist h.sublist, fun r hr => hb.2 r (h.subset hr)⟩

theorem step_gone (s : State) (a : Act) (ha : a.Plain) (hc : s.callers = []) (h : ∀ w ∈ s.workers, w = .gone → s.finished = true) :
    ∀ w ∈ (step s a).workers, w = .gone → (step s a).finished = true := by
  have hset : ∀ i x, x ≠ Worker.gone → ∀ w ∈ s.workers.set i x, w = .gone → s.finished = true := by
    intro i x hx w hw he
    rcases List.mem_or_eq_of_mem_set hw with h1 | h1
    · exact h w h1 he
    · exact (hx (h1 ▸ he)).elim
  unfold step
  split
  · exact h
  · cases a with
    | startFrom g => exact ha.elim
    | refuse w => exact ha.elim
    | start =>
      simp only []
      split
      · exact h
      · intro w hw he
        rcases List.mem_append.mp hw with h1 | h1
        · exact h w h1 he
        · simp at h1; rw [h1] at he; cases he
    | past c r => simp only [hc, List.getElem?_nil]; exact h
    | fail c => simp only [hc, List.getElem?_nil]; exact h
    | next c => simp only [hc, List.getElem?_nil]; exact h
    | stop => exact h
    | feed r => simp only []; split <;> exact h
    | take w =>
      simp only []
      split
      · exact hset _ _ (by simp)
      · exact h
    | check w =>
      simp only []
      split
      · exact hset _ _ (by split <;> simp)
      · exact h
    | give w =>
      simp only []
      split
      · exact hset _ _ (by simp)
      · exact h
    | quit w =>
      simp only []
      split
      · split
        · exact hset _ _ (by simp)
        · exact h
      · exact h
    | close w =>
      simp only []
      split
      · split
        · exact h
        · intro _ _ _; rfl
      · exact h

/-- The invariant of a subscription that is started, one start after the other, with `Start` alone. -/
theorem run_tidy (acts : List Act) : ∀ s : State, s.panicked = false → load s ≤ 1 → OneByOne s acts →
    (∀ a ∈ acts, a.Plain) → Rising (acts.foldl step s).fed → (∀ w ∈ s.workers, w = .gone → s.finished = true) → Tidy s →
    Tidy (acts.foldl step s) := by
  induction acts with
  | nil => intro s _ _ _ _ _ _ h; exact h
  | cons a acts ih =>
    intro s hp hl ho ha hr hg h
    have h1 := run_oneByOne [a] s hp hl ⟨ho.1, trivial⟩
    have hrs : Rising (step s a).fed := hr.of_prefix (run_fed acts _)
    refine ih (step s a) h1.1 h1.2 ho.2 (fun x hx => ha x (by simp [hx])) hr
      (step_gone s a (ha a (by simp)) h.callers hg) ?_
    cases hs : a.starts with
    | false => exact step_tidy s a hp (ha a (by simp)) (by rw [hs]; simp) hrs h
    | true =>
      cases hb : a.begins s with
      | true =>
        obtain ⟨_, hw, hf⟩ := ho.1 hb
        refine step_tidy s a hp (ha a (by simp)) (fun _ => ?_) hrs h
        apply List.eq_nil_iff_forall_not_mem.mpr
        intro w hm
        rw [hg w hm (hw w hm)] at hf
        cases hf
      | false =>
        have e : step s a = s := by
          cases a <;> simp only [Act.starts, reduceCtorEq] at hs <;> simp [Act.begins] at hb
          simp [step, hp, hb]
        rw [e]
        exact h

end RangeDB.Again

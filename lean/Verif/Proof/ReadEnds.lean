import Verif.Spec.ReadOrder
import Verif.Proof.Abandoned

/-! # Lemmas for `Thm/ReadOrder.lean`: a read comes to its end -/

namespace RangeDB.Left

/-- How many records a goroutine has still to hand over. -/
def Src.left : Src → Nat
  | .at l _ => l.length
  | _ => 0

/-- What a read has still to do. -/
def work (s : State) : Nat :=
  3 * (s.srcs.map Src.left).sum + 2 * s.pipes.length +
    match s.merge with
    | .fill k => 2 * (s.srcs.length - k) + 2
    | .send _ => 1
    | .read _ => 0
    | .over => 0

theorem sum_set : ∀ (l : List Src) (k : Nat) (x y : Src), l[k]? = some x →
    ((l.set k y).map Src.left).sum + x.left = (l.map Src.left).sum + y.left := by
  intro l
  induction l with
  | nil => intro k x y h; simp at h
  | cons a l ih =>
    intro k x y h
    cases k with
    | zero =>
      simp only [List.getElem?_cons_zero, Option.some.injEq] at h
      subst h
      simp only [List.set_cons_zero, List.map_cons, List.sum_cons]
      omega
    | succ k =>
      simp only [List.getElem?_cons_succ] at h
      have := ih k x y h
      simp only [List.set_cons_succ, List.map_cons, List.sum_cons]
      omega

theorem left_turn (c : Bool) (x : Src) : (x.turn c).left ≤ x.left := by
  rcases x with ⟨_ | ⟨r, rs⟩, _ | _⟩ | _ | _ | _ <;> simp only [Src.turn] <;> (try split) <;> simp [Src.left]

theorem left_give {x y : Src} {o : Option Nat} (h : x.give = some (o, y)) : y.left + (if o.isSome then 1 else 0) = x.left ∨
    (o = none ∧ x.left = 0 ∧ y.left = 0) := by
  rcases x with ⟨_ | ⟨r, rs⟩, f⟩ | _ | _ | _ <;> simp only [Src.give] at h <;> cases h <;> simp [Src.left]

theorem work_choose (s : State) : work { s with merge := choose s.pipes } ≤
    3 * (s.srcs.map Src.left).sum + 2 * s.pipes.length + 1 := by
  rcases choose_cases s.pipes with ⟨_, h⟩ | ⟨i, _, h⟩ <;> simp [work, h]

theorem work_filled (s : State) (k : Nat) : work (s.filled k) ≤
    3 * (s.srcs.map Src.left).sum + 2 * s.pipes.length + 2 * (s.srcs.length - k) + 1 := by
  unfold State.filled
  split
  · simp only [work]; omega
  · have := work_choose s
    omega

/-- The goroutine at which the merging goroutine waits. -/
def awaited (s : State) : Option Nat :=
  match s.merge with
  | .fill k => some k
  | .read i => s.pipes[i]?.map (·.1)
  | _ => none

/-- A goroutine from which a receive does not have to wait. -/
def Calm (x : Src) : Prop := ∀ f, x ≠ .at [] f

theorem calm_turn (c : Bool) (x : Src) : Calm (x.turn c) := by
  intro f
  rcases x with ⟨_ | ⟨r, rs⟩, _ | _⟩ | _ | _ | _ <;> simp only [Src.turn] <;> (try split) <;> simp

theorem calm_give {x : Src} (h : Calm x) : ∃ o y, x.give = some (o, y) := by
  rcases x with ⟨_ | ⟨r, rs⟩, f⟩ | _ | _ | _
  · exact absurd rfl (h f)
  all_goals exact ⟨_, _, rfl⟩

theorem give_calm {x : Src} (h : x.give = none) : ¬ Calm x := by
  intro hc
  obtain ⟨o, y, e⟩ := calm_give hc
  rw [h] at e
  cases e

/-- A receive of the merging goroutine does not happen, or makes the work less. -/
theorem work_pull (s : State) (hg : Good s) :
    work (step s .pull) < work s ∨
    (step s .pull = s ∧ ∀ k x, awaited s = some k → s.srcs[k]? = some x → ¬ Calm x) := by
  have hpc := hg.pc
  simp only [step]
  split
  · rename_i k hm
    rw [hm] at hpc
    simp only [] at hpc
    rw [List.getElem?_eq_getElem hpc]
    have hx : s.srcs[k]? = some s.srcs[k] := List.getElem?_eq_getElem hpc
    simp only
    split
    · rename_i hn
      refine .inr ⟨rfl, fun j x hj hx' => ?_⟩
      simp only [awaited, hm, Option.some.injEq] at hj
      subst hj
      rw [hx] at hx'
      obtain rfl := Option.some.inj hx'
      exact give_calm hn
    · rename_i r y hgv
      left
      have h1 := work_filled { s with srcs := s.srcs.set k y, pipes := s.pipes ++ [(k, r)] } k
      have h2 := sum_set s.srcs k _ y hx
      have h3 := left_give hgv
      simp only [List.length_set, List.length_append, List.length_cons, List.length_nil, Option.isSome_some, if_true] at h1 h3
      have h4 : y.left + 1 = s.srcs[k].left := by simpa using h3
      simp only [work, hm] at h1 ⊢
      omega
    · rename_i y hgv
      left
      have h1 := work_filled { s with srcs := s.srcs.set k y } k
      have h2 := sum_set s.srcs k _ y hx
      have h3 := left_give hgv
      have h4 : y.left ≤ s.srcs[k].left := by rcases h3 with h3 | h3 <;> simp at h3 <;> omega
      simp only [List.length_set] at h1
      simp only [work, hm] at h1 ⊢
      omega
  · rename_i i hm
    rw [hm] at hpc
    simp only [] at hpc
    rw [List.getElem?_eq_getElem hpc]
    have hq := hg.pipes _ (List.getElem_mem hpc)
    have hx : s.srcs[s.pipes[i].1]? = some s.srcs[s.pipes[i].1] := List.getElem?_eq_getElem hq
    simp only
    split
    · rename_i hn
      rw [hx] at hn
      refine .inr ⟨rfl, fun j x hj hx' => ?_⟩
      simp only [awaited, hm, List.getElem?_eq_getElem hpc, Option.map_some, Option.some.injEq] at hj
      subst hj
      rw [hx] at hx'
      obtain rfl := Option.some.inj hx'
      exact give_calm (by simpa using hn)
    · rename_i r y hgv
      rw [hx] at hgv
      left
      have h2 := sum_set s.srcs _ _ y hx
      have h3 := left_give (by simpa using hgv)
      have h4 : y.left + 1 = s.srcs[s.pipes[i].1].left := by simpa using h3
      split
      · simp only [work, hm, List.length_set]
        omega
      · have h1 := work_choose { s with srcs := s.srcs.set s.pipes[i].1 y, pipes := s.pipes.set i (s.pipes[i].1, r) }
        simp only [List.length_set] at h1
        simp only [work, hm] at h1 ⊢
        omega
    · rename_i y hgv
      rw [hx] at hgv
      left
      have h2 := sum_set s.srcs _ _ y hx
      have h3 := left_give (by simpa using hgv)
      have h4 : y.left ≤ s.srcs[s.pipes[i].1].left := by rcases h3 with h3 | h3 <;> simp at h3 <;> omega
      have h1 := work_choose { s with srcs := s.srcs.set s.pipes[i].1 y, pipes := remove s.pipes i }
      have h5 := length_remove hpc
      simp only [work, hm] at h1 ⊢
      simp only [h5] at h1 ⊢
      omega
  · rename_i h1 h2
    refine .inr ⟨rfl, fun j x hj _ => ?_⟩
    exfalso
    unfold awaited at hj
    split at hj
    · rename_i k hk; exact h1 k hk
    · rename_i i hi; exact h2 i hi
    · cases hj

theorem work_next (s : State) (hg : Good s) :
    work (step s .next) < work s ∨ (step s .next = s ∧ ∀ i, s.merge ≠ .send i) := by
  have hpc := hg.pc
  simp only [step]
  split
  · rename_i i hm
    rw [hm] at hpc
    simp only [] at hpc
    rw [List.getElem?_eq_getElem hpc]
    left
    simp [work, hm]
  · rename_i h
    exact .inr ⟨rfl, h⟩

theorem work_turn (s : State) (k : Nat) :
    work (step s (.turn k)) ≤ work s ∧ (step s (.turn k)).merge = s.merge ∧ (step s (.turn k)).pipes = s.pipes ∧
    ∀ j x, s.srcs[j]? = some x → ∃ y, (step s (.turn k)).srcs[j]? = some y ∧ (Calm x ∨ k = j → Calm y) := by
  simp only [step]
  split
  · rename_i x hx
    have h2 := sum_set s.srcs k x (x.turn s.cancelled) hx
    have h3 := left_turn s.cancelled x
    refine ⟨?_, rfl, rfl, fun j z hz => ?_⟩
    · simp only [work, List.length_set]
      omega
    · by_cases hj : k = j
      · subst hj
        exact ⟨x.turn s.cancelled, by simp only []; rw [List.getElem?_set_self', hx]; rfl, fun _ => calm_turn _ _⟩
      · refine ⟨z, by simp only []; rw [List.getElem?_set_ne hj]; exact hz, fun h => ?_⟩
        rcases h with h | h
        · exact h
        · exact absurd h hj
  · rename_i hn
    refine ⟨Nat.le_refl _, rfl, rfl, fun j z hz => ⟨z, hz, fun h => ?_⟩⟩
    rcases h with h | rfl
    · exact h
    · rw [hn] at hz; cases hz

/-- Actions make the work less, or nothing but turns happened. -/
theorem work_run (acts : List Act) : ∀ (s : State), Good s →
    work (run s acts) < work s ∨
    (work (run s acts) ≤ work s ∧ (run s acts).merge = s.merge ∧ (run s acts).pipes = s.pipes ∧
      (∀ j x, s.srcs[j]? = some x → ∃ y, (run s acts).srcs[j]? = some y ∧ (Calm x ∨ .turn j ∈ acts → Calm y)) ∧
      ((∃ i, s.merge = .send i) → .next ∉ acts) ∧
      (∀ k x, awaited s = some k → s.srcs[k]? = some x → Calm x → .pull ∉ acts)) := by
  induction acts with
  | nil =>
    intro s _
    exact .inr ⟨Nat.le_refl _, rfl, rfl, fun j x hx => ⟨x, hx, by simp⟩, by simp, by simp⟩
  | cons a acts ih =>
    intro s hg
    have hstep : work (step s a) < work s ∨
        (work (step s a) ≤ work s ∧ (step s a).merge = s.merge ∧ (step s a).pipes = s.pipes ∧
          (∀ j x, s.srcs[j]? = some x → ∃ y, (step s a).srcs[j]? = some y ∧ (Calm x ∨ a = .turn j → Calm y)) ∧
          ((∃ i, s.merge = .send i) → a ≠ .next) ∧
          (∀ k x, awaited s = some k → s.srcs[k]? = some x → Calm x → a ≠ .pull)) := by
      cases a with
      | cancel =>
        exact .inr ⟨Nat.le_refl _, rfl, rfl, fun j x hx => ⟨x, hx, by simp⟩, by simp, by simp⟩
      | turn k =>
        obtain ⟨h1, h2, h3, h4⟩ := work_turn s k
        exact .inr ⟨h1, h2, h3, fun j x hx => by simpa using h4 j x hx, by simp, by simp⟩
      | pull =>
        rcases work_pull s hg with h | ⟨h1, h2⟩
        · exact .inl h
        · rw [h1]
          exact .inr ⟨Nat.le_refl _, rfl, rfl, fun j x hx => ⟨x, hx, by simp⟩, by simp,
            fun k x hk hx hc => absurd hc (h2 k x hk hx)⟩
      | next =>
        rcases work_next s hg with h | ⟨h1, h2⟩
        · exact .inl h
        · rw [h1]
          exact .inr ⟨Nat.le_refl _, rfl, rfl, fun j x hx => ⟨x, hx, by simp⟩, fun ⟨i, hi⟩ => absurd hi (h2 i), by simp⟩
    have hrun : run s (a :: acts) = run (step s a) acts := rfl
    rw [hrun]
    rcases hstep with h | ⟨h1, h2, h3, h4, h5, h6⟩
    · left
      rcases ih _ (good_step s a hg) with h' | ⟨h', _⟩ <;> omega
    · rcases ih _ (good_step s a hg) with h' | ⟨g1, g2, g3, g4, g5, g6⟩
      · exact .inl (by omega)
      · refine .inr ⟨by omega, g2.trans h2, g3.trans h3, ?_, ?_, ?_⟩
        · intro j x hx
          obtain ⟨y, hy, hcy⟩ := h4 j x hx
          obtain ⟨z, hz, hcz⟩ := g4 j y hy
          refine ⟨z, hz, fun h => ?_⟩
          rcases h with h | h
          · exact hcz (.inl (hcy (.inl h)))
          · rcases List.mem_cons.1 h with h | h
            · exact hcz (.inl (hcy (.inr h.symm)))
            · exact hcz (.inr h)
        · intro hs hmem
          rcases List.mem_cons.1 hmem with h | h
          · exact h5 hs h.symm
          · exact g5 (by rw [h2]; exact hs) h
        · intro k x hk hx hc hmem
          rcases List.mem_cons.1 hmem with h | h
          · exact h6 k x hk hx hc h.symm
          · obtain ⟨y, hy, hcy⟩ := h4 k x hx
            exact g6 k y (by rw [awaited, h2, h3]; exact hk) hy (hcy (.inl hc)) h

theorem over_run (acts : List Act) : ∀ s : State, s.merge = .over → (run s acts).merge = .over := by
  induction acts with
  | nil => intro s h; exact h
  | cons a acts ih =>
    intro s h
    apply ih (step s a)
    cases a with
    | cancel => exact h
    | turn k => exact (work_turn s k).2.1.trans h
    | pull => simp only [step, h]
    | next => simp only [step, h]

/-- A round makes the work less, or the merging goroutine has returned. -/
theorem work_fair (s : State) (hg : Good s) (r : List Act) (hr : Fair s.srcs.length r) :
    work (run s r) < work s ∨ s.merge = .over := by
  obtain ⟨a, b, rfl, ha, hp, hn⟩ := hr
  rw [run_append]
  have hgb := good_run a s hg
  rcases work_run a s hg with h1 | ⟨h1, h2, h3, h4, _, _⟩
  · rcases work_run b _ hgb with h' | ⟨h', _⟩ <;> exact .inl (by omega)
  · rcases work_run b _ hgb with h' | ⟨_, _, _, _, g5, g6⟩
    · exact .inl (by omega)
    · right
      have hpc := hg.pc
      cases hm : s.merge with
      | over => rfl
      | send i => exact absurd hn (g5 ⟨i, h2.trans hm⟩)
      | fill k =>
        exfalso
        rw [hm] at hpc
        simp only [] at hpc
        obtain ⟨y, hy, hcy⟩ := h4 k _ (List.getElem?_eq_getElem hpc)
        exact g6 k y (by simp only [awaited, h2, hm]) hy (hcy (.inr (ha k hpc))) hp
      | read i =>
        exfalso
        rw [hm] at hpc
        simp only [] at hpc
        have hq := hg.pipes _ (List.getElem_mem hpc)
        obtain ⟨y, hy, hcy⟩ := h4 _ _ (List.getElem?_eq_getElem hq)
        exact g6 _ y (by simp only [awaited, h2, hm, h3, List.getElem?_eq_getElem hpc, Option.map_some]) hy (hcy (.inr (ha _ hq))) hp

theorem work_rounds (rounds : List (List Act)) : ∀ (s : State), Good s → (∀ r ∈ rounds, Fair s.srcs.length r) →
    (run s rounds.flatten).merge = .over ∨ work (run s rounds.flatten) + rounds.length ≤ work s := by
  induction rounds with
  | nil => intro s _ _; exact .inr (Nat.le_refl _)
  | cons r rounds ih =>
    intro s hg hr
    rw [List.flatten_cons, run_append]
    rcases work_fair s hg r (hr r (by simp)) with h | h
    · rcases ih (run s r) (good_run r s hg) (fun q hq => by rw [run_srcs_length]; exact hr q (by simp [hq])) with h' | h'
      · exact .inl h'
      · exact .inr (by simp only [List.length_cons]; omega)
    · exact .inl (over_run _ _ (over_run r s h))

theorem work_init (srcs : List (List Nat × Bool)) : work (init srcs) = 3 * total srcs + 2 * srcs.length + 2 := by
  have : ((init srcs).srcs.map Src.left) = srcs.map (·.1.length) := by simp [init, Src.left]
  simp only [work, this, total]
  simp [init]
  omega

end RangeDB.Left

namespace RangeDB.Left

/-! ## A read with one goroutine -/

/-- The records of the read are those that were handed over and the rest, which is lost only by a cancel. -/
structure OneInv (l : List Nat) (s : One) (rest : List Nat) : Prop where
  all : l = s.out ++ rest
  todo : ∀ t f, s.src = .at t f → rest = t
  done : s.cancelled = false → (∀ t f, s.src ≠ .at t f) → rest = []

theorem oneInv_step (l : List Nat) (s : One) (rest : List Nat) (a : Act) (h : OneInv l s rest) : ∃ rest', OneInv l (s.step a) rest' := by
  obtain ⟨src, c, out⟩ := s
  obtain ⟨h1, h2, h3⟩ := h
  simp only at h1 h2 h3
  cases a with
  | cancel => exact ⟨rest, h1, h2, fun hc => by simp [One.step] at hc⟩
  | pull => exact ⟨rest, h1, h2, h3⟩
  | turn k =>
    refine ⟨rest, h1, fun t f e => h2 t f ?_, fun hc hne => ?_⟩
    · simp only [One.step] at e
      rcases src with ⟨_ | ⟨r, rs⟩, _ | _⟩ | _ | _ | _ <;> simp only [Src.turn] at e <;> try (cases e)
      all_goals (split at e <;> first | exact e | cases e)
    · have hc' : c = false := hc
      subst hc'
      rcases src with ⟨_ | ⟨r, rs⟩, f⟩ | _ | _ | _
      · exact h2 [] _ rfl
      · refine absurd ?_ (hne (r :: rs) f)
        simp [One.step, Src.turn]
      all_goals exact h3 rfl (by simp)
  | next =>
    rcases src with ⟨_ | ⟨r, rs⟩, f⟩ | _ | _ | _
    · exact ⟨rest, h1, h2, h3⟩
    · refine ⟨rs, ?_, fun t g e => ?_, fun _ hne => absurd rfl (hne rs f)⟩
      · simp only [One.step, Src.give, List.append_assoc, List.cons_append, List.nil_append]
        rw [← h2 _ _ rfl]
        exact h1
      · simp only [One.step, Src.give] at e
        cases e
        rfl
    all_goals exact ⟨rest, h1, fun t f e => by simp [One.step, Src.give] at e, fun hc _ => h3 hc (by simp)⟩

theorem oneInv_run (l : List Nat) (acts : List Act) : ∀ (s : One) (rest : List Nat), OneInv l s rest → ∃ rest', OneInv l (s.run acts) rest' := by
  induction acts with
  | nil => intro s rest h; exact ⟨rest, h⟩
  | cons a acts ih =>
    intro s rest h
    obtain ⟨rest', h'⟩ := oneInv_step l s rest a h
    exact ih _ _ h'

theorem one_cancelled (acts : List Act) : ∀ s : One, s.cancelled = false → .cancel ∉ acts → (s.run acts).cancelled = false := by
  induction acts with
  | nil => intro s h _; exact h
  | cons a acts ih =>
    intro s h hn
    simp only [List.mem_cons, not_or] at hn
    apply ih (s.step a) _ hn.2
    cases a with
    | cancel => exact absurd rfl hn.1
    | turn k => exact h
    | pull => exact h
    | next => simp only [One.step]; split <;> exact h

end RangeDB.Left

import Verif.Model.Merge

/-! # Lemmas about the ordered merge -/

namespace RangeDB

/-- All records that pipes still hold. -/
def held (pipes : List Pipe) : List Record := pipes.flatMap (fun p => p.cur :: p.rest)

theorem follow_none {pos : Nat} {cur : Record} {rest e : List Record}
    (h : follow pos cur rest = (e, none)) : e = cur :: rest := by
  induction rest generalizing pos cur e with
  | nil => simp only [follow] at h; split at h <;> simp_all
  | cons r rs ih =>
    simp only [follow] at h
    split at h
    · simp only [Prod.mk.injEq] at h
      rw [← h.1, ih (e := (follow cur.gsn r rs).1) (by rw [← h.2])]
    · simp at h

theorem follow_some {pos : Nat} {cur : Record} {rest e : List Record} {p : Pipe}
    (h : follow pos cur rest = (e, some p)) : e ++ p.cur :: p.rest = cur :: rest := by
  induction rest generalizing pos cur e with
  | nil => simp only [follow] at h; split at h <;> simp_all; rw [← h.2]; simp
  | cons r rs ih =>
    simp only [follow] at h
    split at h
    · simp only [Prod.mk.injEq] at h
      rw [← h.1, List.cons_append, ih (e := (follow cur.gsn r rs).1) (by rw [← h.2])]
    · simp only [Prod.mk.injEq, Option.some.injEq] at h; rw [← h.1, ← h.2]; simp

theorem follow_range (pos : Nat) (cur : Record) (rest : List Record) :
    (follow pos cur rest).1.map (·.gsn) = List.range' (pos + 1) (follow pos cur rest).1.length := by
  induction rest generalizing pos cur with
  | nil => simp only [follow]; split <;> simp_all
  | cons r rs ih =>
    simp only [follow]
    split
    · rename_i h
      have := ih cur.gsn r
      rw [List.map_cons, this, List.length_cons, List.range'_succ, h]
    · simp

theorem smallestIdx_spec : ∀ (ps pre : List Pipe) (best min : Nat),
    (∃ p, (pre ++ ps)[best]? = some p ∧ p.cur.gsn = min) → (∀ q ∈ pre, min ≤ q.cur.gsn) →
    ∃ p, (pre ++ ps)[smallestIdx best min pre.length ps]? = some p ∧
      ∀ q ∈ pre ++ ps, p.cur.gsn ≤ q.cur.gsn := by
  intro ps
  induction ps with
  | nil =>
    intro pre best min h1 h2
    obtain ⟨p, h3, h4⟩ := h1
    exact ⟨p, by simpa [smallestIdx] using h3, by simpa [h4] using h2⟩
  | cons x xs ih =>
    intro pre best min h1 h2
    have key := ih (pre ++ [x])
    simp only [List.append_assoc, List.cons_append, List.nil_append, List.length_append,
      List.length_cons, List.length_nil, Nat.zero_add] at key
    simp only [smallestIdx]
    split
    · rename_i hlt
      apply key
      · exact ⟨x, by simp, rfl⟩
      · intro q hq
        simp only [List.mem_append, List.mem_singleton] at hq
        rcases hq with hq | rfl
        · have := h2 q hq; omega
        · exact Nat.le_refl _
    · rename_i hge
      apply key _ _ h1
      intro q hq
      simp only [List.mem_append, List.mem_singleton] at hq
      rcases hq with hq | rfl
      · exact h2 q hq
      · omega

theorem removePipe_perm (a b : List Pipe) (p : Pipe) :
    (removePipe (a ++ p :: b) a.length).Perm (a ++ b) := by
  rcases List.eq_nil_or_concat b with rfl | ⟨b', l, rfl⟩
  · simp [removePipe]
  · rw [List.concat_eq_append]
    have h1 : (a ++ p :: (b' ++ [l])).getLast? = some l := by
      rw [show a ++ p :: (b' ++ [l]) = (a ++ p :: b') ++ [l] by simp, List.getLast?_concat]
    simp only [removePipe, h1]
    have h2 : (a ++ p :: (b' ++ [l])).set a.length l = (a ++ l :: b') ++ [l] := by
      simp
    rw [h2, List.dropLast_concat]
    apply List.Perm.append_left
    exact (List.perm_append_singleton l b').symm

theorem held_perm {a b : List Pipe} (h : a.Perm b) : (held a).Perm (held b) :=
  List.Perm.flatMap_right _ h

theorem split_at {pipes : List Pipe} {i : Nat} {p : Pipe} (h : pipes[i]? = some p) :
    ∃ a b, pipes = a ++ p :: b ∧ a.length = i := by
  rw [List.getElem?_eq_some_iff] at h
  obtain ⟨hi, hp⟩ := h
  refine ⟨pipes.take i, pipes.drop (i + 1), ?_, by simp; omega⟩
  rw [← hp, ← List.drop_eq_getElem_cons hi, List.take_append_drop]

/-- One round of the merge loop. -/
theorem mergeLoop_step (pipes : List Pipe) (hne : pipes ≠ []) :
    ∃ (p : Pipe) (e : List Record) (pipes' : List Pipe),
      (∀ fuel, mergeLoop (fuel + 1) pipes = (p.cur :: e) ++ mergeLoop fuel pipes') ∧
      (∀ q ∈ pipes, p.cur.gsn ≤ q.cur.gsn) ∧
      (held pipes).Perm ((p.cur :: e) ++ held pipes') ∧
      (∀ q' ∈ pipes', ∃ q ∈ pipes, (q'.cur :: q'.rest) <:+ (q.cur :: q.rest)) ∧
      (p.cur :: e).map (·.gsn) = List.range' p.cur.gsn (e.length + 1) := by
  cases pipes with
  | nil => exact absurd rfl hne
  | cons p0 ps =>
    obtain ⟨p, hp, hmin⟩ := smallestIdx_spec (p0 :: ps) [] 0 p0.cur.gsn
      ⟨p0, by simp, rfl⟩ (by simp)
    simp only [List.nil_append, List.length_nil] at hp hmin
    obtain ⟨a, b, hab, hlen⟩ := split_at hp
    have hrem : (removePipe (p0 :: ps) (smallestIdx 0 p0.cur.gsn 0 (p0 :: ps))).Perm (a ++ b) := by
      rw [← hlen, hab] ; exact removePipe_perm a b p
    have hheld : (held (p0 :: ps)).Perm ((p.cur :: p.rest) ++ held (a ++ b)) := by
      rw [hab]
      refine (held_perm List.perm_middle).trans ?_
      simp [held]
    have hsub : ∀ q' ∈ removePipe (p0 :: ps) (smallestIdx 0 p0.cur.gsn 0 (p0 :: ps)),
        ∃ q ∈ p0 :: ps, (q'.cur :: q'.rest) <:+ (q.cur :: q.rest) := by
      intro q' hq'
      have := hrem.mem_iff.mp hq'
      refine ⟨q', ?_, List.suffix_refl _⟩
      rw [hab]
      simp only [List.mem_append, List.mem_cons] at this ⊢
      rcases this with h | h
      · exact Or.inl h
      · exact Or.inr (Or.inr h)
    cases hr : p.rest with
    | nil =>
      refine ⟨p, [], _, fun _ => by simp only [mergeLoop, hp, hr]; rfl, hmin, ?_, hsub, by simp⟩
      rw [hr] at hheld
      exact hheld.trans (List.Perm.append_left _ (held_perm hrem).symm)
    | cons r rs =>
      have hrange := follow_range p.cur.gsn r rs
      cases hf : follow p.cur.gsn r rs with
      | mk e o =>
        rw [hf] at hrange
        have hrange' : (p.cur :: e).map (·.gsn) = List.range' p.cur.gsn (e.length + 1) := by
          simp only [List.map_cons, List.range'_succ]
          rw [show List.map (fun x => x.gsn) e = _ from hrange]
        cases o with
        | none =>
          refine ⟨p, e, _, fun _ => by simp only [mergeLoop, hp, hr, hf]; rfl, hmin, ?_, hsub, hrange'⟩
          rw [hr, ← follow_none hf] at hheld
          exact hheld.trans (List.Perm.append_left _ (held_perm hrem).symm)
        | some p' =>
          have hs := follow_some hf
          refine ⟨p, e, _, fun _ => by simp only [mergeLoop, hp, hr, hf]; rfl, hmin, ?_, ?_, hrange'⟩
          · rw [hr, ← hs] at hheld
            refine hheld.trans ?_
            rw [← hlen, hab]
            simp only [List.cons_append, List.append_assoc]
            apply List.Perm.cons
            apply List.Perm.append_left
            rw [show (a ++ p :: b).set a.length p' = a ++ p' :: b by simp]
            refine List.Perm.trans ?_ (held_perm List.perm_middle).symm
            simp [held]
          · intro q' hq'
            rw [← hlen, hab, show (a ++ p :: b).set a.length p' = a ++ p' :: b by
              simp] at hq'
            simp only [List.mem_append, List.mem_cons] at hq'
            rw [hab]
            rcases hq' with h | rfl | h
            · exact ⟨q', by simp [h], List.suffix_refl _⟩
            · refine ⟨p, by simp, ?_⟩
              rw [hr, ← hs]
              exact (List.suffix_append _ _).trans (List.suffix_cons _ _)
            · exact ⟨q', by simp [h], List.suffix_refl _⟩

theorem mergeLoop_nil (fuel : Nat) : mergeLoop fuel [] = [] := by cases fuel <;> rfl

theorem mergeLoop_perm : ∀ (fuel : Nat) (pipes : List Pipe), (held pipes).length ≤ fuel →
    (mergeLoop fuel pipes).Perm (held pipes) := by
  intro fuel
  induction fuel with
  | zero =>
    intro pipes h
    have : held pipes = [] := List.length_eq_zero_iff.mp (by omega)
    simp [mergeLoop, this]
  | succ n ih =>
    intro pipes h
    by_cases hne : pipes = []
    · subst hne; simp [mergeLoop, held]
    · obtain ⟨p, e, pipes', h1, _, h3, _, _⟩ := mergeLoop_step pipes hne
      rw [h1]
      have hl := h3.length_eq
      simp only [List.length_append, List.length_cons] at hl
      exact (List.Perm.append_left _ (ih pipes' (by omega))).trans h3.symm

theorem mergeLoop_sorted : ∀ (fuel : Nat) (pipes : List Pipe), (held pipes).length ≤ fuel →
    ((held pipes).map (·.gsn)).Nodup →
    (∀ p ∈ pipes, (p.cur :: p.rest).Pairwise (fun a b => a.gsn < b.gsn)) →
    (mergeLoop fuel pipes).Pairwise (fun a b => a.gsn < b.gsn) := by
  intro fuel
  induction fuel with
  | zero => intros; simp [mergeLoop]
  | succ n ih =>
    intro pipes h hnd hs
    by_cases hne : pipes = []
    · subst hne; simp [mergeLoop]
    · obtain ⟨p, e, pipes', h1, h2, h3, h4, h5⟩ := mergeLoop_step pipes hne
      have hl := h3.length_eq
      simp only [List.length_append, List.length_cons] at hl
      have hnd' : (((p.cur :: e) ++ held pipes').map (·.gsn)).Nodup :=
        ((h3.map _).nodup_iff).mp hnd
      rw [List.map_append, List.nodup_append] at hnd'
      have hs' : ∀ q' ∈ pipes', (q'.cur :: q'.rest).Pairwise (fun a b => a.gsn < b.gsn) := by
        intro q' hq'
        obtain ⟨q, hq, hsuf⟩ := h4 q' hq'
        exact (hs q hq).sublist hsuf.sublist
      rw [h1, List.pairwise_append]
      refine ⟨?_, ih pipes' (by omega) hnd'.2.1 hs', ?_⟩
      · rw [← List.pairwise_map (f := fun r : Record => r.gsn) (R := (· < ·)), h5]
        exact List.pairwise_lt_range'
      · intro x hx y hy
        have hy' := (mergeLoop_perm n pipes' (by omega)).mem_iff.mp hy
        have hyge : p.cur.gsn ≤ y.gsn := by
          simp only [held, List.mem_flatMap] at hy'
          obtain ⟨q', hq', hyq⟩ := hy'
          obtain ⟨q, hq, hsuf⟩ := h4 q' hq'
          have hyq2 := hsuf.subset hyq
          have hmin := h2 q hq
          have hsq := hs q hq
          rw [List.pairwise_cons] at hsq
          rcases List.mem_cons.mp hyq2 with rfl | hyr
          · exact hmin
          · have := hsq.1 y hyr; omega
        have hyn : y.gsn ∉ (p.cur :: e).map (·.gsn) := by
          intro hc
          exact hnd'.2.2 _ hc _ (List.mem_map_of_mem hy') rfl
        rw [h5, List.mem_range'_1] at hyn
        have hxr : x.gsn ∈ (p.cur :: e).map (·.gsn) := List.mem_map_of_mem hx
        rw [h5, List.mem_range'_1] at hxr
        omega

/-- More fuel than records changes nothing: the loop has ended. -/
theorem mergeLoop_fuel : ∀ (fuel : Nat) (pipes : List Pipe), (held pipes).length ≤ fuel →
    mergeLoop (fuel + 1) pipes = mergeLoop fuel pipes := by
  intro fuel
  induction fuel with
  | zero =>
    intro pipes h
    cases pipes with
    | nil => rfl
    | cons p ps => simp [held] at h
  | succ n ih =>
    intro pipes h
    by_cases hne : pipes = []
    · subst hne; rfl
    · obtain ⟨p, e, pipes', h1, _, h3, _, _⟩ := mergeLoop_step pipes hne
      have hl := h3.length_eq
      simp only [List.length_append, List.length_cons] at hl
      rw [h1, h1, ih pipes' (by omega)]

theorem held_filterMap_read (its : List Iter) :
    held (its.filterMap (fun it => Pipe.read it.recs)) = its.flatMap (·.recs) := by
  induction its with
  | nil => rfl
  | cons it its ih =>
    have h0 : Pipe.read [] = none := rfl
    have h1 : ∀ r rs, Pipe.read (r :: rs) = some ⟨r, rs⟩ := fun _ _ => rfl
    have hc : ∀ p ps, held (p :: ps) = (p.cur :: p.rest) ++ held ps := by
      intro p ps; simp [held]
    cases h : it.recs with
    | nil => simp [h, h0, ih]
    | cons r rs => simp [h, h1, hc, ih]

theorem flatMap_length (its : List Iter) :
    (its.flatMap (·.recs)).length = (its.map (fun it => it.recs.length)).sum := by
  simp [List.length_flatMap]

/-- The merge yields every record of every input exactly as often as the inputs do. -/
theorem mergeIters_perm (its : List Iter) :
    (mergeIters its).recs.Perm (its.flatMap (·.recs)) := by
  have := mergeLoop_perm (its.map (fun it => it.recs.length)).sum
    (its.filterMap (fun it => Pipe.read it.recs)) (by rw [held_filterMap_read, flatMap_length]; exact Nat.le_refl _)
  rw [held_filterMap_read] at this
  exact this

theorem mergeIters_sorted (its : List Iter)
    (hs : ∀ it ∈ its, it.recs.Pairwise (fun a b => a.gsn < b.gsn))
    (hd : ((its.flatMap (·.recs)).map (·.gsn)).Nodup) :
    (mergeIters its).recs.Pairwise (fun a b => a.gsn < b.gsn) := by
  apply mergeLoop_sorted
  · rw [held_filterMap_read, flatMap_length]; exact Nat.le_refl _
  · rw [held_filterMap_read]; exact hd
  · intro p hp
    rw [List.mem_filterMap] at hp
    obtain ⟨it, hit, hr⟩ := hp
    cases h : it.recs with
    | nil => simp [Pipe.read, h] at hr
    | cons r rs =>
      simp only [Pipe.read, h, Option.some.injEq] at hr
      subst hr
      have := hs it hit
      rw [h] at this; exact this

/-- Two lists sorted strictly by global number with the same elements are equal. -/
theorem sorted_perm_eq {a b : List Record} (ha : a.Pairwise (fun x y => x.gsn < y.gsn))
    (hb : b.Pairwise (fun x y => x.gsn < y.gsn)) (h : a.Perm b) : a = b := by
  refine List.Perm.eq_of_pairwise (le := fun x y => x.gsn < y.gsn) ?_ ha hb h
  intro x y _ _ h1 h2
  omega

end RangeDB

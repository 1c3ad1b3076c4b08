import Verif.Spec.Resume
import Verif.Thm.ReadOrder

/-! # Lemmas for `Thm/Resume.lean` -/

namespace RangeDB.Left

theorem mem_recs {srcs : List (List Nat × Bool)} {x : Nat} : x ∈ recs srcs ↔ ∃ p ∈ srcs, x ∈ p.1 := by
  simp [recs, List.mem_flatMap]

theorem mem_cut {n x : Nat} {srcs : List (List Nat × Bool)} : x ∈ recs (cut n srcs) ↔ x ∈ recs srcs ∧ n ≤ x := by
  simp only [mem_recs, cut, List.mem_map]
  constructor
  · rintro ⟨_, ⟨p, hp, rfl⟩, hx⟩
    simp only [List.mem_filter, decide_eq_true_eq] at hx
    exact ⟨⟨p, hp, hx.1⟩, hx.2⟩
  · rintro ⟨⟨p, hp, hx⟩, hn⟩
    exact ⟨_, ⟨p, hp, rfl⟩, by simp [hx, hn]⟩

theorem sorted_cut {n : Nat} {srcs : List (List Nat × Bool)} (h : Sorted srcs) : Sorted (cut n srcs) := by
  constructor
  · intro p hp
    obtain ⟨q, hq, rfl⟩ := List.mem_map.1 hp
    exact (h.1 q hq).filter _
  · have e : (cut n srcs).map (·.1) = (srcs.map (·.1)).map (fun l => l.filter (fun x => decide (n ≤ x))) := by
      simp [cut]
    rw [e, List.pairwise_map]
    refine h.2.imp ?_
    intro a b hab x hx hxb
    exact hab x (List.mem_filter.1 hx).1 (List.mem_filter.1 hxb).1

/-- What a read hands over is in order, of the store, and without a gap, if it has one goroutine or is not cancelled. -/
theorem handed_good (srcs : List (List Nat × Bool)) (h : Sorted srcs) (acts : List Act) (hc : srcs.length = 1 ∨ .cancel ∉ acts) :
    (handed srcs acts).Pairwise (· < ·) ∧ (∀ x ∈ handed srcs acts, x ∈ recs srcs) ∧
    (∀ x ∈ recs srcs, ∀ y ∈ handed srcs acts, x < y → x ∈ handed srcs acts) := by
  unfold handed
  split
  · rename_i p
    obtain ⟨⟨rest, hr⟩, _⟩ := C169_one p.1 p.2 acts
    have hs := h.1 p (by simp)
    rw [← hr, List.pairwise_append] at hs
    refine ⟨hs.1, fun x hx => ?_, fun x hx y hy hxy => ?_⟩
    · simp only [recs, List.flatMap_cons, List.flatMap_nil, List.append_nil]
      rw [← hr]
      exact List.mem_append_left _ hx
    · simp only [recs, List.flatMap_cons, List.flatMap_nil, List.append_nil] at hx
      rw [← hr] at hx
      rcases List.mem_append.1 hx with hx | hx
      · exact hx
      · have := hs.2.2 y hy x hx
        omega
  · rename_i hne
    have hcn : .cancel ∉ acts := by
      rcases hc with hc | hc
      · obtain ⟨p, rfl⟩ := List.length_eq_one_iff.1 hc
        exact absurd rfl (hne p)
      · exact hc
    obtain ⟨h1, h2, _⟩ := C169_order srcs h acts
    refine ⟨h1, fun x hx => mem_recs.2 (h2 x hx), fun x hx y hy hxy => ?_⟩
    obtain ⟨p, hp, hxp⟩ := mem_recs.1 hx
    exact C169_no_gap_partial srcs h acts hcn p hp x hxp y hy hxy

theorem handed_all (srcs : List (List Nat × Bool)) (h : Sorted srcs) (acts : List Act) (hc : .cancel ∉ acts)
    (hf : Finished srcs acts) : ∀ x ∈ recs srcs, x ∈ handed srcs acts := by
  unfold handed
  unfold Finished at hf
  split
  · rename_i p
    simp only at hf
    rw [(C169_one p.1 p.2 acts).2 hc hf]
    simp [recs]
  · rename_i hne
    have hf' : (run (init srcs) acts).merge = .over := by
      split at hf
      · rename_i p; exact absurd rfl (hne p)
      · exact hf
    intro x hx
    obtain ⟨p, hp, hxp⟩ := mem_recs.1 hx
    exact C169_complete srcs h acts hc hf' p hp x hxp

/-- What a consumer has is a beginning of the store. -/
structure Beginning (got : List Nat) (store : List Nat) : Prop where
  inc : got.Pairwise (· < ·)
  sub : ∀ x ∈ got, x ∈ store
  gap : ∀ x ∈ store, ∀ y ∈ got, x < y → x ∈ got

theorem le_last {got : List Nat} (h : got.Pairwise (· < ·)) {l : Nat} (hl : got.getLast? = some l) : l ∈ got ∧ ∀ x ∈ got, x ≤ l := by
  obtain ⟨ys, rfl⟩ := List.getLast?_eq_some_iff.1 hl
  rw [List.pairwise_append] at h
  refine ⟨by simp, fun x hx => ?_⟩
  rcases List.mem_append.1 hx with hx | hx
  · exact Nat.le_of_lt (h.2.2 x hx l (by simp))
  · simp only [List.mem_singleton] at hx; omega

theorem lt_start {got : List Nat} (h : got.Pairwise (· < ·)) : ∀ x ∈ got, x < startOf got := by
  intro x hx
  unfold startOf
  cases hl : got.getLast? with
  | none => rw [List.getLast?_eq_none_iff.1 hl] at hx; simp at hx
  | some l => have := (le_last h hl).2 x hx; simp only; omega

/-- What is before the start of the next read, the consumer has. -/
theorem before_start {got store : List Nat} (h : Beginning got store) : ∀ x ∈ store, x < startOf got → x ∈ got := by
  intro x hx hlt
  unfold startOf at hlt
  cases hl : got.getLast? with
  | none => rw [hl] at hlt; simp at hlt
  | some l =>
    rw [hl] at hlt
    simp only at hlt
    have hm := (le_last h.inc hl).1
    rcases Nat.lt_or_ge x l with h1 | h1
    · exact h.gap x hx l hm h1
    · have : x = l := by omega
      rw [this]; exact hm

theorem beginning_grows {got : List Nat} {a b : List (List Nat × Bool)} (h : Beginning got (recs a)) (hg : Grows a b) :
    Beginning got (recs b) where
  inc := h.inc
  sub := fun x hx => hg.1 x (h.sub x hx)
  gap := by
    intro x hx y hy hxy
    rcases hg.2 x hx with h1 | h1
    · exact h.gap x h1 y hy hxy
    · have := h1 y (h.sub y hy)
      omega

/-- One more attempt. -/
theorem beginning_attempt {got : List Nat} {srcs : List (List Nat × Bool)} (h : Beginning got (recs srcs)) (hs : Sorted srcs)
    (acts : List Act) (hc : srcs.length = 1 ∨ .cancel ∉ acts) :
    Beginning (got ++ handed (cut (startOf got) srcs) acts) (recs srcs) := by
  obtain ⟨h1, h2, h3⟩ := handed_good (cut (startOf got) srcs) (sorted_cut hs) acts (by simpa [cut] using hc)
  refine ⟨?_, ?_, ?_⟩
  · rw [List.pairwise_append]
    refine ⟨h.inc, h1, fun x hx y hy => ?_⟩
    have := lt_start h.inc x hx
    have := (mem_cut.1 (h2 y hy)).2
    omega
  · intro x hx
    rcases List.mem_append.1 hx with hx | hx
    · exact h.sub x hx
    · exact (mem_cut.1 (h2 x hx)).1
  · intro x hx y hy hxy
    rw [List.mem_append]
    rcases Nat.lt_or_ge x (startOf got) with hlt | hge
    · exact .inl (before_start h x hx hlt)
    · rcases List.mem_append.1 hy with hy | hy
      · have := lt_start h.inc y hy
        omega
      · exact .inr (h3 x (mem_cut.2 ⟨hx, hge⟩) y hy hxy)

theorem resume_append (as bs : List Attempt) : ∀ got, resume got (as ++ bs) = resume (resume got as) bs := by
  induction as with
  | nil => intro got; rfl
  | cons a as ih => intro got; exact ih _

/-- After all attempts, and for the store as it is then or later. -/
theorem beginning_resume (as : List Attempt) (b : List (List Nat × Bool)) : ∀ (got : List Nat),
    (∀ a ∈ as, Sorted a.srcs) → (as.Pairwise (fun a b => Grows a.srcs b.srcs)) → (∀ a ∈ as, Grows a.srcs b) →
    (∀ a ∈ as, a.srcs.length = 1 ∨ .cancel ∉ a.acts) → (∀ a ∈ as, Beginning got (recs a.srcs)) → Beginning got (recs b) →
    Beginning (resume got as) (recs b) := by
  induction as with
  | nil => intro got _ _ _ _ _ h; exact h
  | cons a as ih =>
    intro got hs hp hb hc h1 _
    rw [List.pairwise_cons] at hp
    have hnew := beginning_attempt (h1 a (by simp)) (hs a (by simp)) a.acts (hc a (by simp))
    refine ih _ (fun c hc => hs c (by simp [hc])) hp.2 (fun c hc => hb c (by simp [hc])) (fun d hd => hc d (by simp [hd])) ?_ ?_
    · intro c hc
      exact beginning_grows hnew (hp.1 c hc)
    · exact beginning_grows hnew (hb a (by simp))

theorem beginning_nil (l : List Nat) : Beginning [] l := ⟨by simp, by simp, by simp⟩

end RangeDB.Left

namespace RangeDB.Left

/-- A beginning of a list in order is a prefix of it. -/
theorem beginning_prefix : ∀ (m got : List Nat), m.Pairwise (· < ·) → Beginning got m → got <+: m := by
  intro m
  induction m with
  | nil =>
    intro got _ h
    cases got with
    | nil => exact List.prefix_refl _
    | cons b g => have := h.sub b (by simp); simp at this
  | cons a m ih =>
    intro got hm h
    cases got with
    | nil => exact List.nil_prefix
    | cons b g =>
      obtain ⟨h1, h2, h3⟩ := h
      rw [List.pairwise_cons] at h1 hm
      have hab : a = b := by
        rcases List.mem_cons.1 (h2 b (by simp)) with e | hb
        · exact e.symm
        · have hlt := hm.1 b hb
          rcases List.mem_cons.1 (h3 a (by simp) b (by simp) hlt) with e | ha
          · exact e
          · have := h1.1 a ha
            omega
      subst hab
      rw [List.cons_prefix_cons]
      refine ⟨rfl, ih g hm.2 ⟨h1.2, fun x hx => ?_, fun x hx y hy hxy => ?_⟩⟩
      · rcases List.mem_cons.1 (h2 x (by simp [hx])) with e | h
        · have := h1.1 x hx
          omega
        · exact h
      · rcases List.mem_cons.1 (h3 x (by simp [hx]) y (by simp [hy]) hxy) with e | h
        · have := hm.1 x hx
          omega
        · exact h

end RangeDB.Left

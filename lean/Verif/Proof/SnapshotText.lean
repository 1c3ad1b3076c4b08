import Verif.Thm.Projection

/-! # Lemmas for `Thm/SnapshotText.lean` -/

namespace RangeDB.Prj

/-- Entries in ascending order of their keys. -/
def Ascending (l : List (Str × Nat)) : Prop := l.Pairwise (fun a b => strLt a.1 b.1 = true)

theorem insertEntry_ascending (x : Str × Nat) (l : List (Str × Nat)) (h : Ascending l) (hx : x.1 ∉ l.map (·.1)) :
    Ascending (insertEntry x l) := by
  induction l with
  | nil => simp [insertEntry, Ascending]
  | cons y ys ih =>
    unfold Ascending at h
    rw [List.pairwise_cons] at h
    simp only [List.map_cons, List.mem_cons, not_or] at hx
    unfold insertEntry
    split
    · rename_i hlt
      refine List.pairwise_cons.2 ⟨?_, ih h.2 hx.2⟩
      intro t ht
      rcases List.mem_cons.1 ((insertEntry_perm x ys).mem_iff.1 ht) with rfl | ht
      · exact hlt
      · exact h.1 t ht
    · rename_i hnl
      have hlt : strLt x.1 y.1 = true := strLt_total (by simpa using hnl) (fun e => hx.1 e.symm)
      refine List.pairwise_cons.2 ⟨?_, List.pairwise_cons.2 h⟩
      intro t ht
      rcases List.mem_cons.1 ht with rfl | ht
      · exact hlt
      · exact strLt_trans hlt (h.1 t ht)

theorem sortEntries_ascending (l : List (Str × Nat)) (h : (l.map (·.1)).Nodup) : Ascending (l.foldr insertEntry []) := by
  induction l with
  | nil => simp [Ascending]
  | cons x xs ih =>
    simp only [List.map_cons, List.nodup_cons] at h
    refine insertEntry_ascending x _ (ih h.2) ?_
    rw [((sortEntries_perm xs).map (·.1)).mem_iff]
    exact h.1

theorem ascending_unique (a b : List (Str × Nat)) (ha : Ascending a) (hb : Ascending b) (h : ∀ x, x ∈ a ↔ x ∈ b) : a = b := by
  induction a generalizing b with
  | nil =>
    cases b with
    | nil => rfl
    | cons y ys => exact absurd ((h y).2 (by simp)) (by simp)
  | cons x xs ih =>
    cases b with
    | nil => exact absurd ((h x).1 (by simp)) (by simp)
    | cons y ys =>
      unfold Ascending at ha hb
      rw [List.pairwise_cons] at ha hb
      have no : ∀ {u v : Str}, strLt u v = true → strLt v u = true → False := by
        intro u v h1 h2
        have := strLt_trans h1 h2
        rw [strLt_irrefl] at this
        cases this
      have hxy : x = y := by
        rcases List.mem_cons.1 ((h x).1 (by simp)) with e | e
        · exact e
        · rcases List.mem_cons.1 ((h y).2 (by simp)) with e' | e'
          · exact e'.symm
          · exact (no (hb.1 x e) (ha.1 y e')).elim
      subst hxy
      congr 1
      refine ih ys ha.2 hb.2 (fun z => ⟨fun hz => ?_, fun hz => ?_⟩)
      · rcases List.mem_cons.1 ((h z).1 (by simp [hz])) with e | e
        · subst e; exact (no (ha.1 z hz) (ha.1 z hz)).elim
        · exact e
      · rcases List.mem_cons.1 ((h z).2 (by simp [hz])) with e | e
        · subst e; exact (no (hb.1 z hz) (hb.1 z hz)).elim
        · exact e

theorem mem_entries {m : List (Str × Nat)} {rs : List Record} (hnd : (m.map (·.1)).Nodup)
    (hv : ∀ t, valueAt m t = (rs.filter (fun r => r.aggType = t)).length) (hk : ∀ t, t ∈ m.map (·.1) ↔ ∃ r ∈ rs, r.aggType = t)
    (e : Str × Nat) : e ∈ m ↔ (∃ r ∈ rs, r.aggType = e.1) ∧ e.2 = (rs.filter (fun r => r.aggType = e.1)).length := by
  constructor
  · intro h
    exact ⟨(hk e.1).1 (List.mem_map_of_mem h), by rw [← hv, valueAt_mem hnd e.2 h]⟩
  · rintro ⟨h1, h2⟩
    obtain ⟨⟨t, n⟩, h3, h4⟩ := List.mem_map.1 ((hk e.1).2 h1)
    simp only at h4
    subst h4
    have := valueAt_mem hnd n h3
    rw [hv, ← h2] at this
    rw [show e = (e.1, n) from Prod.ext rfl this]
    exact h3

theorem encode_of_inv {s s' : Stats} {rs rs' : List Record} (h : Inv s rs) (h' : Inv s' rs')
    (hc : ∀ t, (rs.filter (fun r => r.aggType = t)).length = (rs'.filter (fun r => r.aggType = t)).length)
    (ht : rs.length = rs'.length) (hl : rs.getLast?.map (·.gsn) = rs'.getLast?.map (·.gsn)) : encode s = encode s' := by
  obtain ⟨⟨m, hm, hnd, hv, hk⟩, h1, h2⟩ := h
  obtain ⟨⟨m', hm', hnd', hv', hk'⟩, h1', h2'⟩ := h'
  have hex : ∀ t, (∃ r ∈ rs, r.aggType = t) ↔ ∃ r ∈ rs', r.aggType = t := by
    intro t
    have e : ∀ l : List Record, (∃ r ∈ l, r.aggType = t) ↔ 0 < (l.filter (fun r => r.aggType = t)).length := by
      intro l
      rw [List.length_pos_iff_exists_mem]
      simp
    rw [e, e, hc]
  have key : m.foldr insertEntry [] = m'.foldr insertEntry [] := by
    refine ascending_unique _ _ (sortEntries_ascending m hnd) (sortEntries_ascending m' hnd') (fun x => ?_)
    rw [(sortEntries_perm m).mem_iff, (sortEntries_perm m').mem_iff, mem_entries hnd hv hk, mem_entries hnd' hv' hk', hex, hc]
  unfold encode Stats.json
  rw [hm, hm', h1, h1', h2, h2', hl, ht]
  simp only [countsJson, key]

theorem inv_of_accept {rs : List Record} {s : Stats} (h : Stats.new.acceptAll rs = .ok s) : Inv s rs := by
  obtain ⟨s', e, hi⟩ := acceptAll_inv .new [] rs inv_new
  rw [h] at e
  obtain rfl := Outcome.ok.inj e
  simpa using hi

end RangeDB.Prj

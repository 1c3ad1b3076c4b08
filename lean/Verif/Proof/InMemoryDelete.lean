import Verif.Proof.InMemory

/-! # Simulation between the in-memory store and the abstract log: deletes -/

namespace RangeDB.IM

variable {z : Serializer}

theorem rangeRemove_skip (x : Nat) (arr : List Nat) (len : Nat) :
    ∀ (todo i : Nat), (∀ j, i ≤ j → j < i + todo → arr[j]? ≠ some x) →
      rangeRemove x todo i arr len = some (arr, len) := by
  intro todo
  induction todo with
  | zero => intros; rfl
  | succ n ih =>
    intro i h
    rw [rangeRemove, if_neg (h i (Nat.le_refl _) (by omega))]
    exact ih (i + 1) (fun j h1 h2 => h j (by omega) (by omega))

theorem rangeRemove_found (x : Nat) (a b : List Nat) (ha : x ∉ a) (hb : x ∉ b) :
    ∀ (k i : Nat), i + k = a.length →
      rangeRemove x (k + 1 + b.length) i (a ++ x :: b) (a.length + 1 + b.length)
        = some (a ++ (b ++ (x :: b).drop b.length), a.length + b.length) := by
  intro k
  induction k with
  | zero =>
    intro i hi
    have hi' : i = a.length := by omega
    subst hi'
    have h1 : (a ++ x :: b)[a.length]? = some x := by simp
    rw [show 0 + 1 + b.length = b.length + 1 by omega, rangeRemove, if_pos h1]
    have hrem : removeIndex (a ++ x :: b) (a.length + 1 + b.length) a.length
        = some (a ++ (b ++ (x :: b).drop b.length), a.length + b.length) := by
      unfold removeIndex
      rw [if_pos (by omega)]
      have e1 : (a ++ x :: b).take a.length = a := by simp
      have e2 : ((a ++ x :: b).take (a.length + 1 + b.length)).drop (a.length + 1) = b := by
        rw [List.take_of_length_le (by simp; omega)]
        rw [show a.length + 1 = a.length + 1 from rfl, ← List.drop_drop]
        simp
      have e3 : (a ++ x :: b).drop (a.length + 1 + b.length - 1) = (x :: b).drop b.length := by
        rw [show a.length + 1 + b.length - 1 = a.length + b.length by omega, ← List.drop_drop]
        simp
      rw [e1, e2, e3]
      congr 2
      omega
    rw [hrem]
    simp only
    apply rangeRemove_skip
    intro j hj1 hj2 hc
    have hjlt : j < a.length + 1 + b.length := by omega
    -- every later index holds an element of b
    have : x ∈ b := by
      rcases List.eq_nil_or_concat b with rfl | ⟨b', y, rfl⟩
      · simp at hj2; omega
      · have hlast : (x :: (b' ++ [y])).drop (b' ++ [y]).length = [y] := by
          rw [← List.cons_append, List.drop_append]; simp
        rw [List.concat_eq_append] at *
        rw [hlast] at hc
        have hmem : x ∈ (a ++ (b' ++ [y] ++ [y])).drop a.length := by
          rw [List.mem_iff_getElem?]
          refine ⟨j - a.length, ?_⟩
          rw [List.getElem?_drop, show a.length + (j - a.length) = j by omega]
          exact hc
        rw [List.drop_left] at hmem
        simp only [List.mem_append, List.mem_singleton] at hmem ⊢
        rcases hmem with (h | h) | h
        · exact Or.inl h
        · exact Or.inr h
        · exact Or.inr h
    exact hb this
  | succ k ih =>
    intro i hi
    rw [show k + 1 + 1 + b.length = (k + 1 + b.length) + 1 by omega, rangeRemove, if_neg]
    · exact ih (i + 1) (by omega)
    · rw [List.getElem?_append_left (by omega)]
      intro hc
      exact ha (List.mem_of_getElem? hc)

theorem removeAll_spec (x : Nat) (l : List Nat) (h : l.Nodup) :
    removeAll x l = some (l.filter (fun y => y ≠ x)) := by
  unfold removeAll
  by_cases hx : x ∈ l
  · obtain ⟨a, b, rfl⟩ := List.append_of_mem hx
    have hnd : x ∉ a ∧ x ∉ b := by
      rw [List.nodup_append] at h
      obtain ⟨_, h2, h3⟩ := h
      rw [List.nodup_cons] at h2
      exact ⟨fun ha => h3 x ha x (by simp) rfl, h2.1⟩
    have := rangeRemove_found x a b hnd.1 hnd.2 a.length 0 (by omega)
    have hl : (a ++ x :: b).length = a.length + 1 + b.length := by simp; omega
    rw [hl, this]
    simp only [Option.map_some, List.filter_append]
    congr 1
    have e1 : a.filter (fun y => y ≠ x) = a := by
      rw [List.filter_eq_self]; intro y hy
      simp only [decide_eq_true_eq]; rintro rfl; exact hnd.1 hy
    have e2 : b.filter (fun y => y ≠ x) = b := by
      rw [List.filter_eq_self]; intro y hy
      simp only [decide_eq_true_eq]; rintro rfl; exact hnd.2 hy
    rw [e1, List.filter_cons_of_neg (by simp), e2]
    rw [← List.append_assoc, List.take_append_of_le_length (by simp)]
    rw [List.take_of_length_le (by simp)]
  · rw [rangeRemove_skip]
    · simp only [Option.map_some, List.take_length]
      congr 1
      symm
      rw [List.filter_eq_self]
      intro y hy
      simp only [decide_eq_true_eq]; rintro rfl; exact hx hy
    · intro j _ _ hc
      exact hx (List.mem_of_getElem? hc)

theorem deleteLoop_spec (xs : List Nat) : ∀ (s : State), s.records.Nodup →
    (∀ t, (get s.aggTypes t).Nodup) →
    ∃ s', deleteLoop s xs = (s', false) ∧ s'.records = s.records.filter (fun g => g ∉ xs) ∧
      (∀ t, get s'.aggTypes t = (get s.aggTypes t).filter (fun g => g ∉ xs)) ∧
      (∀ g, s'.data g = if g ∈ xs ∧ g ∈ s.records then none else s.data g) ∧
      s'.streams = s.streams ∧ s'.gsn = s.gsn ∧ s'.locked = s.locked := by
  induction xs with
  | nil =>
    intro s _ _
    have hf : ∀ l : List Nat, l.filter (fun g => decide (g ∉ ([] : List Nat))) = l := by
      intro l; rw [List.filter_eq_self]; simp
    exact ⟨s, rfl, (hf _).symm, fun t => (hf _).symm, by simp, rfl, rfl, rfl⟩
  | cons x xs ih =>
    intro s h1 h2
    have hone : deleteOne s x = ({ s with
        records := s.records.filter (fun y => y ≠ x)
        data := if x ∈ s.records then setMap s.data x none else s.data
        aggTypes := fun t => (s.aggTypes t).map (fun l => (removeAll x l).getD l) }, false) := by
      unfold deleteOne
      rw [removeAll_spec x _ h1]
    have hget : ∀ t, get (fun t => (s.aggTypes t).map (fun l => (removeAll x l).getD l)) t
        = (get s.aggTypes t).filter (fun y => y ≠ x) := by
      intro t
      have := h2 t
      simp only [get] at this ⊢
      cases hs : s.aggTypes t with
      | none => simp
      | some l =>
        rw [hs] at this
        simp only [Option.getD_some] at this
        simp only [Option.map_some, Option.getD_some, removeAll_spec x l this]
    obtain ⟨s', e1, e2, e3, e4, e5, e6, e7⟩ := ih { s with
        records := s.records.filter (fun y => y ≠ x)
        data := if x ∈ s.records then setMap s.data x none else s.data
        aggTypes := fun t => (s.aggTypes t).map (fun l => (removeAll x l).getD l) }
      (h1.filter _) (by intro t; simp only; rw [hget]; exact (h2 t).filter _)
    refine ⟨s', by rw [deleteLoop, hone]; exact e1, ?_, ?_, ?_, e5, e6, e7⟩
    · rw [e2, List.filter_filter]
      apply List.filter_congr
      intro y _
      by_cases hyx : y = x <;> simp [hyx]
    · intro t
      rw [e3]
      simp only
      rw [hget, List.filter_filter]
      apply List.filter_congr
      intro y _
      by_cases hyx : y = x <;> simp [hyx]
    · intro g
      rw [e4]
      simp only [List.mem_filter, List.mem_cons, decide_eq_true_eq]
      by_cases hgx : g = x
      · subst hgx
        by_cases hgr : g ∈ s.records
        · simp [hgr, setMap]
        · simp [hgr]
      · by_cases hgxs : g ∈ xs <;> by_cases hgr : g ∈ s.records <;>
          by_cases hxr : x ∈ s.records <;> simp [hgx, hgxs, hgr, hxr, setMap]

theorem Sim.nodup_types {s : State} {L : Log} (h : Sim z s L) (hL : L.WF) (t : Str) :
    (get s.aggTypes t).Nodup := by
  rw [h.aggTypes]
  exact hL.nodup.sublist (List.Sublist.map _ List.filter_sublist)

theorem gsn_mem_stream {L : Log} (hL : L.WF) {r : Record} (hr : r ∈ L.recs) (st : Str) :
    r.gsn ∈ (L.stream st).map (·.gsn) ↔ r.streamName = st := by
  constructor
  · intro h
    rw [List.mem_map] at h
    obtain ⟨r', h1, h2⟩ := h
    simp only [Log.stream, List.mem_filter, decide_eq_true_eq] at h1
    rw [← hL.gsn_inj h1.1 hr h2]; exact h1.2
  · intro h
    rw [List.mem_map]
    exact ⟨r, by simp [Log.stream, hr, h], rfl⟩

theorem deleteStream_exact {s : State} {L : Log} (hL : L.WF) (h : Sim z s L) (st : Str)
    (gsns : List Nat) (hk : s.streams st = some gsns) :
    ∃ s', deleteStream s st (L.streamLen st) false = (s', .ok ()) ∧ Sim z s' (L.delete st) := by
  have hgs : gsns = (L.stream st).map (·.gsn) := by
    have := h.streams st; simp only [get, hk, Option.getD_some] at this; exact this
  have hlen : L.streamLen st = gsns.length := by rw [hgs]; simp [Log.streamLen]
  obtain ⟨s', e1, e2, e3, e4, e5, e6, e7⟩ := deleteLoop_spec gsns s
    (by rw [h.records]; exact hL.nodup) (h.nodup_types hL)
  have hfil : ∀ p : Record → Bool, ((L.recs.filter p).map (·.gsn)).filter (fun g => g ∉ gsns)
      = ((L.recs.filter (fun r => r.streamName ≠ st)).filter p).map (·.gsn) := by
    intro p
    rw [List.filter_map, List.filter_filter, List.filter_filter]
    congr 1
    apply List.filter_congr
    intro r hr
    have := gsn_mem_stream hL hr st
    rw [← hgs] at this
    simp only [Function.comp, this, ne_eq, decide_not]
    rw [Bool.and_comm]
  refine ⟨{ s' with streams := setMap s'.streams st none }, ?_, ?_⟩
  · unfold deleteStream
    simp only [Bool.false_eq_true, if_false, h.unlocked, hk]
    rw [if_neg (by rw [hlen]; simp), e1]
  · constructor
    · exact e7.trans h.unlocked
    · exact e6.trans h.gsn
    · simp only [e2, h.records]
      have := hfil (fun _ => true)
      have ht : ∀ l : List Record, l.filter (fun _ => true) = l := by
        intro l; rw [List.filter_eq_self]; simp
      rw [ht, ht] at this
      exact this
    · intro r hr
      simp only [Log.delete, List.mem_filter, decide_eq_true_eq] at hr
      simp only [e4]
      rw [if_neg]
      · exact h.data r hr.1
      · rintro ⟨hm, _⟩
        rw [hgs] at hm
        exact hr.2 ((gsn_mem_stream hL hr.1 st).mp hm)
    · intro g hg
      simp only [e4]
      by_cases hgr : g ∈ L.recs.map (·.gsn)
      · rw [if_pos]
        refine ⟨?_, by rw [h.records]; exact hgr⟩
        rw [List.mem_map] at hgr
        obtain ⟨r, hr, rfl⟩ := hgr
        rw [hgs, gsn_mem_stream hL hr]
        apply Classical.byContradiction
        intro hne
        apply hg
        rw [List.mem_map]
        exact ⟨r, by simp [Log.delete, hr, hne], rfl⟩
      · rw [if_neg (by rw [h.records]; exact fun hc => hgr hc.2)]
        exact h.noData g hgr
    · intro n
      by_cases hn : n = st
      · subst hn; simp [get, setMap, Log.stream_delete_self]
      · rw [Log.stream_delete_other L hn, ← h.streams]
        simp [get, setMap, hn, e5]
    · intro t
      simp only [e3, h.aggTypes, Log.delete]
      exact hfil _

theorem Log.delete_absent {L : Log} {st : Str} (h : L.streamLen st = 0) : L.delete st = L := by
  have : L.stream st = [] := List.length_eq_zero_iff.mp h
  simp only [Log.stream, List.filter_eq_nil_iff, decide_eq_true_eq] at this
  unfold Log.delete
  congr 1
  rw [List.filter_eq_self]
  intro r hr
  simpa using this r hr

theorem deleteStream_spec {s : State} {L : Log} (hL : L.WF) (h : Sim z s L) (st : Str)
    (expected : Nat) (cancelled : Bool) :
    (cancelled = true → deleteStream s st expected cancelled = (s, .err .canceled)) ∧
    (cancelled = false → L.streamLen st ≠ 0 → expected ≠ L.streamLen st →
      deleteStream s st expected cancelled = (s, .err (.unexpected expected (L.streamLen st)))) ∧
    (cancelled = false → L.streamLen st ≠ 0 → expected = L.streamLen st →
      (deleteStream s st expected cancelled).2 = .ok () ∧
      Sim z (deleteStream s st expected cancelled).1 (L.delete st)) ∧
    (cancelled = false → L.streamLen st = 0 →
      Sim z (deleteStream s st expected cancelled).1 L ∧
      ((s.streams st = none ∧ (deleteStream s st expected cancelled).2 = .err .notFound) ∨
       (expected ≠ 0 ∧ (deleteStream s st expected cancelled).2 = .err (.unexpected expected 0)) ∨
       (expected = 0 ∧ (deleteStream s st expected cancelled).2 = .ok ()))) := by
  have hpres : L.streamLen st ≠ 0 → ∃ gsns, s.streams st = some gsns := by
    intro hne
    cases hk : s.streams st with
    | some g => exact ⟨g, rfl⟩
    | none =>
      have := h.streams st
      simp only [get, hk, Option.getD_none] at this
      have : L.streamLen st = 0 := by
        simp only [Log.streamLen]
        have := congrArg List.length this
        simpa using this.symm
      exact absurd this hne
  have hlen : ∀ gsns, s.streams st = some gsns → gsns.length = L.streamLen st := by
    intro gsns hk
    have := h.streams st
    simp only [get, hk, Option.getD_some] at this
    rw [this]; simp [Log.streamLen]
  refine ⟨?_, ?_, ?_, ?_⟩
  · intro hc; simp [deleteStream, hc]
  · intro hc hne hx
    obtain ⟨gsns, hk⟩ := hpres hne
    simp [deleteStream, hc, h.unlocked, hk, hlen gsns hk, hx]
  · rintro rfl hne rfl
    obtain ⟨gsns, hk⟩ := hpres hne
    obtain ⟨s', h1, h2⟩ := deleteStream_exact hL h st gsns hk
    rw [h1]; exact ⟨rfl, h2⟩
  · rintro rfl h0
    cases hk : s.streams st with
    | none => simp [deleteStream, h.unlocked, hk, h]
    | some gsns =>
      have hl := hlen gsns hk
      by_cases hx : expected = 0
      · subst hx
        obtain ⟨s', h1, h2⟩ := deleteStream_exact hL h st gsns hk
        rw [h0] at h1
        rw [h1]
        rw [Log.delete_absent h0] at h2
        exact ⟨h2, Or.inr (Or.inr ⟨rfl, rfl⟩)⟩
      · have : deleteStream s st expected false = (s, .err (.unexpected expected 0)) := by
          simp [deleteStream, h.unlocked, hk, hl, h0, hx]
        rw [this]
        exact ⟨h, Or.inr (Or.inl ⟨hx, rfl⟩)⟩

end RangeDB.IM

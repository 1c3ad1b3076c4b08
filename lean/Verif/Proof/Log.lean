import Verif.Spec.EventLog

/-! # Lemmas about the abstract event log -/

namespace RangeDB

variable {z : Serializer}

@[simp] theorem numbered_length (st : Str) (g q : Nat) (ers : List EventRecord) :
    (numbered st g q ers).length = ers.length := by
  induction ers generalizing g q with
  | nil => rfl
  | cons e es ih => simp [numbered, ih]

theorem numbered_append (st : Str) (g q : Nat) (a b : List EventRecord) :
    numbered st g q (a ++ b) = numbered st g q a ++ numbered st (g + a.length) (q + a.length) b := by
  induction a generalizing g q with
  | nil => simp [numbered]
  | cons e es ih => simp [numbered, ih, Nat.add_assoc, Nat.add_comm 1]

theorem numbered_stream {st : Str} {g q : Nat} {ers : List EventRecord} {r : Record}
    (h : r ∈ numbered st g q ers) : r.streamName = st := by
  induction ers generalizing g q with
  | nil => simp [numbered] at h
  | cons e es ih =>
    simp only [numbered, List.mem_cons] at h
    rcases h with rfl | h
    · rfl
    · exact ih h

theorem numbered_gsn_range (st : Str) (g q : Nat) (ers : List EventRecord) :
    (numbered st g q ers).map (·.gsn) = List.range' (g + 1) ers.length := by
  induction ers generalizing g q with
  | nil => rfl
  | cons e es ih => simp [numbered, ih, List.range'_succ, mkRecord]

theorem numbered_seq_range (st : Str) (g q : Nat) (ers : List EventRecord) :
    (numbered st g q ers).map (·.seq) = List.range' (q + 1) ers.length := by
  induction ers generalizing g q with
  | nil => rfl
  | cons e es ih => simp [numbered, ih, List.range'_succ, mkRecord]

theorem numbered_gsn_bounds {st : Str} {g q : Nat} {ers : List EventRecord} {r : Record}
    (h : r ∈ numbered st g q ers) : g < r.gsn ∧ r.gsn ≤ g + ers.length := by
  have : r.gsn ∈ (numbered st g q ers).map (·.gsn) := List.mem_map_of_mem h
  rw [numbered_gsn_range, List.mem_range'_1] at this
  omega

theorem numbered_sorted (st : Str) (g q : Nat) (ers : List EventRecord) :
    (numbered st g q ers).Pairwise (fun a b => a.gsn < b.gsn) := by
  have h : ((numbered st g q ers).map (·.gsn)).Pairwise (· < ·) := by
    rw [numbered_gsn_range]; exact List.pairwise_lt_range'
  exact List.pairwise_map.mp h

/-- Every record of a numbered batch carries the type of some event of the batch. -/
theorem numbered_aggType {st : Str} {g q : Nat} {ers : List EventRecord} {r : Record}
    (h : r ∈ numbered st g q ers) : ∃ er ∈ ers, r.aggType = er.event.aggType := by
  induction ers generalizing g q with
  | nil => simp [numbered] at h
  | cons e es ih =>
    simp only [numbered, List.mem_cons] at h
    rcases h with rfl | h
    · exact ⟨e, by simp, rfl⟩
    · obtain ⟨er, h1, h2⟩ := ih h
      exact ⟨er, by simp [h1], h2⟩

section
variable (hz : z.Lawful)
include hz

theorem view_gsn_map (l : List Record) : (l.map z.view).map (·.gsn) = l.map (·.gsn) := by
  simp [hz.gsn]

theorem Log.stream_append_self (L : Log) (st : Str) (ers : List EventRecord) :
    (L.append z.view st ers).stream st =
      L.stream st ++ (numbered st L.last (L.streamLen st) ers).map z.view := by
  simp only [Log.stream, Log.append, List.filter_append]
  congr 1
  rw [List.filter_eq_self]
  intro r hr
  rw [List.mem_map] at hr
  obtain ⟨r', h1, rfl⟩ := hr
  simp [hz.streamName, numbered_stream h1]

theorem Log.stream_append_other (L : Log) {st n : Str} (ers : List EventRecord) (h : n ≠ st) :
    (L.append z.view st ers).stream n = L.stream n := by
  simp only [Log.stream, Log.append, List.filter_append]
  suffices h0 : ((numbered st L.last (L.streamLen st) ers).map z.view).filter
      (fun r => r.streamName = n) = [] by rw [h0, List.append_nil]
  rw [List.filter_eq_nil_iff]
  intro r hr
  rw [List.mem_map] at hr
  obtain ⟨r', h1, rfl⟩ := hr
  simp only [hz.streamName, numbered_stream h1, decide_eq_true_eq]
  exact fun h' => h h'.symm

theorem Log.streamLen_append_self (L : Log) (st : Str) (ers : List EventRecord) :
    (L.append z.view st ers).streamLen st = L.streamLen st + ers.length := by
  simp [Log.streamLen, Log.stream_append_self hz]

theorem Log.append_append (L : Log) (st : Str) (a b : List EventRecord) :
    (L.append z.view st a).append z.view st b = L.append z.view st (a ++ b) := by
  have h := Log.streamLen_append_self hz L st a
  simp only [Log.append] at h ⊢
  simp only [Log.mk.injEq, List.length_append, List.append_assoc, List.append_cancel_left_eq]
  refine ⟨by omega, ?_⟩
  rw [numbered_append, List.map_append, h]

theorem Log.WF.append {L : Log} (hL : L.WF) (st : Str) (ers : List EventRecord) :
    (L.append z.view st ers).WF where
  sorted := by
    simp only [Log.append]
    rw [List.pairwise_append]
    refine ⟨hL.sorted, ?_, ?_⟩
    · rw [List.pairwise_map]
      exact (numbered_sorted _ _ _ _).imp (by intro a b h; simpa [hz.gsn] using h)
    · intro a ha b hb
      rw [List.mem_map] at hb
      obtain ⟨r, h1, rfl⟩ := hb
      have := numbered_gsn_bounds h1
      have := hL.bounded a ha
      rw [hz.gsn]; omega
  bounded := by
    intro r hr
    simp only [Log.append, List.mem_append, List.mem_map] at hr ⊢
    rcases hr with hr | ⟨r, h1, rfl⟩
    · have := hL.bounded r hr; omega
    · have := numbered_gsn_bounds h1
      rw [hz.gsn]; omega
  contiguous := by
    intro n
    by_cases h : n = st
    · subst h
      rw [Log.streamLen_append_self hz, Log.stream_append_self hz, List.map_append, hL.contiguous]
      have : ((numbered n L.last (L.streamLen n) ers).map z.view).map (·.seq)
          = List.range' (L.streamLen n + 1) ers.length := by
        rw [← numbered_seq_range n L.last]; simp [hz.seq]
      rw [this, Nat.add_comm (L.streamLen n) 1, List.range'_append_1]
    · rw [Log.streamLen, Log.stream_append_other hz L ers h]
      exact hL.contiguous n

end

theorem Log.WF.empty : Log.empty.WF where
  sorted := by simp [Log.empty]
  bounded := by simp [Log.empty]
  contiguous := by intro n; simp [Log.empty, Log.stream, Log.streamLen]

theorem Log.stream_delete_self (L : Log) (st : Str) : (L.delete st).stream st = [] := by
  simp only [Log.stream, Log.delete, List.filter_filter, List.filter_eq_nil_iff]
  intro r _
  simp

theorem Log.stream_delete_other (L : Log) {st n : Str} (h : n ≠ st) :
    (L.delete st).stream n = L.stream n := by
  simp only [Log.stream, Log.delete, List.filter_filter]
  apply List.filter_congr
  intro r _
  by_cases h' : r.streamName = n
  · subst h'; simp [h]
  · simp [h']

theorem Log.WF.delete {L : Log} (hL : L.WF) (st : Str) : (L.delete st).WF where
  sorted := hL.sorted.filter _
  bounded := by
    intro r hr
    simp only [Log.delete] at hr ⊢
    exact hL.bounded r (List.mem_filter.mp hr).1
  contiguous := by
    intro n
    by_cases h : n = st
    · subst h; simp [Log.streamLen, Log.stream_delete_self]
    · rw [Log.streamLen, Log.stream_delete_other L h]; exact hL.contiguous n

theorem Log.WF.gap {L : Log} (hL : L.WF) (k : Nat) : ({ L with last := L.last + k } : Log).WF where
  sorted := hL.sorted
  bounded := by intro r hr; have := hL.bounded r hr; simp; omega
  contiguous := hL.contiguous

theorem Log.WF.nodup {L : Log} (hL : L.WF) : (L.recs.map (·.gsn)).Nodup := by
  rw [List.nodup_iff_pairwise_ne, List.pairwise_map]
  exact hL.sorted.imp (by intro a b h; omega)

theorem Log.WF.gsn_inj {L : Log} (hL : L.WF) {a b : Record} (ha : a ∈ L.recs) (hb : b ∈ L.recs)
    (h : a.gsn = b.gsn) : a = b := by
  have hs := hL.sorted
  generalize L.recs = l at *
  induction l with
  | nil => simp at ha
  | cons x xs ih =>
    rw [List.pairwise_cons] at hs
    simp only [List.mem_cons] at ha hb
    rcases ha with rfl | ha <;> rcases hb with rfl | hb
    · rfl
    · have := hs.1 b hb; omega
    · have := hs.1 a ha; omega
    · exact ih ha hb hs.2

end RangeDB

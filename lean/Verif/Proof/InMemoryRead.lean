import Verif.Proof.InMemoryDelete
import Verif.Proof.Merge

/-! # Reads of the in-memory store, and reachable states -/

namespace RangeDB.IM

variable {z : Serializer}

/-- `cut` where `n` records have been published already. -/
def cutFrom (cancelAt : Option Nat) (n : Nat) (l : List Record) : Iter :=
  match cancelAt with
  | none => ⟨l, none⟩
  | some c => if n + l.length ≤ c ∨ l = [] then ⟨l, none⟩ else ⟨l.take (c - n), some .canceled⟩

theorem cutFrom_zero (cancelAt : Option Nat) (l : List Record) :
    cutFrom cancelAt 0 l = cut cancelAt l := by
  unfold cutFrom cut
  cases cancelAt with
  | none => rfl
  | some c =>
    simp only [Nat.zero_add, Nat.sub_zero]
    by_cases h : l.length ≤ c
    · simp [h]
    · have : l ≠ [] := by rintro rfl; simp at h
      simp [h, this]

theorem cutFrom_cons (cancelAt : Option Nat) (n : Nat) (r : Record) (l : List Record) :
    cutFrom cancelAt n (r :: l) = if ctxDone cancelAt n then ⟨[], some .canceled⟩
      else ⟨r :: (cutFrom cancelAt (n + 1) l).recs, (cutFrom cancelAt (n + 1) l).err⟩ := by
  unfold cutFrom ctxDone
  cases cancelAt with
  | none => simp
  | some c =>
    simp only [List.length_cons, decide_eq_true_eq]
    by_cases hc : c ≤ n
    · rw [if_pos hc, if_neg (by simp; omega)]
      simp [show c - n = 0 by omega]
    · rw [if_neg hc]
      by_cases h : n + (l.length + 1) ≤ c
      · rw [if_pos (Or.inl h), if_pos (Or.inl (by omega))]
      · rw [if_neg (by simp; omega)]
        by_cases hl : l = []
        · subst hl; simp at h; omega
        · rw [if_neg (by simp [hl]; omega)]
          rw [show c - n = (c - (n + 1)) + 1 by omega]
          simp

theorem recordsByIDs_spec (s : State) (cancelAt : Option Nat) (keep : Record → Bool)
    (recs : List Record) (h : ∀ r ∈ recs, ∃ b, s.data r.gsn = some b ∧ z.deser b = some r) :
    ∀ n, recordsByIDs z s cancelAt keep n (recs.map (·.gsn)) = cutFrom cancelAt n (recs.filter keep) := by
  induction recs with
  | nil => intro n; unfold cutFrom; cases cancelAt <;> simp [recordsByIDs]
  | cons r rs ih =>
    intro n
    obtain ⟨b, hb1, hb2⟩ := h r (by simp)
    have ih' := ih (fun r' hr' => h r' (by simp [hr']))
    simp only [List.map_cons, recordsByIDs, hb1, hb2]
    by_cases hk : keep r
    · simp only [hk, if_true]
      rw [List.filter_cons_of_pos hk, cutFrom_cons, ih']
    · simp only [hk]
      rw [List.filter_cons_of_neg (by simpa using hk)]
      exact ih' n

theorem events_spec {s : State} {L : Log} (h : Sim z s L) (cancelAt : Option Nat) (g : Nat) :
    events z s cancelAt g = cut cancelAt (L.recs.filter (fun r => r.gsn ≥ g)) := by
  unfold events
  rw [h.records, recordsByIDs_spec s cancelAt _ L.recs h.data, cutFrom_zero]

theorem eventsByStream_spec {s : State} {L : Log} (h : Sim z s L) (cancelAt : Option Nat) (n : Nat)
    (st : Str) :
    eventsByStream z s cancelAt n st = if L.streamLen st = 0 then ⟨[], some .notFound⟩
      else cut cancelAt ((L.stream st).filter (fun r => r.seq ≥ n)) := by
  unfold eventsByStream
  by_cases h0 : L.streamLen st = 0
  · rw [if_pos h0, if_pos]
    right; rw [h.streams]; simpa [Log.streamLen] using h0
  · rw [if_neg h0, if_neg]
    · rw [h.streams, recordsByIDs_spec s cancelAt _ (L.stream st), cutFrom_zero]
      intro r hr
      exact h.data r (List.mem_filter.mp hr).1
    · have hl : (get s.streams st).length = L.streamLen st := by
        rw [h.streams]; simp [Log.streamLen]
      rintro (hc | hc)
      · simp only [Option.isNone_iff_eq_none] at hc
        simp [get, hc] at hl; exact h0 hl.symm
      · exact h0 (hl ▸ hc)

theorem eventsByType_spec {s : State} {L : Log} (h : Sim z s L) (cancelAt : Option Nat) (g : Nat)
    (t : Str) :
    eventsByType z s cancelAt g t =
      cut cancelAt ((L.recs.filter (fun r => r.aggType = t)).filter (fun r => r.gsn ≥ g)) := by
  unfold eventsByType
  rw [h.aggTypes, recordsByIDs_spec s cancelAt _ _, cutFrom_zero]
  intro r hr
  exact h.data r (List.mem_filter.mp hr).1

theorem total_spec {s : State} {L : Log} (h : Sim z s L) (st : Str) :
    totalEventsInStream s st false = .ok (L.streamLen st) := by
  simp [totalEventsInStream, h.unlocked, h.streams, Log.streamLen]

/-- Filtering by each of several different types and concatenating is a rearrangement of filtering by
membership. -/
theorem flatMap_filter_perm (recs : List Record) (p : Record → Bool) (types : List Str)
    (hd : types.Nodup) :
    (types.flatMap (fun t => (recs.filter (fun r => r.aggType = t)).filter p)).Perm
      (recs.filter (fun r => decide (r.aggType ∈ types) && p r)) := by
  induction types with
  | nil =>
    simp only [List.flatMap_nil, List.not_mem_nil, decide_false, Bool.false_and]
    rw [show recs.filter (fun _ => false) = [] from by simp]
  | cons t ts ih =>
    rw [List.nodup_cons] at hd
    rw [List.flatMap_cons]
    refine (List.Perm.append_left _ (ih hd.2)).trans ?_
    have h1 : (recs.filter (fun r => r.aggType = t)).filter p =
        (recs.filter (fun r => decide (r.aggType ∈ t :: ts) && p r)).filter
          (fun r => r.aggType = t) := by
      simp only [List.filter_filter]
      apply List.filter_congr
      intro r _
      by_cases hr : r.aggType = t <;> simp [hr]
    have h2 : recs.filter (fun r => decide (r.aggType ∈ ts) && p r) =
        (recs.filter (fun r => decide (r.aggType ∈ t :: ts) && p r)).filter
          (fun r => !decide (r.aggType = t)) := by
      simp only [List.filter_filter]
      apply List.filter_congr
      intro r _
      by_cases hr : r.aggType = t
      · subst hr; simp [hd.1]
      · simp [hr]
    rw [h1, h2]
    exact List.filter_append_perm _ _

theorem eventsByAggregateTypes_spec {s : State} {L : Log} (h : Sim z s L) (hL : L.WF) (g : Nat)
    (types : List Str) (hd : types.Nodup) :
    eventsByAggregateTypes z s (fun _ => none) g types =
      ⟨L.recs.filter (fun r => decide (r.aggType ∈ types) && decide (r.gsn ≥ g)), none⟩ := by
  have hmerge : mergeIters (types.map (fun t => eventsByType z s none g t)) =
      ⟨L.recs.filter (fun r => decide (r.aggType ∈ types) && decide (r.gsn ≥ g)), none⟩ := by
    have hflat : (types.map (fun t => eventsByType z s none g t)).flatMap (·.recs)
        = types.flatMap (fun t => (L.recs.filter (fun r => r.aggType = t)).filter
            (fun r => r.gsn ≥ g)) := by
      rw [List.flatMap_map]
      congr 1
      funext t
      rw [eventsByType_spec h]; rfl
    have hperm := flatMap_filter_perm L.recs (fun r => decide (r.gsn ≥ g)) types hd
    have hsorted : (L.recs.filter (fun r => decide (r.aggType ∈ types) && decide (r.gsn ≥ g))).Pairwise
        (fun a b => a.gsn < b.gsn) := hL.sorted.filter _
    have : (mergeIters (types.map (fun t => eventsByType z s none g t))).recs =
        L.recs.filter (fun r => decide (r.aggType ∈ types) && decide (r.gsn ≥ g)) := by
      apply sorted_perm_eq
      · apply mergeIters_sorted
        · intro it hit
          rw [List.mem_map] at hit
          obtain ⟨t, _, rfl⟩ := hit
          rw [eventsByType_spec h]
          exact (hL.sorted.filter _).filter _
        · rw [hflat]
          refine ((hperm.map _).nodup_iff).mpr ?_
          exact hL.nodup.sublist (List.Sublist.map _ List.filter_sublist)
      · exact hsorted
      · refine (mergeIters_perm _).trans ?_
        rw [hflat]; exact hperm
    unfold mergeIters at this ⊢
    simp only at this
    rw [this]
  match types, hd, hmerge with
  | [], _, hm => exact hm
  | [t], _, _ =>
    simp only [eventsByAggregateTypes, eventsByType_spec h]
    simp only [cut, List.filter_filter]
    congr 1
    apply List.filter_congr
    intro r _
    by_cases hr : r.aggType = t <;> simp [hr]
  | _ :: _ :: _, _, hm => exact hm

theorem afterFail_WF (hz : z.Lawful) {L : Log} (hL : L.WF) (st : Str) (ers : List EventRecord)
    (j : Nat) (e : Err) : (afterFail z.view L st ers j e).WF := by
  cases e <;> first | exact hL | exact hL.gap 1 | exact hL.append hz st _

theorem specStep_WF (hz : z.Lawful) {L : Log} (hL : L.WF) (op : Op) : (specStep z L op).WF := by
  cases op with
  | save st expected cancelAt ers =>
    simp only [specStep]
    split
    · exact hL
    · split
      · exact hL.append hz st ers
      · exact afterFail_WF hz hL st ers _ _
  | delete st expected cancelled =>
    simp only [specStep]
    split
    · exact hL.delete st
    · exact hL

theorem step_sim (hz : z.Lawful) {s : State} {L : Log} (hL : L.WF) (h : Sim z s L) (op : Op)
    (hg : op.Guarded z) : Sim z (step z s op) (specStep z L op) := by
  cases op with
  | save st expected cancelAt ers =>
    simp only [step, specStep]
    by_cases hne : ers = []
    · subst hne; simp [saveEvents, h]
    · rw [if_neg hne]
      have hs := saveEvents_spec hz hL h st expected cancelAt ers hg hne
      split
      · rename_i hp; exact (hs.1 hp).2.1
      · rename_i j e hp; exact (hs.2 j e hp).2.1
  | delete st expected cancelled =>
    simp only [step, specStep]
    have hs := deleteStream_spec hL h st expected cancelled
    cases cancelled with
    | true => rw [hs.1 rfl]; simpa using h
    | false =>
      by_cases h0 : L.streamLen st = 0
      · have := (hs.2.2.2 rfl h0).1
        split
        · rw [Log.delete_absent h0]; exact this
        · exact this
      · by_cases hx : expected = L.streamLen st
        · rw [if_pos ⟨rfl, hx⟩]; exact (hs.2.2.1 rfl h0 hx).2
        · rw [if_neg (by simp [hx]), hs.2.1 rfl h0 hx]; exact h

theorem foldl_sim (hz : z.Lawful) (ops : List Op) (hg : ∀ op ∈ ops, op.Guarded z) :
    ∀ (s : State) (L : Log), L.WF → Sim z s L →
      (ops.foldl (specStep z) L).WF ∧ Sim z (ops.foldl (step z) s) (ops.foldl (specStep z) L) := by
  induction ops with
  | nil => intro s L hL h; exact ⟨hL, h⟩
  | cons op ops ih =>
    intro s L hL h
    exact ih (fun o ho => hg o (by simp [ho])) _ _ (specStep_WF hz hL op)
      (step_sim hz hL h op (hg op (by simp)))

/-- Every guarded history leaves the store in a state that represents the specified log. -/
theorem run_sim (hz : z.Lawful) (ops : List Op) (hg : ∀ op ∈ ops, op.Guarded z) :
    (specRun z ops).WF ∧ Sim z (run z ops) (specRun z ops) :=
  foldl_sim hz ops hg init Log.empty Log.WF.empty sim_init

end RangeDB.IM

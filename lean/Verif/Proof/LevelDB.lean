import Verif.Proof.KV
import Verif.Proof.InMemoryRead

/-! # The LevelDB store represents the abstract log -/

namespace RangeDB.LD

open KV
open IM (cutFrom cutFrom_cons cutFrom_zero flatMap_filter_perm problem_type problem_id problem_ctx
  problem_unexpected problem_ser)

variable {N : Names} {z : Serializer}

/-- The database `db` represents the log `L`. -/
structure Sim (N : Names) (z : Serializer) (db : DB) (L : Log) : Prop where
  sorted : Sorted db
  entries : ∀ k v, (k, v) ∈ db → k = globalSequenceNumberKey ∨ ∃ r ∈ L.recs,
    k = streamKey r.streamName r.seq ∨
    (k = typeKey r.aggType r.gsn ∧ v = streamKey r.streamName r.seq) ∨
    (k = allKey r.gsn ∧ v = streamKey r.streamName r.seq)
  gsn : getGlobalSequenceNumber db = L.last
  data : ∀ r ∈ L.recs, ∃ v, (streamKey r.streamName r.seq, v) ∈ db ∧ z.deser v = some r
  types : ∀ r ∈ L.recs, (typeKey r.aggType r.gsn, streamKey r.streamName r.seq) ∈ db
  all : ∀ r ∈ L.recs, (allKey r.gsn, streamKey r.streamName r.seq) ∈ db
  names : ∀ r ∈ L.recs, N.streams r.streamName ∧ N.types r.aggType
  bound : L.last < 2 ^ 64

theorem sim_init : Sim N z init.db Log.empty where
  sorted := List.Pairwise.nil
  entries := by simp [init]
  gsn := rfl
  data := by simp [Log.empty]
  types := by simp [Log.empty]
  all := by simp [Log.empty]
  names := by simp [Log.empty]
  bound := by simp [Log.empty]

/-! ## Bounds -/

theorem sorted_length (l : List Record) (hs : l.Pairwise (fun a b => a.gsn < b.gsn)) (lo hi : Nat)
    (h : ∀ r ∈ l, lo < r.gsn ∧ r.gsn ≤ hi) : l.length ≤ hi - lo := by
  induction l generalizing lo with
  | nil => simp
  | cons x xs ih =>
    rw [List.pairwise_cons] at hs
    have := ih hs.2 x.gsn (fun r hr => ⟨hs.1 r hr, (h r (by simp [hr])).2⟩)
    have := h x (by simp)
    simp; omega

theorem _root_.RangeDB.Log.WF.length_le {L : Log} (hL : L.WF) : L.recs.length ≤ L.last := by
  have := sorted_length L.recs hL.sorted 0 L.last (fun r hr => by have := hL.bounded r hr; omega)
  omega

theorem _root_.RangeDB.Log.WF.streamLen_le {L : Log} (hL : L.WF) (st : Str) :
    L.streamLen st ≤ L.last := by
  have h1 : L.streamLen st ≤ L.recs.length := List.length_filter_le _ _
  have := hL.length_le; omega

theorem _root_.RangeDB.Log.WF.seq_mem {L : Log} (hL : L.WF) {r : Record} (hr : r ∈ L.recs) :
    1 ≤ r.seq ∧ r.seq ≤ L.streamLen r.streamName := by
  have hm : r ∈ L.stream r.streamName := by simp [Log.stream, hr]
  have : r.seq ∈ (L.stream r.streamName).map (·.seq) := List.mem_map_of_mem hm
  rw [hL.contiguous, List.mem_range'_1] at this
  omega

theorem Sim.gsn_lt {db : DB} {L : Log} (h : Sim N z db L) (hL : L.WF) {r : Record} (hr : r ∈ L.recs) :
    r.gsn < 2 ^ 64 := by have := hL.bounded r hr; have := h.bound; omega

theorem Sim.seq_lt {db : DB} {L : Log} (h : Sim N z db L) (hL : L.WF) {r : Record} (hr : r ∈ L.recs) :
    r.seq < 2 ^ 64 := by
  have := hL.seq_mem hr; have := hL.streamLen_le r.streamName; have := h.bound; omega

theorem _root_.RangeDB.Log.WF.stream_sorted {L : Log} (hL : L.WF) (st : Str) :
    (L.stream st).Pairwise (fun a b => a.seq < b.seq) := by
  have h : ((L.stream st).map (·.seq)).Pairwise (· < ·) := by
    rw [hL.contiguous]; exact List.pairwise_lt_range'
  exact List.pairwise_map.mp h

/-! ## Range scans -/

theorem slice_all {db : DB} {L : Log} (h : Sim N z db L) (hL : L.WF) :
    slice db allEventsPrefix =
      L.recs.map (fun r => (allKey r.gsn, streamKey r.streamName r.seq)) := by
  apply sorted_ext (slice_sorted h.sorted _)
  · unfold Sorted
    rw [List.pairwise_map]
    refine hL.sorted.imp_of_mem ?_
    intro a b ha hb hab
    simp only [allKey, getKeyWithNumber, ltKey_append]
    rw [ltKey_uint64 _ _ (h.gsn_lt hL ha) (h.gsn_lt hL hb)]
    simpa using hab
  · rintro ⟨k, v⟩
    have : allEventsPrefix = [36, 97, 108, 108] ++ [36] := rfl
    rw [this, mem_slice _ _ _ (by omega), ← this]
    simp only [List.mem_map]
    constructor
    · rintro ⟨hm, hp⟩
      rcases h.entries k v hm with rfl | ⟨r, hr, rfl | ⟨rfl, rfl⟩ | ⟨rfl, rfl⟩⟩
      · exact absurd hp allPrefix_gsn
      · exact absurd hp (allPrefix_stream _ _)
      · exact absurd hp (allPrefix_type _ _)
      · exact ⟨r, hr, rfl⟩
    · rintro ⟨r, hr, hkv⟩
      simp only [Prod.mk.injEq] at hkv
      obtain ⟨rfl, rfl⟩ := hkv
      exact ⟨h.all r hr, allPrefix_all _⟩

theorem slice_type {db : DB} {L : Log} (h : Sim N z db L) (hL : L.WF) {t : Str}
    (ht : N.types t) :
    slice db (getAggregateTypeKeyPrefix t) =
      (L.recs.filter (fun r => r.aggType = t)).map
        (fun r => (typeKey t r.gsn, streamKey r.streamName r.seq)) := by
  apply sorted_ext (slice_sorted h.sorted _)
  · unfold Sorted
    rw [List.pairwise_map]
    refine (hL.sorted.filter _).imp_of_mem ?_
    intro a b ha hb hab
    simp only [typeKey, getKeyWithNumber, ltKey_append]
    rw [ltKey_uint64 _ _ (h.gsn_lt hL (List.mem_filter.mp ha).1)
      (h.gsn_lt hL (List.mem_filter.mp hb).1)]
    simpa using hab
  · rintro ⟨k, v⟩
    have : getAggregateTypeKeyPrefix t = (aggregateTypePrefix ++ (t ++ [36])) ++ [33] := by
      simp [getAggregateTypeKeyPrefix]
    rw [this, mem_slice _ _ _ (by omega), ← this]
    simp only [List.mem_map, List.mem_filter, decide_eq_true_eq]
    constructor
    · rintro ⟨hm, hp⟩
      rcases h.entries k v hm with rfl | ⟨r, hr, rfl | ⟨rfl, rfl⟩ | ⟨rfl, rfl⟩⟩
      · exact absurd hp (typePrefix_gsn _)
      · exact absurd hp (typePrefix_stream _ _ _)
      · have := (typePrefix_type ht (h.names r hr).2 _).mp hp
        exact ⟨r, ⟨hr, this⟩, by rw [this]⟩
      · exact absurd hp (typePrefix_all _ _)
    · rintro ⟨r, ⟨hr, rfl⟩, hkv⟩
      simp only [Prod.mk.injEq] at hkv
      obtain ⟨rfl, rfl⟩ := hkv
      exact ⟨h.types r hr, List.prefix_append _ _⟩

theorem slice_stream {db : DB} {L : Log} (h : Sim N z db L) (hL : L.WF) {st : Str}
    (hst : N.streams st) :
    slice db (getStreamKeyPrefix st) =
      (L.stream st).map (fun r => (streamKey st r.seq, (get db (streamKey st r.seq)).getD [])) := by
  apply sorted_ext (slice_sorted h.sorted _)
  · unfold Sorted
    rw [List.pairwise_map]
    refine (hL.stream_sorted st).imp_of_mem ?_
    intro a b ha hb hab
    simp only [streamKey, getKeyWithNumber, ltKey_append]
    rw [ltKey_uint64 _ _ (h.seq_lt hL (List.mem_filter.mp ha).1)
      (h.seq_lt hL (List.mem_filter.mp hb).1)]
    simpa using hab
  · rintro ⟨k, v⟩
    have : getStreamKeyPrefix st = (streamPrefix ++ (st ++ [36])) ++ [33] := by
      simp [getStreamKeyPrefix]
    rw [this, mem_slice _ _ _ (by omega), ← this]
    simp only [List.mem_map, Log.stream, List.mem_filter, decide_eq_true_eq]
    constructor
    · rintro ⟨hm, hp⟩
      rcases h.entries k v hm with rfl | ⟨r, hr, rfl | ⟨rfl, rfl⟩ | ⟨rfl, rfl⟩⟩
      · exact absurd hp (streamPrefix_gsn _)
      · have := (streamPrefix_stream hst (h.names r hr).1 _).mp hp
        subst this
        exact ⟨r, ⟨hr, rfl⟩, by rw [mem_get h.sorted hm]; rfl⟩
      · exact absurd hp (streamPrefix_type _ _ _)
      · exact absurd hp (streamPrefix_all _ _)
    · rintro ⟨r, ⟨hr, rfl⟩, hkv⟩
      simp only [Prod.mk.injEq] at hkv
      obtain ⟨rfl, rfl⟩ := hkv
      obtain ⟨v, hv, _⟩ := h.data r hr
      rw [mem_get h.sorted hv]
      exact ⟨hv, List.prefix_append _ _⟩

theorem Sim.get_data {db : DB} {L : Log} (h : Sim N z db L) {r : Record} (hr : r ∈ L.recs) :
    z.deser ((get db (streamKey r.streamName r.seq)).getD []) = some r ∧
    get db (streamKey r.streamName r.seq) = some ((get db (streamKey r.streamName r.seq)).getD []) := by
  obtain ⟨v, hv, hd⟩ := h.data r hr
  rw [mem_get h.sorted hv]
  exact ⟨hd, rfl⟩

/-! ## Reads -/

theorem lookupLoop_spec {db : DB} (cancelAt : Option Nat) (g : Nat) (key : Record → Str)
    (recs : List Record)
    (h : ∀ r ∈ recs, ∃ v, get db (streamKey r.streamName r.seq) = some v ∧ z.deser v = some r) :
    ∀ p, lookupLoop z db cancelAt g p (recs.map (fun r => (key r, streamKey r.streamName r.seq)))
      = cutFrom cancelAt p (recs.filter (fun r => r.gsn ≥ g)) := by
  induction recs with
  | nil => intro p; unfold cutFrom; cases cancelAt <;> simp [lookupLoop]
  | cons r rs ih =>
    intro p
    obtain ⟨v, hv, hd⟩ := h r (by simp)
    have ih' := ih (fun r' hr' => h r' (by simp [hr']))
    simp only [List.map_cons, lookupLoop, hv, hd]
    by_cases hk : r.gsn < g
    · rw [if_pos hk, List.filter_cons_of_neg (by simp; omega)]
      exact ih' p
    · rw [if_neg hk, List.filter_cons_of_pos (by simp; omega), cutFrom_cons, ih']

theorem prefixLoop_spec (cancelAt : Option Nat) (n : Nat) (kv : Record → Str × Str)
    (recs : List Record) (h : ∀ r ∈ recs, z.deser (kv r).2 = some r) :
    ∀ p, prefixLoop z cancelAt n p (recs.map kv)
      = cutFrom cancelAt p (recs.filter (fun r => r.seq ≥ n)) := by
  induction recs with
  | nil => intro p; unfold cutFrom; cases cancelAt <;> simp [prefixLoop]
  | cons r rs ih =>
    intro p
    have hd := h r (by simp)
    have ih' := ih (fun r' hr' => h r' (by simp [hr']))
    rw [List.map_cons]
    simp only [prefixLoop, hd]
    by_cases hk : r.seq < n
    · rw [if_pos hk, List.filter_cons_of_neg (by simp; omega)]
      exact ih' p
    · rw [if_neg hk, List.filter_cons_of_pos (by simp; omega), cutFrom_cons, ih']

/-- What the positioned iterator of a lookup visits. -/
theorem lookupStart_each (db : DB) (key : Str) (g : Nat) :
    DbIter.each ((lookupStart db key g).items.length + 1) (lookupStart db key g) =
      if g > 0 then (slice db key).drop (DbIter.seekIdx (getKeyWithNumber key g) (slice db key))
      else slice db key := by
  unfold lookupStart
  by_cases hg : g > 0
  · rw [if_pos hg, if_pos hg]
    by_cases hl : DbIter.seekIdx (getKeyWithNumber key g) (slice db key) < (slice db key).length
    · have hs : (DbIter.new db key).seek (getKeyWithNumber key g)
          = (⟨slice db key, .at (DbIter.seekIdx (getKeyWithNumber key g) (slice db key))⟩, true) :=
        if_pos hl
      simp only [hs, if_true]
      revert hl
      generalize DbIter.seekIdx (getKeyWithNumber key g) (slice db key) = i
      intro hl
      cases i with
      | zero => simp only [List.drop_zero, DbIter.prev]; exact DbIter.each_soi _ _ (by simp)
      | succ i => simp only [DbIter.prev]; exact DbIter.each_at _ _ _ (Nat.lt_succ_of_le (Nat.sub_le _ _))
    · have hs : (DbIter.new db key).seek (getKeyWithNumber key g) = (⟨slice db key, .eoi⟩, false) :=
        if_neg hl
      simp only [hs, Bool.false_eq_true, if_false]
      rw [List.drop_eq_nil_of_le (by omega)]
      exact DbIter.each_eoi _ _
  · rw [if_neg hg, if_neg hg]
    exact DbIter.each_soi _ _ (by simp [DbIter.new])

/-- Dropping up to the sought key drops only records below `g`. -/
theorem seek_drop (key : Str) (g : Nat) (hg : g < 2 ^ 64) (val : Record → Str) (recs : List Record)
    (hb : ∀ r ∈ recs, r.gsn < 2 ^ 64) :
    ∃ recs' : List Record, (recs.map (fun r => (getKeyWithNumber key r.gsn, val r))).drop
        (DbIter.seekIdx (getKeyWithNumber key g)
          (recs.map (fun r => (getKeyWithNumber key r.gsn, val r))))
      = recs'.map (fun r => (getKeyWithNumber key r.gsn, val r)) ∧
      recs'.filter (fun r => r.gsn ≥ g) = recs.filter (fun r => r.gsn ≥ g) ∧
      ∀ r ∈ recs', r ∈ recs := by
  induction recs with
  | nil => exact ⟨[], rfl, rfl, by simp⟩
  | cons r rs ih =>
    simp only [List.map_cons, DbIter.seekIdx]
    have hlt : ltKey (getKeyWithNumber key r.gsn) (getKeyWithNumber key g) = decide (r.gsn < g) := by
      simp only [getKeyWithNumber, ltKey_append]
      exact ltKey_uint64 _ _ (hb r (by simp)) hg
    rw [hlt]
    by_cases hk : r.gsn < g
    · simp only [hk, decide_true, if_true, List.drop_succ_cons]
      obtain ⟨recs', h1, h2, h3⟩ := ih (fun r' hr' => hb r' (by simp [hr']))
      refine ⟨recs', h1, ?_, fun r' hr' => by simp [h3 r' hr']⟩
      rw [List.filter_cons_of_neg (by simp; omega)]
      exact h2
    · simp only [hk, decide_false, Bool.false_eq_true, if_false, List.drop_zero]
      exact ⟨r :: rs, rfl, rfl, by simp⟩

theorem lookup_spec {db : DB} {L : Log} (h : Sim N z db L) (hL : L.WF) (key : Str)
    (recs : List Record) (hr : ∀ r ∈ recs, r ∈ L.recs)
    (hs : slice db key = recs.map (fun r => (getKeyWithNumber key r.gsn,
      streamKey r.streamName r.seq))) (cancelAt : Option Nat) (g : Nat) (hg : g < 2 ^ 64) :
    getEventsByLookup z db cancelAt key g = cut cancelAt (recs.filter (fun r => r.gsn ≥ g)) := by
  unfold getEventsByLookup
  simp only
  rw [lookupStart_each, hs]
  have hd : ∀ r ∈ recs, ∃ v, get db (streamKey r.streamName r.seq) = some v ∧
      z.deser v = some r := fun r hr' =>
    ⟨_, (h.get_data (hr r hr')).2, (h.get_data (hr r hr')).1⟩
  split
  · obtain ⟨recs', h1, h2, h3⟩ := seek_drop key g hg (fun r => streamKey r.streamName r.seq) recs
      (fun r hr' => h.gsn_lt hL (hr r hr'))
    rw [h1, lookupLoop_spec cancelAt g (fun r => getKeyWithNumber key r.gsn) recs'
      (fun r hr' => hd r (h3 r hr')), cutFrom_zero, h2]
  · rw [lookupLoop_spec cancelAt g (fun r => getKeyWithNumber key r.gsn) recs hd, cutFrom_zero]

theorem lookup_all {db : DB} {L : Log} (h : Sim N z db L) (hL : L.WF) (cancelAt : Option Nat) (g : Nat)
    (hg : g < 2 ^ 64) :
    getEventsByLookup z db cancelAt allEventsPrefix g
      = cut cancelAt (L.recs.filter (fun r => r.gsn ≥ g)) :=
  lookup_spec h hL allEventsPrefix L.recs (fun _ h => h) (slice_all h hL) cancelAt g hg

theorem lookup_type {db : DB} {L : Log} (h : Sim N z db L) (hL : L.WF) (cancelAt : Option Nat) (g : Nat)
    (hg : g < 2 ^ 64) {t : Str} (ht : N.types t) :
    getEventsByLookup z db cancelAt (getAggregateTypeKeyPrefix t) g
      = cut cancelAt ((L.recs.filter (fun r => r.aggType = t)).filter (fun r => r.gsn ≥ g)) :=
  lookup_spec h hL _ _ (fun _ h => (List.mem_filter.mp h).1) (slice_type h hL ht) cancelAt g hg

theorem prefix_stream {db : DB} {L : Log} (h : Sim N z db L) (hL : L.WF) (cancelAt : Option Nat)
    (n : Nat) {st : Str} (hst : N.streams st) :
    getEventsByPrefix z db cancelAt (getStreamKeyPrefix st) n
      = if L.streamLen st = 0 then ⟨[], some .notFound⟩
        else cut cancelAt ((L.stream st).filter (fun r => r.seq ≥ n)) := by
  have hv : DbIter.each ((DbIter.new db (getStreamKeyPrefix st)).items.length + 1)
      (DbIter.new db (getStreamKeyPrefix st)) = slice db (getStreamKeyPrefix st) :=
    DbIter.each_soi _ _ (by simp [DbIter.new])
  unfold getEventsByPrefix
  simp only [hv]
  simp only [slice_stream h hL hst, List.length_map]
  change (if L.streamLen st = 0 then _ else _) = _
  rw [prefixLoop_spec cancelAt n _ (L.stream st), cutFrom_zero]
  intro r hr
  have hm := List.mem_filter.mp hr
  simp only [decide_eq_true_eq] at hm
  have := (h.get_data hm.1).1
  rw [hm.2] at this
  exact this

theorem seqNumber_spec {db : DB} {L : Log} (h : Sim N z db L) (hL : L.WF) {st : Str}
    (hst : N.streams st) : getStreamSequenceNumber db st = L.streamLen st := by
  unfold getStreamSequenceNumber getSequenceNumber DbIter.last DbIter.new
  simp only
  rw [slice_stream h hL hst]
  simp only [List.length_map]
  by_cases h0 : 0 < (L.stream st).length
  · rw [if_pos h0]
    simp only [DbIter.entry, List.getElem?_map]
    have hi : (L.stream st).length - 1 < (L.stream st).length := by omega
    rw [List.getElem?_eq_getElem hi]
    simp only [Option.map_some]
    generalize hr : (L.stream st)[(L.stream st).length - 1] = r
    have hseq : r.seq = L.streamLen st := by
      have h1 : ((L.stream st).map (·.seq))[(L.stream st).length - 1]'(by simpa using hi) = r.seq := by
        simp [hr]
      have h2 : ((L.stream st).map (·.seq))[(L.stream st).length - 1]? = some r.seq := by
        rw [List.getElem?_eq_getElem (by simpa using hi), h1]
      rw [hL.contiguous] at h2
      rw [List.getElem?_range' (by simpa [Log.streamLen] using hi)] at h2
      simp only [Option.some.injEq] at h2
      simp only [Log.streamLen]; omega
    have hlt : r.seq < 2 ^ 64 := by
      rw [hseq]; have := hL.streamLen_le st; have := h.bound; omega
    simp only [streamKey, getKeyWithNumber, List.length_append, uint64_length, List.drop_left']
    rw [if_pos (by omega), bytes_uint64 _ hlt, hseq]
  · rw [if_neg h0]
    simp only [DbIter.entry]
    simp only [Log.streamLen]; omega

theorem eventsByAggregateTypes_spec {s : State} {L : Log} (h : Sim N z s.db L) (hL : L.WF) (g : Nat)
    (hg : g < 2 ^ 64) (types : List Str) (hd : types.Nodup) (ht : ∀ t ∈ types, N.types t)
    (hm : s.muxHeld = false) :
    eventsByAggregateTypes z s (fun _ => none) g types =
      .ok ⟨L.recs.filter (fun r => decide (r.aggType ∈ types) && decide (r.gsn ≥ g)), none⟩ := by
  have hmap : types.map (fun t => getEventsByLookup z s.db none (getAggregateTypeKeyPrefix t) g)
      = types.map (fun t => (⟨(L.recs.filter (fun r => r.aggType = t)).filter (fun r => r.gsn ≥ g),
          none⟩ : Iter)) :=
    List.map_congr_left (fun t hmem => by rw [lookup_type h hL none g hg (ht t hmem)]; rfl)
  have hmerge : mergeIters (types.map (fun t =>
        getEventsByLookup z s.db none (getAggregateTypeKeyPrefix t) g)) =
      ⟨L.recs.filter (fun r => decide (r.aggType ∈ types) && decide (r.gsn ≥ g)), none⟩ := by
    rw [hmap]
    have hperm := flatMap_filter_perm L.recs (fun r => decide (r.gsn ≥ g)) types hd
    have hflat : (types.map (fun t => (⟨(L.recs.filter (fun r => r.aggType = t)).filter
          (fun r => r.gsn ≥ g), none⟩ : Iter))).flatMap (·.recs)
        = types.flatMap (fun t => (L.recs.filter (fun r => r.aggType = t)).filter
            (fun r => r.gsn ≥ g)) := by
      rw [List.flatMap_map]
    have : (mergeIters (types.map (fun t => (⟨(L.recs.filter (fun r => r.aggType = t)).filter
          (fun r => r.gsn ≥ g), none⟩ : Iter)))).recs =
        L.recs.filter (fun r => decide (r.aggType ∈ types) && decide (r.gsn ≥ g)) := by
      apply sorted_perm_eq
      · apply mergeIters_sorted
        · intro it hit
          rw [List.mem_map] at hit
          obtain ⟨t, _, rfl⟩ := hit
          exact (hL.sorted.filter _).filter _
        · rw [hflat]
          refine ((hperm.map _).nodup_iff).mpr ?_
          exact hL.nodup.sublist (List.Sublist.map _ List.filter_sublist)
      · exact hL.sorted.filter _
      · refine (mergeIters_perm _).trans ?_
        rw [hflat]; exact hperm
    unfold mergeIters at this ⊢
    simp only at this
    rw [this]
  unfold eventsByAggregateTypes
  rw [if_neg (by simp [hm])]
  match types, hd, ht, hmerge with
  | [], _, _, hm => exact congrArg _ hm
  | [t], _, ht, _ =>
    simp only [lookup_type h hL none g hg (ht t (by simp))]
    simp only [cut, List.filter_filter]
    congr 2
    apply List.filter_congr
    intro r _
    by_cases hr : r.aggType = t <;> simp [hr]
  | _ :: _ :: _, _, _, hm => exact congrArg _ hm

/-! ## Saving -/

/-- Membership after the batch of one event. -/
theorem mem_eventBatch {db : DB} (hs : Sorted db) (st : Str) (r : Record) (data k v : Str) :
    (k, v) ∈ apply db (eventBatch st r data) ↔
      (k = allKey r.gsn ∧ v = streamKey st r.seq) ∨ (k ≠ allKey r.gsn ∧
        ((k = typeKey r.aggType r.gsn ∧ v = streamKey st r.seq) ∨ (k ≠ typeKey r.aggType r.gsn ∧
          ((k = streamKey st r.seq ∧ v = data) ∨ (k ≠ streamKey st r.seq ∧
            ((k = globalSequenceNumberKey ∧ v = uint64ToBytes r.gsn) ∨
              (k ≠ globalSequenceNumberKey ∧ (k, v) ∈ db))))))) := by
  have s1 := put_sorted hs globalSequenceNumberKey (uint64ToBytes r.gsn)
  have s2 := put_sorted s1 (streamKey st r.seq) data
  have s3 := put_sorted s2 (typeKey r.aggType r.gsn) (streamKey st r.seq)
  rw [← mem_put hs, ← mem_put s1, ← mem_put s2, ← mem_put s3]
  rfl

theorem eventBatch_sorted {db : DB} (hs : Sorted db) (st : Str) (r : Record) (data : Str) :
    Sorted (apply db (eventBatch st r data)) :=
  put_sorted (put_sorted (put_sorted (put_sorted hs _ _) _ _) _ _) _ _

theorem save_one (hz : z.Lawful) {db : DB} {L : Log} (h : Sim N z db L) (hL : L.WF) {st : Str}
    {er : EventRecord} {b : Str} (hst : N.streams st) (ht : N.types er.event.aggType)
    (hb : L.last + 1 < 2 ^ 64)
    (hser : z.ser (mkRecord st (L.last + 1) (L.streamLen st + 1) er) = some b) :
    Sim N z (apply db (eventBatch st (mkRecord st (L.last + 1) (L.streamLen st + 1) er) b))
      (L.append z.view st [er]) := by
  generalize hrec : mkRecord st (L.last + 1) (L.streamLen st + 1) er = R at hser
  have hRg : R.gsn = L.last + 1 := by rw [← hrec]; rfl
  have hRq : R.seq = L.streamLen st + 1 := by rw [← hrec]; rfl
  have hRs : R.streamName = st := by rw [← hrec]; rfl
  have hRt : R.aggType = er.event.aggType := by rw [← hrec]; rfl
  have hrecs : (L.append z.view st [er]).recs = L.recs ++ [z.view R] := by
    simp [Log.append, numbered, hrec]
  have hmem := mem_eventBatch h.sorted st R b
  have hsl := hL.streamLen_le st
  have hq64 : R.seq < 2 ^ 64 := by omega
  have hg64 : R.gsn < 2 ^ 64 := by omega
  have hnew : ∀ r ∈ L.recs, streamKey r.streamName r.seq ≠ streamKey st R.seq := by
    intro r hr he
    have := streamKey_inj (h.seq_lt hL hr) hq64 he
    have h2 := hL.seq_mem hr
    rw [this.1, this.2] at h2
    omega
  have hgne : ∀ r ∈ L.recs, r.gsn ≠ R.gsn := by
    intro r hr he; have := hL.bounded r hr; omega
  have hallne : ∀ r ∈ L.recs, allKey r.gsn ≠ allKey R.gsn := fun r hr he =>
    hgne r hr (allKey_inj (h.gsn_lt hL hr) hg64 he)
  have htyne : ∀ r ∈ L.recs, typeKey r.aggType r.gsn ≠ typeKey R.aggType R.gsn := fun r hr he =>
    hgne r hr (typeKey_inj (h.gsn_lt hL hr) hg64 he).2
  refine ⟨eventBatch_sorted h.sorted _ _ _, ?_, ?_, ?_, ?_, ?_, ?_, ?_⟩
  · intro k v hkv
    rw [hrecs]
    rcases (hmem k v).mp hkv with ⟨rfl, rfl⟩ | ⟨_, ⟨rfl, rfl⟩ | ⟨_, ⟨rfl, rfl⟩ | ⟨_, ⟨rfl, rfl⟩ | ⟨_, hin⟩⟩⟩⟩
    · exact Or.inr ⟨z.view R, by simp, Or.inr (Or.inr (by simp [hz.gsn, hz.streamName, hz.seq, hRs]))⟩
    · exact Or.inr ⟨z.view R, by simp, Or.inr (Or.inl (by
        simp [hz.gsn, hz.streamName, hz.seq, hz.aggType, hRs]))⟩
    · exact Or.inr ⟨z.view R, by simp, Or.inl (by simp [hz.streamName, hz.seq, hRs])⟩
    · exact Or.inl rfl
    · rcases h.entries k v hin with hk | ⟨r, hr, hk⟩
      · exact Or.inl hk
      · exact Or.inr ⟨r, by simp [hr], hk⟩
  · have : (globalSequenceNumberKey, uint64ToBytes R.gsn) ∈ apply db (eventBatch st R b) := by
      rw [hmem]
      exact Or.inr ⟨(all_ne_gsn _).symm, Or.inr ⟨(type_ne_gsn _ _).symm,
        Or.inr ⟨(stream_ne_gsn _ _).symm, Or.inl ⟨rfl, rfl⟩⟩⟩⟩
    unfold getGlobalSequenceNumber
    rw [mem_get (eventBatch_sorted h.sorted _ _ _) this]
    simp only
    rw [bytes_uint64 _ hg64, hRg]
    rfl
  · intro r hr
    rw [hrecs, List.mem_append, List.mem_singleton] at hr
    rcases hr with hr | rfl
    · obtain ⟨v, hv, hd⟩ := h.data r hr
      refine ⟨v, (hmem _ _).mpr (Or.inr ⟨stream_ne_all _ _ _, Or.inr ⟨stream_ne_type _ _ _ _,
        Or.inr ⟨hnew r hr, Or.inr ⟨stream_ne_gsn _ _, hv⟩⟩⟩⟩), hd⟩
    · refine ⟨b, ?_, hz.roundTrip _ _ hser⟩
      rw [hz.streamName, hz.seq, hRs]
      exact (hmem _ _).mpr (Or.inr ⟨stream_ne_all _ _ _, Or.inr ⟨stream_ne_type _ _ _ _,
        Or.inl ⟨rfl, rfl⟩⟩⟩)
  · intro r hr
    rw [hrecs, List.mem_append, List.mem_singleton] at hr
    rcases hr with hr | rfl
    · exact (hmem _ _).mpr (Or.inr ⟨type_ne_all _ _ _, Or.inr ⟨htyne r hr,
        Or.inr ⟨(stream_ne_type _ _ _ _).symm, Or.inr ⟨type_ne_gsn _ _, h.types r hr⟩⟩⟩⟩)
    · rw [hz.streamName, hz.seq, hz.aggType, hz.gsn, hRs]
      exact (hmem _ _).mpr (Or.inr ⟨type_ne_all _ _ _, Or.inl ⟨rfl, rfl⟩⟩)
  · intro r hr
    rw [hrecs, List.mem_append, List.mem_singleton] at hr
    rcases hr with hr | rfl
    · exact (hmem _ _).mpr (Or.inr ⟨hallne r hr, Or.inr ⟨(type_ne_all _ _ _).symm,
        Or.inr ⟨(stream_ne_all _ _ _).symm, Or.inr ⟨all_ne_gsn _, h.all r hr⟩⟩⟩⟩)
    · rw [hz.streamName, hz.seq, hz.gsn, hRs]
      exact (hmem _ _).mpr (Or.inl ⟨rfl, rfl⟩)
  · intro r hr
    rw [hrecs, List.mem_append, List.mem_singleton] at hr
    rcases hr with hr | rfl
    · exact h.names r hr
    · rw [hz.streamName, hz.aggType, hRs, hRt]; exact ⟨hst, ht⟩
  · simp only [Log.append, List.length_singleton]; exact hb

theorem saveEvent_ok (hz : z.Lawful) {db : DB} {L : Log} (h : Sim N z db L) (hL : L.WF) {st : Str}
    {expected : Option Nat} {er : EventRecord} {b : Str} (hst : N.streams st)
    (ht : N.types er.event.aggType) (hb : L.last + 1 < 2 ^ 64)
    (hser : z.ser (mkRecord st (L.last + 1) (L.streamLen st + 1) er) = some b)
    (hexp : ∀ e, expected = some e → e = L.streamLen st) :
    ∃ db', saveEvent z db st expected false er = .ok (db', b, L.streamLen st + 1) ∧
      Sim N z db' (L.append z.view st [er]) := by
  refine ⟨apply db (eventBatch st (mkRecord st (L.last + 1) (L.streamLen st + 1) er) b), ?_,
    save_one hz h hL hst ht hb hser⟩
  unfold saveEvent
  simp only [Bool.false_eq_true, if_false, seqNumber_spec h hL hst]
  cases expected with
  | none => simp only [saveEvent.store, h.gsn, hser]; rfl
  | some e =>
    simp only [hexp e rfl, saveEvent.store, h.gsn, hser, ne_eq, not_true_eq_false, if_false]; rfl

theorem saveEvent_noser {db : DB} {L : Log} (h : Sim N z db L) (hL : L.WF) {st : Str}
    {expected : Option Nat} {er : EventRecord} (hst : N.streams st)
    (hser : z.ser (mkRecord st (L.last + 1) (L.streamLen st + 1) er) = none)
    (hexp : ∀ e, expected = some e → e = L.streamLen st) :
    saveEvent z db st expected false er = .error .serialize := by
  unfold saveEvent
  simp only [Bool.false_eq_true, if_false, seqNumber_spec h hL hst]
  cases expected with
  | none => simp only [saveEvent.store, h.gsn, hser]
  | some e => simp only [hexp e rfl, saveEvent.store, h.gsn, hser, ne_eq, not_true_eq_false, if_false]

theorem saveEvent_unexpected {db : DB} {L : Log} (h : Sim N z db L) (hL : L.WF) {st : Str}
    {e : Nat} {er : EventRecord} (hst : N.streams st) (hexp : e ≠ L.streamLen st) :
    saveEvent z db st (some e) false er = .error (.unexpected e (L.streamLen st)) := by
  unfold saveEvent
  simp only [Bool.false_eq_true, if_false, seqNumber_spec h hL hst, ne_eq, hexp, not_false_eq_true,
    if_true]

theorem saveLoop_spec (hz : z.Lawful) {L0 : Log} (hL0 : L0.WF) {st : Str} (hst : N.streams st)
    (cancelAt exp0 : Option Nat) :
    ∀ (ers done : List EventRecord) (db : DB) (pending : List Str) (prev : Option EventRecord)
      (pt pid : Str) (last : Nat),
      (∀ er ∈ ers, N.types er.event.aggType) →
      L0.last + (done ++ ers).length < 2 ^ 64 →
      Sim N z db (L0.append z.view st done) →
      pending.filterMap z.deser = (numbered st L0.last (L0.streamLen st) done).map z.view →
      last = (if done = [] then 0 else L0.streamLen st + done.length) →
      ((prev = none ∧ pt = [] ∧ pid = []) ∨
        ∃ p, prev = some p ∧ pt = p.event.aggType ∧ pid = p.event.aggId) →
      let res := saveLoop z st cancelAt done.length db pt pid (exp0.map (· + done.length))
        pending last ers
      let fp := firstProblem z.ser st cancelAt (L0.last + done.length)
        (L0.streamLen st + done.length) (exp0.map (· + done.length)) done.length prev ers
      (fp = none → ∃ db' pend, res = .ok (db', pend, (if done ++ ers = [] then 0 else
            L0.streamLen st + (done ++ ers).length)) ∧
          Sim N z db' (L0.append z.view st (done ++ ers)) ∧
          pend.filterMap z.deser
            = (numbered st L0.last (L0.streamLen st) (done ++ ers)).map z.view) ∧
      (∀ j e, fp = some (j, e) → res = .error e) := by
  intro ers
  induction ers with
  | nil =>
    intro done db pending prev pt pid last _ _ hs hp hlast _
    simp only [firstProblem, saveLoop, List.append_nil]
    refine ⟨fun _ => ⟨db, pending, by rw [hlast], hs, hp⟩, by simp⟩
  | cons er ers ih =>
    intro done db pending prev pt pid last hn hbd hs hp hlast hprev
    have hlen : (L0.append z.view st done).streamLen st = L0.streamLen st + done.length :=
      Log.streamLen_append_self hz L0 st done
    have hWF : (L0.append z.view st done).WF := hL0.append hz st done
    have hlastE : (L0.append z.view st done).last = L0.last + done.length := rfl
    simp only [firstProblem, saveLoop]
    have hc1 : differs Event.aggType prev er = true ↔
        (pt ≠ [] ∧ pt ≠ er.event.aggType) := by
      rcases hprev with ⟨rfl, rfl, rfl⟩ | ⟨p, rfl, rfl, rfl⟩ <;> simp [differs]
    have hc2 : differs Event.aggId prev er = true ↔
        (pid ≠ [] ∧ pid ≠ er.event.aggId) := by
      rcases hprev with ⟨rfl, rfl, rfl⟩ | ⟨p, rfl, rfl, rfl⟩ <;> simp [differs]
    by_cases h1 : pt ≠ [] ∧ pt ≠ er.event.aggType
    · rw [if_pos h1, problem_type (hc1.mpr h1)]
      refine ⟨by simp, ?_⟩
      rintro j e ⟨⟩; rfl
    have h1' : ¬ differs Event.aggType prev er = true := fun h => h1 (hc1.mp h)
    rw [if_neg h1]
    by_cases h2 : pid ≠ [] ∧ pid ≠ er.event.aggId
    · rw [if_pos h2, problem_id h1' (hc2.mpr h2)]
      refine ⟨by simp, ?_⟩
      rintro j e ⟨⟩; rfl
    have h2' : ¬ differs Event.aggId prev er = true := fun h => h2 (hc2.mp h)
    rw [if_neg h2]
    by_cases h3 : ctxDone cancelAt done.length
    · rw [problem_ctx h1' h2' h3, h3]
      refine ⟨by simp, ?_⟩
      rintro j e ⟨⟩
      simp [saveEvent]
    have h3' : ctxDone cancelAt done.length = false := by simpa using h3
    rw [h3']
    by_cases h4 : ∀ e, (exp0.map (· + done.length)) = some e → e = L0.streamLen st + done.length
    · rw [problem_ser h1' h2' h3 h4]
      cases hser : z.ser (mkRecord st (L0.last + done.length + 1)
          (L0.streamLen st + done.length + 1) er) with
      | none =>
        rw [saveEvent_noser hs hWF hst (by rw [hlen, hlastE]; exact hser) (by rw [hlen]; exact h4)]
        simp only [Option.isSome_none, Bool.false_eq_true, if_false]
        refine ⟨by simp, ?_⟩
        rintro j e ⟨⟩; rfl
      | some b =>
        obtain ⟨db', hse, hsim⟩ := saveEvent_ok hz hs hWF (st := st) (er := er) (b := b) hst
          (hn er (by simp)) (by rw [hlastE]; simp at hbd; omega)
          (by rw [hlen, hlastE]; exact hser) (by rw [hlen]; exact h4)
        rw [hse]
        simp only [Option.isSome_some, if_true]
        rw [Log.append_append hz] at hsim
        have hnum : numbered st L0.last (L0.streamLen st) (done ++ [er]) =
            numbered st L0.last (L0.streamLen st) done ++
              [mkRecord st (L0.last + done.length + 1) (L0.streamLen st + done.length + 1) er] := by
          rw [numbered_append]; rfl
        have hib := ih (done ++ [er]) db' (pending ++ [b]) (some er) er.event.aggType er.event.aggId
          (L0.streamLen st + done.length + 1) (fun e he => hn e (by simp [he]))
          (by simpa using hbd) hsim
          (by rw [List.filterMap_append, hp, hnum, List.map_append]
              simp [hz.roundTrip _ _ hser])
          (by simp; omega) (Or.inr ⟨er, rfl, rfl, rfl⟩)
        have hmap : (exp0.map (· + done.length)).map (· + 1)
            = exp0.map (· + (done ++ [er]).length) := by
          cases exp0 with
          | none => rfl
          | some e => simp; omega
        simp only [List.append_assoc, List.cons_append, List.nil_append] at hib
        have hl1 : (done ++ [er]).length = done.length + 1 := by simp
        rw [hmap, hlen]
        rw [hl1] at hib ⊢
        exact hib
    · obtain ⟨e, he, hne⟩ : ∃ e, exp0.map (· + done.length) = some e ∧
          e ≠ L0.streamLen st + done.length := by
        apply Classical.byContradiction
        intro hno
        apply h4
        intro e he
        apply Classical.byContradiction
        intro hne
        exact hno ⟨e, he, hne⟩
      rw [problem_unexpected h1' h2' h3 he hne, he]
      rw [saveEvent_unexpected hs hWF hst (by rw [hlen]; exact hne), hlen]
      refine ⟨by simp, ?_⟩
      rintro j e' ⟨⟩; rfl

theorem saveEvents_spec (hz : z.Lawful) {s : State} {L : Log} (hL : L.WF) (h : Sim N z s.db L)
    (hm : s.muxHeld = false) (ht : s.txOpen = false) {st : Str} (hst : N.streams st)
    (expected cancelAt : Option Nat) (ers : List EventRecord)
    (hn : ∀ er ∈ ers, N.types er.event.aggType) (hbd : L.last + ers.length < 2 ^ 64)
    (hne : ers ≠ []) :
    (batchProblem z L st expected cancelAt ers = none →
      (saveEvents z s st expected cancelAt ers).out = .ok (L.streamLen st + ers.length) ∧
      (∃ db', (saveEvents z s st expected cancelAt ers).state = { s with db := db' } ∧
        Sim N z db' (L.append z.view st ers)) ∧
      (saveEvents z s st expected cancelAt ers).broadcast
        = (numbered st L.last (L.streamLen st) ers).map z.view) ∧
    (∀ j e, batchProblem z L st expected cancelAt ers = some (j, e) →
      saveEvents z s st expected cancelAt ers = ⟨s, .err e, []⟩) := by
  have h0 : L.append z.view st [] = L := by simp [Log.append, numbered]
  have hloop := saveLoop_spec hz hL hst cancelAt expected ers [] s.db [] none [] [] 0 hn
    (by simpa using hbd) (by rw [h0]; exact h) rfl rfl (Or.inl ⟨rfl, rfl, rfl⟩)
  have hmm : expected.map (fun x => x) = expected := by
    cases expected <;> simp
  have hlen : ¬ ers.length < 1 := by
    cases ers with
    | nil => exact absurd rfl hne
    | cons a b => simp
  simp only [List.length_nil, Nat.add_zero, List.nil_append, hmm] at hloop
  unfold saveEvents
  rw [if_neg hlen, hm, ht]
  simp only [Bool.false_eq_true, if_false]
  refine ⟨fun hp => ?_, fun j e hp => ?_⟩
  · obtain ⟨db', pend, hr, hsim, hb⟩ := hloop.1 hp
    rw [hr]
    simp only [hne, if_false]
    exact ⟨trivial, ⟨db', rfl, hsim⟩, hb⟩
  · rw [hloop.2 j e hp]

/-! ## Deleting -/

/-- The writes that remove one record. -/
def delWrites (kv : Record → Str × Str) (r : Record) : List Write :=
  [.del (kv r).1, .del (typeKey r.aggType r.gsn), .del (allKey r.gsn)]

theorem deleteLoop_spec (kv : Record → Str × Str) (recs : List Record)
    (h : ∀ r ∈ recs, z.deser (kv r).2 = some r) : ∀ cnt batch,
    deleteLoop z cnt batch (recs.map kv)
      = .ok (cnt + recs.length, batch ++ recs.flatMap (delWrites kv)) := by
  induction recs with
  | nil => intro cnt batch; simp [deleteLoop]
  | cons r rs ih =>
    intro cnt batch
    have hd := h r (by simp)
    have ih' := ih (fun r' hr' => h r' (by simp [hr']))
    rw [List.map_cons]
    simp only [deleteLoop, hd, ih', List.length_cons, List.flatMap_cons, List.append_assoc]
    simp only [delWrites, typeKey, allKey]
    congr 2
    omega

theorem apply_dels : ∀ (batch : List Write) (db : DB), (∀ w ∈ batch, ∃ k, w = .del k) → Sorted db →
    Sorted (apply db batch) ∧
    ∀ k v, (k, v) ∈ apply db batch ↔ (k, v) ∈ db ∧ Write.del k ∉ batch := by
  intro batch
  induction batch with
  | nil => intro db _ hs; simp [apply, hs]
  | cons w ws ih =>
    intro db hw hs
    obtain ⟨k0, rfl⟩ := hw w (by simp)
    have hx := ih (del db k0) (fun w hw' => hw w (by simp [hw'])) (del_sorted hs k0)
    have happ : apply db (Write.del k0 :: ws) = apply (del db k0) ws := rfl
    rw [happ]
    refine ⟨hx.1, ?_⟩
    intro k v
    rw [hx.2, mem_del]
    simp only [List.mem_cons, Write.del.injEq, not_or]
    constructor
    · rintro ⟨⟨h1, h2⟩, h3⟩; exact ⟨h2, h1, h3⟩
    · rintro ⟨h1, h2, h3⟩; exact ⟨⟨h2, h1⟩, h3⟩

theorem delete_sim {db : DB} {L : Log} (h : Sim N z db L) (hL : L.WF) (st : Str)
    (kv : Record → Str × Str) (hkv : ∀ r, (kv r).1 = streamKey st r.seq) :
    Sim N z (apply db ((L.stream st).flatMap (delWrites kv))) (L.delete st) := by
  have hd := apply_dels ((L.stream st).flatMap (delWrites kv)) db (by
    intro w hw
    rw [List.mem_flatMap] at hw
    obtain ⟨r, _, hr⟩ := hw
    simp only [delWrites, List.mem_cons, List.not_mem_nil, or_false] at hr
    rcases hr with rfl | rfl | rfl <;> exact ⟨_, rfl⟩) h.sorted
  have hdel : ∀ k, Write.del k ∈ (L.stream st).flatMap (delWrites kv) ↔ ∃ r ∈ L.recs,
      r.streamName = st ∧ (k = streamKey st r.seq ∨ k = typeKey r.aggType r.gsn ∨
        k = allKey r.gsn) := by
    intro k
    simp only [List.mem_flatMap, Log.stream, List.mem_filter, decide_eq_true_eq, delWrites,
      List.mem_cons, Write.del.injEq, List.not_mem_nil, or_false, hkv]
    constructor
    · rintro ⟨r, ⟨h1, h2⟩, h3⟩; exact ⟨r, h1, h2, h3⟩
    · rintro ⟨r, h1, h2, h3⟩; exact ⟨r, ⟨h1, h2⟩, h3⟩
  have hsurv : ∀ r ∈ (L.delete st).recs, r ∈ L.recs ∧ r.streamName ≠ st := by
    intro r hr
    simpa [Log.delete] using hr
  have hst : ∀ r ∈ L.recs, r.streamName ≠ st →
      Write.del (streamKey r.streamName r.seq) ∉ (L.stream st).flatMap (delWrites kv) := by
    intro r hr hne hin
    obtain ⟨r', hr', h1, h2 | h2 | h2⟩ := (hdel _).mp hin
    · exact hne (streamKey_inj (h.seq_lt hL hr) (h.seq_lt hL hr') h2).1
    · exact stream_ne_type _ _ _ _ h2
    · exact stream_ne_all _ _ _ h2
  have hty : ∀ r ∈ L.recs, r.streamName ≠ st →
      Write.del (typeKey r.aggType r.gsn) ∉ (L.stream st).flatMap (delWrites kv) := by
    intro r hr hne hin
    obtain ⟨r', hr', h1, h2 | h2 | h2⟩ := (hdel _).mp hin
    · exact stream_ne_type _ _ _ _ h2.symm
    · have := (typeKey_inj (h.gsn_lt hL hr) (h.gsn_lt hL hr') h2).2
      rw [hL.gsn_inj hr hr' this] at hne
      exact hne h1
    · exact type_ne_all _ _ _ h2
  have hal : ∀ r ∈ L.recs, r.streamName ≠ st →
      Write.del (allKey r.gsn) ∉ (L.stream st).flatMap (delWrites kv) := by
    intro r hr hne hin
    obtain ⟨r', hr', h1, h2 | h2 | h2⟩ := (hdel _).mp hin
    · exact stream_ne_all _ _ _ h2.symm
    · exact type_ne_all _ _ _ h2.symm
    · have := allKey_inj (h.gsn_lt hL hr) (h.gsn_lt hL hr') h2
      rw [hL.gsn_inj hr hr' this] at hne
      exact hne h1
  refine ⟨hd.1, ?_, ?_, ?_, ?_, ?_, ?_, h.bound⟩
  · intro k v hin
    have hin' := (hd.2 k v).mp hin
    rcases h.entries k v hin'.1 with hk | ⟨r, hr, hk⟩
    · exact Or.inl hk
    · right
      by_cases hs : r.streamName = st
      · exfalso
        apply hin'.2
        rw [hdel]
        refine ⟨r, hr, hs, ?_⟩
        rcases hk with hk | hk | hk
        · rw [← hs]; exact Or.inl hk
        · exact Or.inr (Or.inl hk.1)
        · exact Or.inr (Or.inr hk.1)
      · exact ⟨r, by simp [Log.delete, hr, hs], hk⟩
  · have hk : Write.del globalSequenceNumberKey ∉ (L.stream st).flatMap (delWrites kv) := by
      intro hin
      obtain ⟨r', hr', h1, h2 | h2 | h2⟩ := (hdel _).mp hin
      · exact stream_ne_gsn _ _ h2.symm
      · exact type_ne_gsn _ _ h2.symm
      · exact all_ne_gsn _ h2.symm
    have heq : get (apply db ((L.stream st).flatMap (delWrites kv))) globalSequenceNumberKey
        = get db globalSequenceNumberKey := by
      cases hg : get db globalSequenceNumberKey with
      | some v => exact mem_get hd.1 ((hd.2 _ _).mpr ⟨get_mem hg, hk⟩)
      | none =>
        apply get_none
        intro v hv
        have := mem_get h.sorted ((hd.2 _ _).mp hv).1
        rw [hg] at this; simp at this
    have := h.gsn
    unfold getGlobalSequenceNumber at this ⊢
    rw [heq]
    exact this
  · intro r hr
    obtain ⟨h1, h2⟩ := hsurv r hr
    obtain ⟨v, hv, hdz⟩ := h.data r h1
    exact ⟨v, (hd.2 _ _).mpr ⟨hv, hst r h1 h2⟩, hdz⟩
  · intro r hr
    obtain ⟨h1, h2⟩ := hsurv r hr
    exact (hd.2 _ _).mpr ⟨h.types r h1, hty r h1 h2⟩
  · intro r hr
    obtain ⟨h1, h2⟩ := hsurv r hr
    exact (hd.2 _ _).mpr ⟨h.all r h1, hal r h1 h2⟩
  · intro r hr
    exact h.names r (hsurv r hr).1

theorem deleteStream_spec {s : State} {L : Log} (hL : L.WF) (h : Sim N z s.db L)
    (hm : s.muxHeld = false) (ht : s.txOpen = false) {st : Str} (hst : N.streams st)
    (expected : Nat) :
    (L.streamLen st = 0 →
      deleteStream z s st expected false = ({ s with txOpen := true }, .err .notFound)) ∧
    (L.streamLen st ≠ 0 → expected ≠ L.streamLen st →
      deleteStream z s st expected false
        = ({ s with txOpen := true }, .err (.unexpected expected (L.streamLen st)))) ∧
    (L.streamLen st ≠ 0 → expected = L.streamLen st →
      ∃ db', deleteStream z s st expected false = ({ s with db := db' }, .ok ()) ∧
        Sim N z db' (L.delete st)) := by
  have hloop : deleteLoop z 0 [] (DbIter.each ((DbIter.new s.db (getStreamKeyPrefix st)).items.length + 1)
      (DbIter.new s.db (getStreamKeyPrefix st))) = .ok (L.streamLen st, (L.stream st).flatMap
        (delWrites (fun r => (streamKey st r.seq, (get s.db (streamKey st r.seq)).getD [])))) := by
    simp only [DbIter.new]
    rw [DbIter.each_soi _ _ (by simp), slice_stream h hL hst,
      deleteLoop_spec _ (L.stream st)]
    · simp [Log.streamLen]
    · intro r hr
      have hmm := List.mem_filter.mp hr
      simp only [decide_eq_true_eq] at hmm
      have := (h.get_data hmm.1).1
      rw [hmm.2] at this
      exact this
  unfold deleteStream
  simp only [Bool.false_eq_true, if_false, hm, ht, hloop]
  refine ⟨fun h0 => by rw [if_pos h0], fun h0 hx => by
    rw [if_neg h0, if_pos (fun h => hx h.symm)], fun h0 hx => ?_⟩
  rw [if_neg h0, if_neg (by simp [hx])]
  refine ⟨_, rfl, ?_⟩
  exact delete_sim h hL st _ (fun _ => rfl)

/-! ## Histories -/

/-- The state represents the specified store. -/
structure SimA (N : Names) (z : Serializer) (s : State) (A : AState) : Prop where
  sim : Sim N z s.db A.log
  wf : A.log.WF
  tx : s.txOpen = A.leaked
  mux : s.muxHeld = A.stuck
  stuck : A.stuck = true → A.leaked = true

theorem simA_init : SimA N z init AState.init where
  sim := sim_init
  wf := Log.WF.empty
  tx := rfl
  mux := rfl
  stuck := by simp [AState.init]

theorem step_simA (hz : z.Lawful) {s : State} {A : AState} (h : SimA N z s A) (op : Op)
    (hn : op.NamesIn N) (hb : A.log.last + op.size < 2 ^ 64) :
    SimA N z (step z s op) (aStep z A op) ∧ (aStep z A op).log.last ≤ A.log.last + op.size := by
  obtain ⟨hs, hw, htx, hmx, hst⟩ := h
  cases op with
  | save st expected cancelAt ers =>
    simp only [step, aStep, Op.size] at hb ⊢
    by_cases hne : ers = []
    · subst hne
      simp only [if_true]
      exact ⟨by simpa [saveEvents] using ⟨hs, hw, htx, hmx, hst⟩, by omega⟩
    · rw [if_neg hne]
      have hlen : ¬ ers.length < 1 := by
        cases ers with
        | nil => exact absurd rfl hne
        | cons a b => simp
      cases hl : A.leaked with
      | true =>
        refine ⟨?_, by simp⟩
        simp only [if_true]
        cases hmu : s.muxHeld with
        | true =>
          simp only [saveEvents, if_neg hlen, hmu, if_true]
          exact ⟨hs, hw, htx.trans hl, hmu, fun _ => rfl⟩
        | false =>
          simp only [saveEvents, if_neg hlen, hmu, htx, hl, if_true, Bool.false_eq_true, if_false]
          exact ⟨hs, hw, rfl, rfl, fun _ => rfl⟩
      | false =>
        have hmu : s.muxHeld = false := by
          rw [hmx]; cases hx : A.stuck with
          | false => rfl
          | true => rw [hst hx] at hl; simp at hl
        have hsp := saveEvents_spec hz hw hs hmu (htx.trans hl) hn.1 expected cancelAt ers hn.2 hb hne
        simp only [Bool.false_eq_true, if_false]
        cases hp : batchProblem z A.log st expected cancelAt ers with
        | none =>
          obtain ⟨_, ⟨db', h1, h2⟩, _⟩ := hsp.1 hp
          rw [h1]
          exact ⟨⟨h2, hw.append hz st ers, htx.trans hl, hmx, fun hh => by
            have := hst hh; rw [hl] at this; exact this⟩, by simp [Log.append]⟩
        | some je =>
          obtain ⟨j, e⟩ := je
          rw [hsp.2 j e hp]
          exact ⟨⟨hs, hw, htx, hmx, hst⟩, by simp⟩
  | delete st expected cancelled =>
    simp only [step, aStep, Op.size] at hb ⊢
    cases cancelled with
    | true => simp only [deleteStream, if_true]; exact ⟨⟨hs, hw, htx, hmx, hst⟩, by simp⟩
    | false =>
      simp only [Bool.false_eq_true, if_false]
      cases hl : A.leaked with
      | true =>
        refine ⟨?_, by simp⟩
        simp only [if_true]
        cases hmu : s.muxHeld with
        | true =>
          simp only [deleteStream, hmu, if_true, Bool.false_eq_true, if_false]
          exact ⟨hs, hw, htx.trans hl, hmu, fun _ => rfl⟩
        | false =>
          simp only [deleteStream, hmu, htx, hl, if_true, Bool.false_eq_true, if_false]
          exact ⟨hs, hw, rfl, rfl, fun _ => rfl⟩
      | false =>
        have hmu : s.muxHeld = false := by
          rw [hmx]; cases hx : A.stuck with
          | false => rfl
          | true => rw [hst hx] at hl; simp at hl
        have hsp := deleteStream_spec hw hs hmu (htx.trans hl) (show N.streams st from hn) expected
        simp only [Bool.false_eq_true, if_false]
        by_cases h0 : A.log.streamLen st = 0
        · rw [if_pos (Or.inl h0), hsp.1 h0]
          exact ⟨⟨hs, hw, rfl, hmx, fun _ => rfl⟩, by simp⟩
        · by_cases hx : expected = A.log.streamLen st
          · rw [if_neg (by simp [h0, hx])]
            obtain ⟨db', h1, h2⟩ := hsp.2.2 h0 hx
            rw [h1]
            exact ⟨⟨h2, hw.delete st, htx.trans hl, hmx, fun hh => by
              have := hst hh; rw [hl] at this; exact this⟩, by simp [Log.delete]⟩
          · rw [if_pos (Or.inr hx), hsp.2.1 h0 hx]
            exact ⟨⟨hs, hw, rfl, hmx, fun _ => rfl⟩, by simp⟩

theorem foldl_simA (hz : z.Lawful) (ops : List Op) : ∀ (s : State) (A : AState),
    (∀ op ∈ ops, op.NamesIn N) → A.log.last + (ops.map Op.size).sum < 2 ^ 64 → SimA N z s A →
    SimA N z (ops.foldl (step z) s) (ops.foldl (aStep z) A) ∧
    (ops.foldl (aStep z) A).log.last ≤ A.log.last + (ops.map Op.size).sum := by
  induction ops with
  | nil => intro s A _ _ h; exact ⟨h, by simp⟩
  | cons op ops ih =>
    intro s A hn hb h
    simp only [List.map_cons, List.sum_cons] at hb
    have h1 := step_simA hz h op (hn op (by simp)) (by omega)
    have h2 := ih (step z s op) (aStep z A op) (fun o ho => hn o (by simp [ho])) (by omega) h1.1
    simp only [List.foldl_cons, List.map_cons, List.sum_cons]
    exact ⟨h2.1, by omega⟩

/-- Every history on names that do not clash with fewer than 2^64 events leaves the store in a state that
represents the specified one. -/
theorem run_simA (hz : z.Lawful) (ops : List Op) (hn : ∀ op ∈ ops, op.NamesIn N)
    (hb : (ops.map Op.size).sum < 2 ^ 64) :
    SimA N z (run z ops) (aRun z ops) ∧ (aRun z ops).log.last ≤ (ops.map Op.size).sum := by
  have := foldl_simA hz ops init AState.init hn (by simpa [AState.init, Log.empty] using hb) simA_init
  refine ⟨this.1, ?_⟩
  have h2 := this.2
  simp only [AState.init, Log.empty, Nat.zero_add] at h2
  exact h2

end RangeDB.LD

import Verif.Thm.InMemory

/-! # Exactly what the in-memory store's rollback does (C07) -/

namespace RangeDB.IM

open Demo

variable {z : Serializer}

/-! ## Lemmas -/

theorem saveEvent_gsn {s s1 : State} {st : Str} {ex : Option Nat} {er : EventRecord} {b : Str} {r : Record}
    (h : saveEvent z s st ex er = (s1, .ok (b, r))) : s1.gsn = s.gsn + 1 ∧ r.gsn = s.gsn + 1 := by
  have key : ∀ q, saveEvent.store z s st q er = (s1, .ok (b, r)) → s1.gsn = s.gsn + 1 ∧ r.gsn = s.gsn + 1 := by
    intro q hq
    unfold saveEvent.store at hq
    simp only at hq
    split at hq
    · simp at hq
    · simp only [Prod.mk.injEq, Except.ok.injEq] at hq
      obtain ⟨rfl, _, rfl⟩ := hq
      exact ⟨rfl, rfl⟩
  unfold saveEvent at h
  cases ex with
  | none => exact key _ h
  | some e =>
    simp only at h
    split at h
    · simp at h
    · exact key _ h

/-- A batch whose first events are stored goes on with the others. -/
theorem saveLoop_append (st : Str) (cancelAt : Option Nat) (rest : List EventRecord) :
    ∀ (pre : List EventRecord) (i : Nat) (s : State) (pt pid : Str) (ex : Option Nat) (created : List Nat)
      (pending : List Str) (last : Nat) (s' : State) (l : Nat) (p : List Str),
      saveLoop z st cancelAt i s pt pid ex created pending last pre = (s', .ok (l, p)) →
      ∃ pt' pid', (pt' = pt ∨ ∃ er ∈ pre, pt' = er.event.aggType) ∧
        (pid' = pid ∨ ∃ er ∈ pre, pid' = er.event.aggId) ∧
        saveLoop z st cancelAt i s pt pid ex created pending last (pre ++ rest) =
          saveLoop z st cancelAt (i + pre.length) s' pt' pid' (ex.map (· + pre.length))
            (created ++ List.range' (s.gsn + 1) pre.length) p l rest
  | [], i, s, pt, pid, ex, created, pending, last, s', l, p, h => by
    simp only [saveLoop, Prod.mk.injEq, Outcome.ok.injEq] at h
    obtain ⟨rfl, rfl, rfl⟩ := h
    refine ⟨pt, pid, Or.inl rfl, Or.inl rfl, ?_⟩
    cases ex <;> simp
  | er :: pre, i, s, pt, pid, ex, created, pending, last, s', l, p, h => by
    simp only [saveLoop] at h
    split at h
    · simp at h
    rename_i h1
    split at h
    · simp at h
    rename_i h2
    split at h
    · simp at h
    rename_i h3
    split at h
    · split at h <;> simp at h
    rename_i s1 b r hse
    obtain ⟨pt', pid', ht, hi, he⟩ := saveLoop_append st cancelAt rest pre _ _ _ _ _ _ _ _ _ _ _ h
    obtain ⟨hg1, hg2⟩ := saveEvent_gsn hse
    refine ⟨pt', pid', ?_, ?_, ?_⟩
    · right
      rcases ht with h | ⟨e, hm, h⟩
      · exact ⟨er, List.mem_cons_self, h⟩
      · exact ⟨e, List.mem_cons_of_mem _ hm, h⟩
    · right
      rcases hi with h | ⟨e, hm, h⟩
      · exact ⟨er, List.mem_cons_self, h⟩
      · exact ⟨e, List.mem_cons_of_mem _ hm, h⟩
    · rw [List.cons_append]
      conv => lhs; unfold saveLoop
      rw [if_neg h1, if_neg h2, if_neg h3, hse]
      simp only
      rw [he, hg1, hg2]
      have e1 : i + 1 + pre.length = i + (er :: pre).length := by simp; omega
      have e2 : (ex.map (· + 1)).map (· + pre.length) = ex.map (· + (er :: pre).length) := by
        cases ex with
        | none => rfl
        | some e => simp; omega
      have e3 : created ++ [s.gsn + 1] ++ List.range' (s.gsn + 1 + 1) pre.length =
          created ++ List.range' (s.gsn + 1) (er :: pre).length := by
        simp [List.range'_succ]
      rw [e1, e2, e3]

theorem firstProblem_split (ser : Record → Option Str) (st : Str) (cancelAt : Option Nat) :
    ∀ (ers : List EventRecord) (g q : Nat) (ex : Option Nat) (i : Nat) (prev : Option EventRecord)
      (j : Nat) (e : Err), firstProblem ser st cancelAt g q ex i prev ers = some (j, e) →
      ∃ k er post, j = i + k ∧ ers = ers.take k ++ er :: post ∧ k < ers.length ∧
        firstProblem ser st cancelAt g q ex i prev (ers.take k) = none ∧
        ∃ prev', problem (ser (mkRecord st (g + k + 1) (q + k + 1) er)).isSome (q + k) (ex.map (· + k)) cancelAt
          (i + k) prev' er = some e
  | [], _, _, _, _, _, _, _, h => by simp [firstProblem] at h
  | er :: ers, g, q, ex, i, prev, j, e, h => by
    unfold firstProblem at h
    split at h
    · rename_i e' hp
      simp only [Option.some.injEq, Prod.mk.injEq] at h
      obtain ⟨rfl, rfl⟩ := h
      refine ⟨0, er, ers, rfl, rfl, by simp, rfl, prev, ?_⟩
      have : ex.map (fun x => x + 0) = ex := by cases ex <;> simp
      rw [this]; exact hp
    · rename_i hp
      obtain ⟨k, er', post, h1, h2, h3, h4, prev', h5⟩ := firstProblem_split ser st cancelAt ers _ _ _ _ _ _ _ h
      refine ⟨k + 1, er', post, by omega, ?_, by simp; omega, ?_, prev', ?_⟩
      · rw [List.take_succ_cons, List.cons_append, ← h2]
      · rw [List.take_succ_cons]
        unfold firstProblem
        rw [hp]
        exact h4
      · have e2 : (ex.map (· + 1)).map (· + k) = ex.map (· + (k + 1)) := by
          cases ex with
          | none => rfl
          | some e => simp; omega
        rw [e2] at h5
        rw [show g + (k + 1) + 1 = g + 1 + k + 1 from by omega, show q + (k + 1) + 1 = q + 1 + k + 1 from by omega,
          show q + (k + 1) = q + 1 + k from by omega, show i + (k + 1) = i + 1 + k from by omega]
        exact h5

theorem problem_serialize {acc : Bool} {len i : Nat} {expected cancelAt : Option Nat} {prev : Option EventRecord}
    {er : EventRecord} (h : problem acc len expected cancelAt i prev er = some .serialize) :
    acc = false ∧ ctxDone cancelAt i = false ∧ ∀ e, expected = some e → e = len := by
  unfold problem at h
  split at h
  · simp at h
  split at h
  · simp at h
  split at h
  · simp at h
  rename_i hc
  cases expected with
  | none =>
    simp only at h
    cases acc with
    | true => simp at h
    | false => exact ⟨rfl, by simpa using hc, by simp⟩
  | some e =>
    simp only at h
    split at h
    · simp at h
    rename_i hne
    cases acc with
    | true => simp at h
    | false => exact ⟨rfl, by simpa using hc, by rintro e' ⟨⟩; simpa using hne⟩

/-- A save whose event number `j` is the first that the serializer rejects stores the events before it and
then rolls back. -/
theorem save_rejected (hz : z.Lawful) {s : State} {L : Log} (hL : L.WF) (h : Sim z s L) (st : Str)
    (expected cancelAt : Option Nat) (ers : List EventRecord) {T I : Str}
    (hsame : ∀ er ∈ ers, er.event.aggType = T ∧ er.event.aggId = I) {j : Nat}
    (hrej : batchProblem z L st expected cancelAt ers = some (j, .serialize)) :
    ∃ s1, Sim z s1 (L.append z.view st (ers.take j)) ∧ (ers.take j).length = j ∧
      saveEvents z s st expected cancelAt ers =
        match removeRecentEvents { s1 with gsn := s1.gsn + 1 } (List.range' (L.last + 1) j) T I with
        | (s2, true) => ⟨{ s2 with locked := true }, .panic, []⟩
        | (s2, false) => ⟨s2, .err .serialize, []⟩ := by
  obtain ⟨k, er, post, hj, hers, hk, hpre, prev', hprob⟩ := firstProblem_split _ _ _ _ _ _ _ _ _ _ _ hrej
  have hjk : j = k := by omega
  subst hjk
  obtain ⟨hser, hctx, hexp⟩ := problem_serialize hprob
  have htl : (ers.take j).length = j := by rw [List.length_take]; omega
  have h0 : L.append z.view st [] = L := by simp [Log.append, numbered]
  have hm : expected.map (fun x => x) = expected := by cases expected <;> simp
  have hloop := saveLoop_spec hz hL st cancelAt expected (ers.take j) [] s [] none [] [] 0
    (by rw [h0]; exact h) rfl rfl (by simp) (by
      right
      intro i
      simp only [List.length_nil, Nat.add_zero, hm]
      rw [show firstProblem z.ser st cancelAt L.last (L.streamLen st) expected 0 none (ers.take j) = none from hpre]
      simp)
    (Or.inl ⟨rfl, rfl, rfl, rfl⟩) (by simp)
  simp only [List.length_nil, Nat.add_zero, List.nil_append, numbered, List.map_nil, hm] at hloop
  obtain ⟨s1, pend, hr, hsim, _⟩ := hloop.1 hpre
  obtain ⟨pt', pid', hpt, hpid, hgo⟩ := saveLoop_append st cancelAt (er :: post) _ _ _ _ _ _ _ _ _ _ _ _ hr
  rw [← hers] at hgo
  refine ⟨s1, hsim, htl, ?_⟩
  have her : er ∈ ers := by rw [hers]; simp
  have hmem : ∀ e ∈ ers.take j, e ∈ ers := fun e he => List.mem_of_mem_take he
  have c1 : ¬ (pt' ≠ [] ∧ pt' ≠ er.event.aggType) := by
    rintro ⟨a, b⟩
    rcases hpt with rfl | ⟨e, he, rfl⟩
    · exact a rfl
    · exact b ((hsame e (hmem e he)).1.trans (hsame er her).1.symm)
  have c2 : ¬ (pid' ≠ [] ∧ pid' ≠ er.event.aggId) := by
    rintro ⟨a, b⟩
    rcases hpid with rfl | ⟨e, he, rfl⟩
    · exact a rfl
    · exact b ((hsame e (hmem e he)).2.trans (hsame er her).2.symm)
  have hlen : ¬ ers.length < 1 := by omega
  have hslen : (L.append z.view st (ers.take j)).streamLen st = L.streamLen st + j := by
    rw [Log.streamLen_append_self hz, htl]
  have hlast : (L.append z.view st (ers.take j)).last = L.last + j := by
    show L.last + (ers.take j).length = _
    rw [htl]
  have hse := saveEvent_noser hsim (st := st) (expected := expected.map (· + j)) (er := er)
    (by rw [hslen, hlast]; cases hx : z.ser (mkRecord st (L.last + j + 1) (L.streamLen st + j + 1) er) with
        | none => rfl
        | some b => rw [hx] at hser; simp at hser)
    (by rw [hslen]; exact hexp)
  unfold saveEvents
  rw [if_neg hlen, h.unlocked]
  simp only [Bool.false_eq_true, if_false]
  rw [hgo, htl]
  unfold saveLoop
  rw [if_neg c1, if_neg c2, if_neg (by simpa using hctx), hse]
  simp only [(hsame er her).1, (hsame er her).2, h.gsn, List.nil_append]
  generalize removeRecentEvents { s1 with gsn := s1.gsn + 1 } (List.range' (L.last + 1) j) T I = x
  obtain ⟨s2, b⟩ := x
  cases b <;> rfl

/-- The store after a rollback that took the events of stream `own` away instead of those of `st`. -/
structure Damaged (z : Serializer) (s : State) (L : Log) (st own : Str) (j : Nat) : Prop where
  unlocked : s.locked = false
  gsn : s.gsn = L.last + 1
  records : s.records = L.recs.map (·.gsn)
  data : ∀ r ∈ L.recs, ∃ b, s.data r.gsn = some b ∧ z.deser b = some r
  noData : ∀ g, g ∉ L.recs.map (·.gsn) → s.data g = none
  ownIds : get s.streams own = ((L.stream own).take (L.streamLen own - j)).map (·.gsn)
  stIds : get s.streams st = (L.stream st).map (·.gsn) ++ List.range' (L.last + 1) j
  others : ∀ n, n ≠ st → n ≠ own → get s.streams n = (L.stream n).map (·.gsn)
  aggTypes : ∀ t, get s.aggTypes t = (L.recs.filter (fun r => r.aggType = t)).map (·.gsn)

theorem removeRecent_wrong (hz : z.Lawful) {L : Log} (hL : L.WF) {s : State} {st T I : Str}
    {done : List EventRecord} (h : Sim z s (L.append z.view st done))
    (hT : ∀ er ∈ done, er.event.aggType = T) (hst : st ≠ getStream T I) :
    (L.streamLen (getStream T I) < done.length →
      (removeRecentEvents { s with gsn := s.gsn + 1 } (List.range' (L.last + 1) done.length) T I).2 = true) ∧
    (done.length ≤ L.streamLen (getStream T I) →
      ∃ s2, removeRecentEvents { s with gsn := s.gsn + 1 } (List.range' (L.last + 1) done.length) T I = (s2, false) ∧
        Damaged z s2 L st (getStream T I) done.length) := by
  have hnum := numbered_gsn_range st L.last (L.streamLen st) done
  have hnew : ((numbered st L.last (L.streamLen st) done).map z.view).map (·.gsn)
      = List.range' (L.last + 1) done.length := by rw [view_gsn_map hz, hnum]
  have hrec : s.records = L.recs.map (·.gsn) ++ List.range' (L.last + 1) done.length := by
    rw [h.records, ← hnew]; simp [Log.append]
  have hown : get s.streams (getStream T I) = (L.stream (getStream T I)).map (·.gsn) := by
    rw [h.streams, Log.stream_append_other hz L done (fun h => hst h.symm)]
  have htype : rTrim (get s.aggTypes T) done.length =
      some ((L.recs.filter (fun r => r.aggType = T)).map (·.gsn)) := by
    rw [h.aggTypes]
    simp only [Log.append, List.filter_append, List.map_append]
    apply rTrim_append
    rw [List.length_map, List.filter_eq_self.mpr]
    · simp
    · intro r hr
      rw [List.mem_map] at hr
      obtain ⟨r', h1, rfl⟩ := hr
      obtain ⟨er, h2, h3⟩ := numbered_aggType h1
      simp [hz.aggType, h3, hT er h2]
  have hol : ((L.stream (getStream T I)).map (·.gsn)).length = L.streamLen (getStream T I) := by
    simp [Log.streamLen]
  constructor
  · intro hlt
    unfold removeRecentEvents
    simp only [List.length_range']
    rw [hrec, rTrim_append _ _ _ (by simp)]
    simp only [hown]
    rw [show rTrim ((L.stream (getStream T I)).map (·.gsn)) done.length = none from by
      unfold rTrim; rw [if_neg (by rw [hol]; omega)]]
  · intro hle
    unfold removeRecentEvents
    simp only [List.length_range']
    rw [hrec, rTrim_append _ _ _ (by simp)]
    simp only [hown]
    rw [show rTrim ((L.stream (getStream T I)).map (·.gsn)) done.length =
        some (((L.stream (getStream T I)).take (L.streamLen (getStream T I) - done.length)).map (·.gsn)) from by
      unfold rTrim; rw [if_pos (by rw [hol]; omega), hol, List.map_take]]
    simp only [htype]
    refine ⟨_, rfl, ?_⟩
    constructor
    · exact h.unlocked
    · simp only [h.gsn, Log.append]; omega
    · rfl
    · intro r hr
      have hb := hL.bounded r hr
      simp only [foldl_erase]
      rw [if_neg]
      · exact h.data r (by simp [Log.append]; exact Or.inl hr)
      · rw [List.mem_range'_1]; omega
    · intro g hg
      simp only [foldl_erase]
      split
      · rfl
      · rename_i hg2
        apply h.noData
        simp only [Log.append, List.map_append, List.mem_append, not_or, hnew]
        exact ⟨hg, hg2⟩
    · simp only [get_setMap, if_true]
    · simp only [get_setMap, if_neg hst]
      rw [h.streams, Log.stream_append_self hz, List.map_append, hnew]
    · intro n h1 h2
      simp only [get_setMap, if_neg h2]
      rw [h.streams, Log.stream_append_other hz L done h1]
    · intro t
      simp only [get_setMap]
      split
      · rename_i ht; subst ht; rfl
      · rename_i ht
        rw [h.aggTypes]
        simp only [Log.append, List.filter_append]
        suffices h0 : ((numbered st L.last (L.streamLen st) done).map z.view).filter
            (fun r => r.aggType = t) = [] by rw [h0, List.append_nil]
        rw [List.filter_eq_nil_iff]
        intro r hr
        rw [List.mem_map] at hr
        obtain ⟨r', h1, rfl⟩ := hr
        obtain ⟨er, h2, h3⟩ := numbered_aggType h1
        simp only [hz.aggType, h3, hT er h2, decide_eq_true_eq]
        exact fun h' => ht h'.symm

/-- Reading numbers the first of which after the records has no data. -/
theorem recordsByIDs_missing (s : State) (keep : Record → Bool) (recs : List Record) (g : Nat) (rest : List Nat)
    (h : ∀ r ∈ recs, ∃ b, s.data r.gsn = some b ∧ z.deser b = some r) (hg : s.data g = none) :
    ∀ n, recordsByIDs z s none keep n (recs.map (·.gsn) ++ g :: rest) = ⟨recs.filter keep, some .recordMissing⟩ := by
  induction recs with
  | nil => intro n; simp [recordsByIDs, hg]
  | cons r rs ih =>
    intro n
    obtain ⟨b, hb1, hb2⟩ := h r (by simp)
    have ih' := ih (fun r' hr' => h r' (by simp [hr']))
    simp only [List.map_cons, List.cons_append, recordsByIDs, hb1, hb2]
    by_cases hk : keep r
    · simp only [hk, if_true, ctxDone, Bool.false_eq_true, if_false, ih', List.filter_cons_of_pos hk]
    · simp only [hk]
      rw [List.filter_cons_of_neg (by simpa using hk)]
      exact ih' n

/-- What reads show after such a rollback. -/
theorem Damaged.reads {s : State} {L : Log} {st own : Str} {j : Nat} (h : Damaged z s L st own j) (hL : L.WF)
    (hj : 0 < j) (hle : j ≤ L.streamLen own) :
    (∀ c g, events z s c g = cut c (L.recs.filter (fun r => r.gsn ≥ g))) ∧
    (∀ c g t, eventsByType z s c g t =
      cut c ((L.recs.filter (fun r => r.aggType = t)).filter (fun r => r.gsn ≥ g))) ∧
    (∀ n, n ≠ st → n ≠ own → ∀ c k, eventsByStream z s c k n = if L.streamLen n = 0 then ⟨[], some .notFound⟩
      else cut c ((L.stream n).filter (fun r => r.seq ≥ k))) ∧
    (∀ c k, eventsByStream z s c k own = if L.streamLen own = j then ⟨[], some .notFound⟩
      else cut c (((L.stream own).take (L.streamLen own - j)).filter (fun r => r.seq ≥ k))) ∧
    (∀ k, eventsByStream z s none k st = ⟨(L.stream st).filter (fun r => r.seq ≥ k), some .recordMissing⟩) ∧
    totalEventsInStream s own false = .ok (L.streamLen own - j) ∧
    totalEventsInStream s st false = .ok (L.streamLen st + j) := by
  have hmem : ∀ (n : Str) (r : Record), r ∈ L.stream n → ∃ b, s.data r.gsn = some b ∧ z.deser b = some r :=
    fun n r hr => h.data r (List.mem_filter.mp hr).1
  refine ⟨?_, ?_, ?_, ?_, ?_, ?_, ?_⟩
  · intro c g
    unfold events
    rw [h.records, recordsByIDs_spec s c _ L.recs h.data, cutFrom_zero]
  · intro c g t
    unfold eventsByType
    rw [h.aggTypes, recordsByIDs_spec s c _ _ (fun r hr => h.data r (List.mem_filter.mp hr).1), cutFrom_zero]
  · intro n h1 h2 c k
    unfold eventsByStream
    rw [h.others n h1 h2]
    by_cases h0 : L.streamLen n = 0
    · rw [if_pos h0, if_pos]
      right; simpa [Log.streamLen] using h0
    · rw [if_neg h0, if_neg, recordsByIDs_spec s c _ (L.stream n) (hmem n), cutFrom_zero]
      have hl : (get s.streams n).length = L.streamLen n := by
        rw [h.others n h1 h2]; simp [Log.streamLen]
      rintro (hc | hc)
      · simp only [Option.isNone_iff_eq_none] at hc
        simp [get, hc] at hl; exact h0 hl.symm
      · simp only [List.length_map] at hc
        exact h0 hc
  · intro c k
    unfold eventsByStream
    have hl : (get s.streams own).length = L.streamLen own - j := by
      rw [h.ownIds]; simp [Log.streamLen]
    by_cases h0 : L.streamLen own = j
    · rw [if_pos h0, if_pos]
      right; omega
    · rw [if_neg h0, if_neg]
      · rw [h.ownIds, recordsByIDs_spec s c _ _ (fun r hr => hmem own r (List.mem_of_mem_take hr)), cutFrom_zero]
      · rintro (hc | hc)
        · simp only [Option.isNone_iff_eq_none] at hc
          simp [get, hc] at hl; omega
        · omega
  · intro k
    unfold eventsByStream
    have hl : (get s.streams st).length = L.streamLen st + j := by
      rw [h.stIds]; simp [Log.streamLen]
    rw [if_neg]
    · rw [h.stIds]
      obtain ⟨i, rfl⟩ : ∃ i, j = i + 1 := ⟨j - 1, by omega⟩
      rw [List.range'_succ]
      apply recordsByIDs_missing s _ _ _ _ (hmem st)
      apply h.noData
      intro hm
      obtain ⟨r, hr, he⟩ := List.mem_map.mp hm
      have := (hL.bounded r hr).2
      omega
    · rintro (hc | hc)
      · simp only [Option.isNone_iff_eq_none] at hc
        simp [get, hc] at hl; omega
      · omega
  · simp [totalEventsInStream, h.unlocked, h.ownIds, Log.streamLen]
  · simp [totalEventsInStream, h.unlocked, h.stIds, Log.streamLen]

/-! ## C07 -/

/-- **C07**, exactly. The serializer rejects event number `j` (from 0) of a batch of events of type `T` and
ID `I`, addressed to stream `st`, and accepts those before it. Let `own` be the stream `T!I` and `n` its
number of events.
* If the rejected event is the first, or the batch was addressed to `own`, nothing is lost: every read is as
  before.
* Otherwise, if `own` holds fewer than `j` events, the call panics and leaves the store locked.
* Otherwise the last `j` events of `own` can no longer be read from it, and reading `st` ends in an error
  after its old events. All events and events by type are read as before, and so are all other streams. -/
theorem C07_exact (hz : z.Lawful) (ops : List Op) (hg : ∀ op ∈ ops, op.Guarded z) (st T I : Str)
    (expected cancelAt : Option Nat) (ers : List EventRecord)
    (hsame : ∀ er ∈ ers, er.event.aggType = T ∧ er.event.aggId = I) (j n : Nat)
    (hrej : batchProblem z (specRun z ops) st expected cancelAt ers = some (j, .serialize))
    (hn : totalEventsInStream (run z ops) (getStream T I) false = .ok n) :
    let own := getStream T I
    let s := run z ops
    let res := saveEvents z s st expected cancelAt ers
    ((j = 0 ∨ st = own) → res.out = .err .serialize ∧
      (∀ c g, events z res.state c g = events z s c g) ∧
      (∀ c g t, eventsByType z res.state c g t = eventsByType z s c g t) ∧
      (∀ c k n', eventsByStream z res.state c k n' = eventsByStream z s c k n')) ∧
    (0 < j → st ≠ own → n < j → res.out = .panic ∧ res.state.locked = true) ∧
    (0 < j → st ≠ own → j ≤ n → res.out = .err .serialize ∧
      (∀ c g, events z res.state c g = events z s c g) ∧
      (∀ c g t, eventsByType z res.state c g t = eventsByType z s c g t) ∧
      (∀ n', n' ≠ st → n' ≠ own → ∀ c k, eventsByStream z res.state c k n' = eventsByStream z s c k n') ∧
      eventsByStream z res.state none 0 own =
        (if n = j then ⟨[], some .notFound⟩ else ⟨(eventsByStream z s none 0 own).recs.take (n - j), none⟩) ∧
      eventsByStream z res.state none 0 st = ⟨(eventsByStream z s none 0 st).recs, some .recordMissing⟩ ∧
      totalEventsInStream res.state own false = .ok (n - j)) := by
  obtain ⟨hL, hs⟩ := run_sim hz ops hg
  generalize run z ops = s at *
  generalize specRun z ops = L at *
  have hnL : n = L.streamLen (getStream T I) := by
    rw [total_spec hs] at hn; exact (Outcome.ok.inj hn).symm
  subst hnL
  obtain ⟨s1, hsim, hlen, hres⟩ := save_rejected hz hL hs st expected cancelAt ers hsame hrej
  have hT : ∀ er ∈ ers.take j, er.event.aggType = T := fun er he => (hsame er (List.mem_of_mem_take he)).1
  simp only
  refine ⟨?_, ?_, ?_⟩
  · intro hc
    have hrm := removeRecent_sim hz hL hsim 1 (I := I) hT (by
      intro hne
      rcases hc with rfl | h
      · simp at hne
      · exact h)
    rw [numbered_gsn_range, hlen] at hrm
    obtain ⟨s2, h1, h2⟩ := hrm
    rw [hres, h1]
    simp only
    refine ⟨trivial, ?_, ?_, ?_⟩
    · intro c g; rw [events_spec h2, events_spec hs]
    · intro c g t; rw [eventsByType_spec h2, eventsByType_spec hs]
    · intro c k n'; rw [eventsByStream_spec h2, eventsByStream_spec hs]; rfl
  · intro hj hne hlt
    have := (removeRecent_wrong hz hL hsim hT hne).1 (by rw [hlen]; exact hlt)
    rw [hlen] at this
    rw [hres]
    generalize removeRecentEvents { s1 with gsn := s1.gsn + 1 } (List.range' (L.last + 1) j) T I = x at *
    obtain ⟨s2, b⟩ := x
    simp only at this
    subst this
    exact ⟨rfl, rfl⟩
  · intro hj hne hle
    obtain ⟨s2, h1, h2⟩ := (removeRecent_wrong hz hL hsim hT hne).2 (by rw [hlen]; exact hle)
    rw [hlen] at h1 h2
    rw [hres, h1]
    simp only
    obtain ⟨r1, r2, r3, r4, r5, r6, r7⟩ := h2.reads hL hj hle
    have hall : ∀ l : List Record, l.filter (fun r => decide (r.seq ≥ 0)) = l :=
      fun l => List.filter_eq_self.mpr (by simp)
    refine ⟨trivial, ?_, ?_, ?_, ?_, ?_, r6⟩
    · intro c g; rw [r1, events_spec hs]
    · intro c g t; rw [r2, eventsByType_spec hs]
    · intro n' a b c k; rw [r3 n' a b, eventsByStream_spec hs]
    · rw [r4, eventsByStream_spec hs, if_neg (show ¬ L.streamLen (getStream T I) = 0 by omega), hall, hall]
      rfl
    · rw [r5, eventsByStream_spec hs, hall]
      split
      · rename_i h0
        have : L.stream st = [] := List.length_eq_zero_iff.mp h0
        rw [this]
      · rfl

/-- Both damaging cases occur: see `C07_false` (panic) and `C07_corrupts`. The batch of `C07_corrupts`: -/
example : batchProblem demo (specRun demo [.save sA none none [evA [1]]]) [83] none none [evA [2], evA [255]]
      = some (1, .serialize) ∧
    (∀ er ∈ [evA [2], evA [255]], er.event.aggType = [65] ∧ er.event.aggId = [49]) ∧
    [83] ≠ getStream [65] [49] ∧
    totalEventsInStream (run demo [.save sA none none [evA [1]]]) (getStream [65] [49]) false = .ok 1 := by
  decide

/-! ### What later saves can do about it -/

theorem saveEvent_grow {s s1 : State} {st : Str} {ex : Option Nat} {er : EventRecord} {x : Str × Record}
    (h : saveEvent z s st ex er = (s1, .ok x)) :
    s.gsn ≤ s1.gsn ∧ (∀ g, g ≤ s.gsn → s1.data g = s.data g) ∧
      ∀ n, ∃ more, get s1.streams n = get s.streams n ++ more := by
  have key : ∀ q, saveEvent.store z s st q er = (s1, .ok x) → s.gsn ≤ s1.gsn ∧
      (∀ g, g ≤ s.gsn → s1.data g = s.data g) ∧ ∀ n, ∃ more, get s1.streams n = get s.streams n ++ more := by
    intro q hq
    unfold saveEvent.store at hq
    simp only at hq
    split at hq
    · simp at hq
    · simp only [Prod.mk.injEq] at hq
      obtain ⟨rfl, _⟩ := hq
      refine ⟨by simp, ?_, ?_⟩
      · intro g hg
        simp only [setMap]
        rw [if_neg (by omega)]
      · intro n
        simp only [get_setMap]
        split
        · rename_i hn; subst hn; exact ⟨_, rfl⟩
        · exact ⟨[], by simp⟩
  unfold saveEvent at h
  cases ex with
  | none => exact key _ h
  | some e =>
    simp only at h
    split at h
    · simp at h
    · exact key _ h

theorem saveLoop_grow (st : Str) (cancelAt : Option Nat) :
    ∀ (ers : List EventRecord) (i : Nat) (s : State) (pt pid : Str) (ex : Option Nat) (created : List Nat)
      (pending : List Str) (last : Nat) (s' : State) (x : Nat × List Str),
      saveLoop z st cancelAt i s pt pid ex created pending last ers = (s', .ok x) →
      s.gsn ≤ s'.gsn ∧ (∀ g, g ≤ s.gsn → s'.data g = s.data g) ∧
        ∀ n, ∃ more, get s'.streams n = get s.streams n ++ more
  | [], i, s, pt, pid, ex, created, pending, last, s', x, h => by
    simp only [saveLoop, Prod.mk.injEq] at h
    obtain ⟨rfl, _⟩ := h
    exact ⟨Nat.le_refl _, fun _ _ => rfl, fun n => ⟨[], by simp⟩⟩
  | er :: ers, i, s, pt, pid, ex, created, pending, last, s', x, h => by
    simp only [saveLoop] at h
    split at h
    · simp at h
    split at h
    · simp at h
    split at h
    · simp at h
    split at h
    · split at h <;> simp at h
    rename_i s1 b r hse
    obtain ⟨a1, a2, a3⟩ := saveEvent_grow hse
    obtain ⟨b1, b2, b3⟩ := saveLoop_grow st cancelAt ers _ _ _ _ _ _ _ _ _ _ h
    refine ⟨Nat.le_trans a1 b1, fun g hg => (b2 g (Nat.le_trans hg a1)).trans (a2 g hg), fun n => ?_⟩
    obtain ⟨m1, h1⟩ := a3 n
    obtain ⟨m2, h2⟩ := b3 n
    exact ⟨m1 ++ m2, by rw [h2, h1, List.append_assoc]⟩

/-- A history of saves all of which succeed. -/
def AllSaved (z : Serializer) : State → List Op → Prop
  | _, [] => True
  | s, .save st expected cancelAt ers :: ops => (∃ k, (saveEvents z s st expected cancelAt ers).out = .ok k) ∧
      AllSaved z (step z s (.save st expected cancelAt ers)) ops
  | _, .delete _ _ _ :: _ => False

/-- Number `g`, which holds no data, stands behind the records `old` in the index of stream `st`. -/
structure Dead (z : Serializer) (s : State) (st : Str) (old : List Record) (g : Nat) : Prop where
  hole : s.data g = none
  past : g ≤ s.gsn
  data : ∀ r ∈ old, r.gsn ≤ s.gsn ∧ ∃ b, s.data r.gsn = some b ∧ z.deser b = some r
  ids : ∃ rest, get s.streams st = old.map (·.gsn) ++ g :: rest

theorem Dead.read {s : State} {st : Str} {old : List Record} {g : Nat} (h : Dead z s st old g) (k : Nat) :
    eventsByStream z s none k st = ⟨old.filter (fun r => r.seq ≥ k), some .recordMissing⟩ := by
  obtain ⟨rest, hids⟩ := h.ids
  have hl : (get s.streams st).length ≠ 0 := by rw [hids]; simp
  unfold eventsByStream
  rw [if_neg, hids]
  · exact recordsByIDs_missing s _ _ _ _ (fun r hr => (h.data r hr).2) h.hole 0
  · rintro (hc | hc)
    · simp only [Option.isNone_iff_eq_none] at hc
      simp [get, hc] at hl
    · exact hl hc

theorem Dead.later {st : Str} {old : List Record} {g : Nat} : ∀ (ops : List Op) (s : State),
    Dead z s st old g → AllSaved z s ops → Dead z (ops.foldl (step z) s) st old g
  | [], s, h, _ => h
  | .delete _ _ _ :: _, s, h, ha => ha.elim
  | .save st' expected cancelAt ers :: ops, s, h, ha => by
    rw [List.foldl_cons]
    refine Dead.later ops _ ?_ ha.2
    obtain ⟨k, hk⟩ := ha.1
    show Dead z (saveEvents z s st' expected cancelAt ers).state st old g
    unfold saveEvents at hk ⊢
    split at hk
    · simp at hk
    rename_i h1
    split at hk
    · simp at hk
    rename_i h2
    rw [if_neg h1, if_neg h2]
    split at hk
    · rename_i s' last pending heq
      obtain ⟨a1, a2, a3⟩ := saveLoop_grow st' cancelAt _ _ _ _ _ _ _ _ _ _ _ heq
      obtain ⟨rest, hids⟩ := h.ids
      obtain ⟨more, hm⟩ := a3 st
      refine ⟨(a2 g h.past).trans h.hole, Nat.le_trans h.past a1, fun r hr => ?_, rest ++ more, ?_⟩
      · obtain ⟨c1, c2⟩ := h.data r hr
        exact ⟨Nat.le_trans c1 a1, by rw [a2 _ c1]; exact c2⟩
      · show get s'.streams st = _
        rw [hm, hids]; simp
    · simp at hk
    · simp at hk
    · simp at hk

/-- **C07**: what is saved to the stream afterwards is acknowledged and cannot be read. After a rollback of the
third kind of `C07_exact`, and whatever is saved successfully from then on, to this stream or others, reading
`st` returns the events it held before and then an error. -/
theorem C07_unreadable (hz : z.Lawful) (ops : List Op) (hg : ∀ op ∈ ops, op.Guarded z) (st T I : Str)
    (expected cancelAt : Option Nat) (ers : List EventRecord)
    (hsame : ∀ er ∈ ers, er.event.aggType = T ∧ er.event.aggId = I) (j n : Nat)
    (hrej : batchProblem z (specRun z ops) st expected cancelAt ers = some (j, .serialize))
    (hn : totalEventsInStream (run z ops) (getStream T I) false = .ok n)
    (hj : 0 < j) (hne : st ≠ getStream T I) (hle : j ≤ n) (later : List Op)
    (hl : AllSaved z (saveEvents z (run z ops) st expected cancelAt ers).state later) :
    eventsByStream z (later.foldl (step z) (saveEvents z (run z ops) st expected cancelAt ers).state) none 0 st =
      ⟨(eventsByStream z (run z ops) none 0 st).recs, some .recordMissing⟩ := by
  obtain ⟨hL, hs⟩ := run_sim hz ops hg
  generalize run z ops = s at *
  generalize specRun z ops = L at *
  have hnL : n = L.streamLen (getStream T I) := by
    rw [total_spec hs] at hn; exact (Outcome.ok.inj hn).symm
  subst hnL
  obtain ⟨s1, hsim, hlen, hres⟩ := save_rejected hz hL hs st expected cancelAt ers hsame hrej
  have hT : ∀ er ∈ ers.take j, er.event.aggType = T := fun er he => (hsame er (List.mem_of_mem_take he)).1
  obtain ⟨s2, h1, h2⟩ := (removeRecent_wrong hz hL hsim hT hne).2 (by rw [hlen]; exact hle)
  rw [hlen] at h1 h2
  rw [hres, h1] at hl ⊢
  simp only at hl ⊢
  obtain ⟨i, rfl⟩ : ∃ i, j = i + 1 := ⟨j - 1, by omega⟩
  have hdead : Dead z s2 st (L.stream st) (L.last + 1) := by
    refine ⟨?_, by rw [h2.gsn]; exact Nat.le_refl _, ?_, List.range' (L.last + 1 + 1) i, ?_⟩
    · apply h2.noData
      intro hm
      obtain ⟨r, hr, he⟩ := List.mem_map.mp hm
      have := (hL.bounded r hr).2
      omega
    · intro r hr
      have hr' := (List.mem_filter.mp hr).1
      have := (hL.bounded r hr').2
      exact ⟨by rw [h2.gsn]; omega, h2.data r hr'⟩
    · rw [h2.stIds, List.range'_succ]
  rw [(hdead.later later s2 hl).read 0, eventsByStream_spec hs]
  have hall : ∀ l : List Record, l.filter (fun r => decide (r.seq ≥ 0)) = l :=
    fun l => List.filter_eq_self.mpr (by simp)
  rw [hall]
  split
  · rename_i h0
    have : L.stream st = [] := List.length_eq_zero_iff.mp h0
    rw [this]
  · rfl

/-- A later save to the stream is acknowledged. -/
example : AllSaved demo (saveEvents demo (run demo [.save sA none none [evA [1]]]) [83] none none
    [evA [2], evA [255]]).state [.save [83] none none [evA [7]], .save sB none none [evB [1], evB [2]]] := by
  refine ⟨⟨2, by decide⟩, ⟨2, by decide⟩, trivial⟩

end RangeDB.IM

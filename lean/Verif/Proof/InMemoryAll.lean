import Verif.Proof.InMemoryRead

/-!
# The global log of the in-memory store in *every* history

`Sim` needs guarded histories, because a failing batch addressed to a custom stream name corrupts the
per-stream and per-type indexes. The global index survives even that: this file relates it alone.
-/

namespace RangeDB.IM

variable {z : Serializer}

/-- The global index of `s` represents the log `L`. -/
structure SimE (z : Serializer) (s : State) (L : Log) : Prop where
  gsn : s.gsn = L.last
  records : s.records = L.recs.map (·.gsn)
  data : ∀ r ∈ L.recs, ∃ b, s.data r.gsn = some b ∧ z.deser b = some r
  sorted : L.recs.Pairwise (fun a b => a.gsn < b.gsn)
  bounded : ∀ r ∈ L.recs, 1 ≤ r.gsn ∧ r.gsn ≤ L.last

/-- The log `L` with a batch appended whose stream numbers start after `q`. -/
def push (view : Record → Record) (L : Log) (st : Str) (q : Nat) (ers : List EventRecord) : Log :=
  ⟨L.last + ers.length, L.recs ++ (numbered st L.last q ers).map view⟩

theorem simE_init : SimE z init Log.empty := by
  constructor <;> simp [init, Log.empty]

theorem SimE.nodup {s : State} {L : Log} (h : SimE z s L) : s.records.Nodup := by
  rw [h.records, List.nodup_iff_pairwise_ne, List.pairwise_map]
  exact h.sorted.imp (by intro a b h; omega)

theorem SimE.mem_gsn {s : State} {L : Log} (h : SimE z s L) {r r' : Record} (h1 : r ∈ L.recs)
    (h2 : r' ∈ L.recs) (he : r.gsn = r'.gsn) : r = r' := by
  obtain ⟨b, hb1, hb2⟩ := h.data r h1
  obtain ⟨b', hb1', hb2'⟩ := h.data r' h2
  rw [he, hb1'] at hb1
  cases hb1
  rw [hb2'] at hb2
  exact (Option.some.inj hb2).symm

theorem saveEvent_okE (hz : z.Lawful) {s s1 : State} {L0 : Log} {st : Str} {q : Nat}
    {done : List EventRecord} (h : SimE z s (push z.view L0 st q done))
    (hq : streamSeq s st = q + done.length) {expected : Option Nat} {er : EventRecord} {b : Str}
    {r : Record} (hs : saveEvent z s st expected er = (s1, .ok (b, r))) :
    SimE z s1 (push z.view L0 st q (done ++ [er])) ∧ streamSeq s1 st = q + (done ++ [er]).length ∧
    r = mkRecord st (L0.last + done.length + 1) (q + done.length + 1) er ∧
    z.deser b = some (z.view r) := by
  have hstore : saveEvent.store z s st (streamSeq s st) er = (s1, .ok (b, r)) := by
    unfold saveEvent at hs
    cases expected with
    | none => exact hs
    | some e =>
      simp only at hs
      split at hs
      · simp at hs
      · exact hs
  unfold saveEvent.store at hstore
  simp only [h.gsn, hq] at hstore
  split at hstore
  · simp at hstore
  · rename_i data hser
    simp only [Prod.mk.injEq, Except.ok.injEq] at hstore
    obtain ⟨rfl, rfl, rfl⟩ := hstore
    have hlast : (push z.view L0 st q done).last = L0.last + done.length := rfl
    have hpush : push z.view L0 st q (done ++ [er]) =
        ⟨L0.last + done.length + 1, (push z.view L0 st q done).recs ++
          [z.view (mkRecord st (L0.last + done.length + 1) (q + done.length + 1) er)]⟩ := by
      simp [push, numbered_append, numbered, Nat.add_assoc]
    refine ⟨?_, ?_, by rw [hlast], hz.roundTrip _ _ hser⟩
    · rw [hpush]
      constructor
      · simp [hlast]
      · simp [h.records, hlast, hz.gsn, mkRecord]
      · intro r' hr'
        simp only [List.mem_append, List.mem_singleton] at hr'
        rcases hr' with hr' | rfl
        · have := h.bounded r' hr'
          simp only [setMap]
          rw [if_neg (by omega)]
          exact h.data r' hr'
        · exact ⟨data, by simp [setMap, hz.gsn, mkRecord, hlast], by rw [← hlast]; exact hz.roundTrip _ _ hser⟩
      · rw [List.pairwise_append]
        refine ⟨h.sorted, by simp, ?_⟩
        intro a ha b' hb'
        simp only [List.mem_singleton] at hb'
        subst hb'
        have := h.bounded a ha
        rw [hlast] at this
        simp [hz.gsn, mkRecord]; omega
      · intro r' hr'
        simp only [List.mem_append, List.mem_singleton] at hr'
        rcases hr' with hr' | rfl
        · have := h.bounded r' hr'
          rw [hlast] at this
          simp; omega
        · simp [hz.gsn, mkRecord]
    · simp only [streamSeq, get_setMap, if_true, List.length_append, List.length_cons,
        List.length_nil]
      have : (get s.streams st).length = q + done.length := hq
      omega

theorem saveEvent_errE {s s1 : State} {st : Str} {expected : Option Nat} {er : EventRecord} {e : Err}
    (hs : saveEvent z s st expected er = (s1, .error e)) :
    s1.records = s.records ∧ s1.data = s.data ∧ s1.locked = s.locked ∧
      (s1.gsn = s.gsn ∨ s1.gsn = s.gsn + 1) := by
  have hstore : (s1, Except.error e) = (s, .error (α := Str × Record) e) ∨
      saveEvent.store z s st (streamSeq s st) er = (s1, .error e) := by
    unfold saveEvent at hs
    cases expected with
    | none => exact Or.inr hs
    | some x =>
      simp only at hs
      split at hs
      · left; rw [← hs]
        simp only [Prod.mk.injEq, true_and] at hs ⊢
        exact hs.2
      · exact Or.inr hs
  rcases hstore with h | h
  · simp only [Prod.mk.injEq, and_true] at h
    subst h; simp
  · unfold saveEvent.store at h
    simp only at h
    split at h
    · simp only [Prod.mk.injEq] at h
      obtain ⟨rfl, _⟩ := h
      simp
    · simp at h

/-- A rollback restores the global index, whether or not it panics afterwards. -/
theorem removeRecent_E (hz : z.Lawful) {s s1 : State} {L0 : Log} {st : Str} {q : Nat}
    {done : List EventRecord} (h0 : ∀ r ∈ L0.recs, 1 ≤ r.gsn ∧ r.gsn ≤ L0.last)
    (h : SimE z s (push z.view L0 st q done)) (T I : Str)
    (h1 : s1.records = s.records) (h2 : s1.data = s.data)
    (h3 : s1.gsn = s.gsn ∨ s1.gsn = s.gsn + 1) :
    ∃ k, SimE z (removeRecentEvents s1 ((numbered st L0.last q done).map (·.gsn)) T I).1
      ⟨L0.last + k, L0.recs⟩ := by
  have hrec : s1.records = L0.recs.map (·.gsn) ++ (numbered st L0.last q done).map (·.gsn) := by
    rw [h1, h.records]; simp [push, hz.gsn]
  obtain ⟨k, hk⟩ : ∃ k, s1.gsn - done.length = L0.last + k := by
    have : s.gsn = L0.last + done.length := h.gsn
    rcases h3 with h3 | h3
    · exact ⟨0, by omega⟩
    · exact ⟨1, by omega⟩
  refine ⟨k, ?_⟩
  have hsort : L0.recs.Pairwise (fun a b => a.gsn < b.gsn) := by
    have := h.sorted
    simp only [push] at this
    rw [List.pairwise_append] at this
    exact this.1
  have hfin : ∀ s' : State, s'.gsn = L0.last + k → s'.records = L0.recs.map (·.gsn) →
      s'.data = ((numbered st L0.last q done).map (·.gsn)).foldl (fun d g => setMap d g none) s1.data →
      SimE z s' ⟨L0.last + k, L0.recs⟩ := by
    intro s' e1 e2 e3
    constructor
    · exact e1
    · exact e2
    · intro r hr
      have hb := h0 r hr
      rw [e3, foldl_erase, if_neg]
      · rw [h2]; exact h.data r (by simp only [push, List.mem_append]; exact Or.inl hr)
      · rw [numbered_gsn_range, List.mem_range'_1]; omega
    · exact hsort
    · intro r hr
      have := h0 r hr
      simp; omega
  unfold removeRecentEvents
  simp only [List.length_map, numbered_length]
  rw [hrec, rTrim_append _ _ _ (by simp)]
  simp only
  split
  · exact hfin _ hk rfl rfl
  · split
    · exact hfin _ hk rfl rfl
    · exact hfin _ hk rfl rfl

theorem saveLoop_E (hz : z.Lawful) {L0 : Log} (h0 : ∀ r ∈ L0.recs, 1 ≤ r.gsn ∧ r.gsn ≤ L0.last)
    (st : Str) (q : Nat) (cancelAt : Option Nat) :
    ∀ (ers done : List EventRecord) (i : Nat) (s : State) (pending : List Str) (pt pid : Str)
      (expected : Option Nat) (last : Nat),
      SimE z s (push z.view L0 st q done) → streamSeq s st = q + done.length →
      pending.filterMap z.deser = (numbered st L0.last q done).map z.view →
      last = (if done = [] then 0 else q + done.length) →
      (match saveLoop z st cancelAt i s pt pid expected ((numbered st L0.last q done).map (·.gsn))
          pending last ers with
       | (s', .ok (k, pend)) => SimE z s' (push z.view L0 st q (done ++ ers)) ∧
          k = (if done ++ ers = [] then 0 else q + (done ++ ers).length) ∧
          pend.filterMap z.deser = (numbered st L0.last q (done ++ ers)).map z.view
       | (_, .blocked) => False
       | (s', _) => (∃ j, SimE z s' (push z.view L0 st q ((done ++ ers).take j))) ∨
          ∃ k, SimE z s' ⟨L0.last + k, L0.recs⟩) := by
  intro ers
  induction ers with
  | nil =>
    intro done i s pending pt pid expected last h1 h2 h3 h4
    simp only [saveLoop, List.append_nil]
    exact ⟨h1, h4, h3⟩
  | cons er ers ih =>
    intro done i s pending pt pid expected last h1 h2 h3 h4
    have htake : (done ++ er :: ers).take done.length = done := by simp
    simp only [saveLoop]
    by_cases c1 : pt ≠ [] ∧ pt ≠ er.event.aggType
    · rw [if_pos c1]; exact Or.inl ⟨done.length, by rw [htake]; exact h1⟩
    rw [if_neg c1]
    by_cases c2 : pid ≠ [] ∧ pid ≠ er.event.aggId
    · rw [if_pos c2]; exact Or.inl ⟨done.length, by rw [htake]; exact h1⟩
    rw [if_neg c2]
    by_cases c3 : ctxDone cancelAt i
    · rw [if_pos c3]; exact Or.inl ⟨done.length, by rw [htake]; exact h1⟩
    rw [if_neg c3]
    cases hse : saveEvent z s st expected er with
    | mk s1 res =>
      cases res with
      | error e =>
        obtain ⟨e1, e2, _, e4⟩ := saveEvent_errE hse
        obtain ⟨k, hk⟩ := removeRecent_E hz h0 h1 er.event.aggType er.event.aggId e1 e2 e4
        simp only
        cases hrr : removeRecentEvents s1 ((numbered st L0.last q done).map (·.gsn))
            er.event.aggType er.event.aggId with
        | mk s2 b =>
          rw [hrr] at hk
          cases b with
          | true =>
            refine Or.inr ⟨k, ?_⟩
            exact ⟨hk.gsn, hk.records, hk.data, hk.sorted, hk.bounded⟩
          | false => exact Or.inr ⟨k, hk⟩
      | ok p =>
        obtain ⟨b, r⟩ := p
        obtain ⟨g1, g2, rfl, g4⟩ := saveEvent_okE hz h1 h2 hse
        have hnum : numbered st L0.last q (done ++ [er]) = numbered st L0.last q done ++
            [mkRecord st (L0.last + done.length + 1) (q + done.length + 1) er] := by
          rw [numbered_append]; rfl
        have := ih (done ++ [er]) (i + 1) s1 (pending ++ [b]) er.event.aggType er.event.aggId
          (expected.map (· + 1)) (q + done.length + 1) g1 g2
          (by rw [List.filterMap_append, h3, hnum, List.map_append]; simp [g4])
          (by simp; omega)
        simp only [List.append_assoc, List.cons_append, List.nil_append] at this
        have hgs : List.map (·.gsn) (numbered st L0.last q done) ++
            [(mkRecord st (L0.last + done.length + 1) (q + done.length + 1) er).gsn] =
            List.map (·.gsn) (numbered st L0.last q (done ++ [er])) := by
          rw [hnum]; simp
        simp only
        rw [hgs]
        exact this

theorem push_nil (L : Log) (st : Str) (q : Nat) : push z.view L st q [] = L := by
  simp [push, numbered]

/-- What a save does to the global index, in every state. -/
theorem saveEvents_E (hz : z.Lawful) {s : State} {L : Log} (h : SimE z s L) (st : Str)
    (expected cancelAt : Option Nat) (ers : List EventRecord) :
    (∀ k, (saveEvents z s st expected cancelAt ers).out = .ok k →
      SimE z (saveEvents z s st expected cancelAt ers).state (push z.view L st (streamSeq s st) ers) ∧
      k = streamSeq s st + ers.length ∧ ers ≠ [] ∧
      (saveEvents z s st expected cancelAt ers).broadcast
        = (numbered st L.last (streamSeq s st) ers).map z.view) ∧
    ((∀ k, (saveEvents z s st expected cancelAt ers).out ≠ .ok k) →
      (saveEvents z s st expected cancelAt ers).broadcast = [] ∧
      ((∃ j, SimE z (saveEvents z s st expected cancelAt ers).state
        (push z.view L st (streamSeq s st) (ers.take j))) ∨
       ∃ k, SimE z (saveEvents z s st expected cancelAt ers).state ⟨L.last + k, L.recs⟩)) := by
  unfold saveEvents
  by_cases hlen : ers.length < 1
  · rw [if_pos hlen]
    exact ⟨by simp, fun _ => ⟨rfl, Or.inr ⟨0, h⟩⟩⟩
  rw [if_neg hlen]
  by_cases hl : s.locked
  · rw [if_pos hl]
    exact ⟨by simp, fun _ => ⟨rfl, Or.inr ⟨0, h⟩⟩⟩
  rw [if_neg hl]
  have hne : ers ≠ [] := by rintro rfl; simp at hlen
  have := saveLoop_E hz h.bounded st (streamSeq s st) cancelAt ers [] 0 s [] [] [] expected 0
    (by rw [push_nil]; exact h) rfl rfl rfl
  simp only [numbered, List.map_nil, List.nil_append] at this
  cases hr : saveLoop z st cancelAt 0 s [] [] expected [] [] 0 ers with
  | mk s' o =>
    rw [hr] at this
    cases o with
    | ok p =>
      obtain ⟨k, pend⟩ := p
      obtain ⟨a1, a2, a3⟩ := this
      rw [if_neg hne] at a2
      refine ⟨?_, by simp⟩
      intro k' hk'
      simp only [Outcome.ok.injEq] at hk'
      subst hk'
      exact ⟨a1, a2, hne, a3⟩
    | err e => exact ⟨by simp, fun _ => ⟨rfl, this⟩⟩
    | panic => exact ⟨by simp, fun _ => ⟨rfl, this⟩⟩
    | blocked => exact this.elim

theorem deleteLoop_E (xs : List Nat) : ∀ (s : State), s.records.Nodup →
    ∃ s', deleteLoop s xs = (s', false) ∧ s'.records = s.records.filter (fun g => g ∉ xs) ∧
      (∀ g ∈ s.records, g ∉ xs → s'.data g = s.data g) ∧ s'.gsn = s.gsn ∧
      s'.locked = s.locked := by
  induction xs with
  | nil =>
    intro s _
    have hf : ∀ l : List Nat, l.filter (fun g => decide (g ∉ ([] : List Nat))) = l := by
      intro l; rw [List.filter_eq_self]; simp
    exact ⟨s, rfl, (hf _).symm, by simp, rfl, rfl⟩
  | cons x xs ih =>
    intro s h1
    obtain ⟨s', e1, e2, e3, e4, e5⟩ := ih { s with
        records := s.records.filter (fun y => y ≠ x)
        data := if x ∈ s.records then setMap s.data x none else s.data
        aggTypes := fun t => (s.aggTypes t).map (fun l => (removeAll x l).getD l) } (h1.filter _)
    refine ⟨s', ?_, ?_, ?_, e4, e5⟩
    · rw [deleteLoop]
      unfold deleteOne
      rw [removeAll_spec x _ h1]
      exact e1
    · rw [e2, List.filter_filter]
      apply List.filter_congr
      intro y _
      by_cases hyx : y = x <;> simp [hyx]
    · intro g hg hgx
      simp only [List.mem_cons, not_or] at hgx
      rw [e3 g (by simp [hg, hgx.1]) hgx.2]
      simp only
      split
      · simp [setMap, hgx.1]
      · rfl

/-- What a delete does to the global index, in every state: it removes some records. -/
theorem deleteStream_E {s : State} {L : Log} (h : SimE z s L) (st : Str) (expected : Nat)
    (cancelled : Bool) :
    ∃ p : Record → Bool, SimE z (deleteStream s st expected cancelled).1 ⟨L.last, L.recs.filter p⟩ := by
  have hsame : SimE z s ⟨L.last, L.recs.filter (fun _ => true)⟩ := by
    rw [List.filter_eq_self.mpr (by simp)]; exact h
  unfold deleteStream
  by_cases hc : cancelled
  · rw [if_pos hc]; exact ⟨_, hsame⟩
  rw [if_neg hc]
  by_cases hl : s.locked
  · rw [if_pos hl]; exact ⟨_, hsame⟩
  rw [if_neg hl]
  cases hk : s.streams st with
  | none => exact ⟨_, hsame⟩
  | some gsns =>
    simp only
    by_cases hx : expected ≠ gsns.length
    · rw [if_pos hx]; exact ⟨_, hsame⟩
    rw [if_neg hx]
    obtain ⟨s', e1, e2, e3, e4, e5⟩ := deleteLoop_E gsns s h.nodup
    rw [e1]
    refine ⟨fun r => decide (r.gsn ∉ gsns), ?_⟩
    constructor
    · exact e4.trans h.gsn
    · simp only [e2, h.records, List.filter_map]; rfl
    · intro r hr
      simp only [List.mem_filter, decide_eq_true_eq] at hr
      simp only
      rw [e3 r.gsn (by rw [h.records]; exact List.mem_map_of_mem hr.1) hr.2]
      exact h.data r hr.1
    · exact h.sorted.filter _
    · intro r hr
      exact h.bounded r (List.mem_filter.mp hr).1

/-- `L'` comes later than `L`: it kept some records and added higher-numbered ones. -/
def Later (L L' : Log) : Prop :=
  L.last ≤ L'.last ∧ ∀ r ∈ L'.recs, r ∈ L.recs ∨ L.last < r.gsn

theorem Later.refl (L : Log) : Later L L := ⟨Nat.le_refl _, fun _ h => Or.inl h⟩

theorem Later.trans {A B C : Log} (h1 : Later A B) (h2 : Later B C) : Later A C := by
  refine ⟨Nat.le_trans h1.1 h2.1, fun r hr => ?_⟩
  rcases h2.2 r hr with h | h
  · exact h1.2 r h
  · right; have := h1.1; omega

theorem push_later (hz : z.Lawful) (L : Log) (st : Str) (q : Nat) (ers : List EventRecord) :
    Later L (push z.view L st q ers) := by
  refine ⟨by simp [push], fun r hr => ?_⟩
  simp only [push, List.mem_append, List.mem_map] at hr
  rcases hr with hr | ⟨r', h1, rfl⟩
  · exact Or.inl hr
  · right; rw [hz.gsn]; exact (numbered_gsn_bounds h1).1

theorem step_E (hz : z.Lawful) {s : State} {L : Log} (h : SimE z s L) (op : Op) :
    ∃ L', SimE z (step z s op) L' ∧ Later L L' := by
  cases op with
  | save st expected cancelAt ers =>
    have hs := saveEvents_E hz h st expected cancelAt ers
    simp only [step]
    by_cases hk : ∃ k, (saveEvents z s st expected cancelAt ers).out = .ok k
    · obtain ⟨k, hk⟩ := hk
      exact ⟨_, (hs.1 k hk).1, push_later hz _ _ _ _⟩
    · rcases (hs.2 (fun k hc => hk ⟨k, hc⟩)).2 with ⟨j, hj⟩ | ⟨k, hk⟩
      · exact ⟨_, hj, push_later hz _ _ _ _⟩
      · exact ⟨_, hk, by simp, fun r hr => Or.inl hr⟩
  | delete st expected cancelled =>
    obtain ⟨p, hp⟩ := deleteStream_E h st expected cancelled
    exact ⟨_, hp, Nat.le_refl _, fun r hr => Or.inl (List.mem_filter.mp hr).1⟩

theorem foldl_E (hz : z.Lawful) (ops : List Op) : ∀ {s : State} {L : Log}, SimE z s L →
    ∃ L', SimE z (ops.foldl (step z) s) L' ∧ Later L L' := by
  induction ops with
  | nil => intro s L h; exact ⟨L, h, Later.refl L⟩
  | cons op ops ih =>
    intro s L h
    obtain ⟨L1, h1, h2⟩ := step_E hz h op
    obtain ⟨L2, h3, h4⟩ := ih h1
    exact ⟨L2, h3, h2.trans h4⟩

theorem run_E (hz : z.Lawful) (ops : List Op) : ∃ L, SimE z (run z ops) L := by
  obtain ⟨L, h, _⟩ := foldl_E hz ops simE_init
  exact ⟨L, h⟩

theorem events_E {s : State} {L : Log} (h : SimE z s L) (cancelAt : Option Nat) (g : Nat) :
    events z s cancelAt g = cut cancelAt (L.recs.filter (fun r => r.gsn ≥ g)) := by
  unfold events
  rw [h.records, recordsByIDs_spec s cancelAt _ L.recs h.data, cutFrom_zero]

theorem events_E_zero {s : State} {L : Log} (h : SimE z s L) :
    events z s none 0 = ⟨L.recs, none⟩ := by
  rw [events_E h, List.filter_eq_self.mpr (by simp)]; rfl

end RangeDB.IM

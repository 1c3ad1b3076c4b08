import Verif.Thm.Postgres

/-!
# Reads of the PostgreSQL store: C89

C38 and C39 speak about the rows of the table. Here the same is said about what callers get to see: `Events` hands out the
whole log, and each of the other reads hands out the part of it that was asked for.
-/

namespace RangeDB.PG

open RangeDB.Json

/-- All events that are saved are without metadata and can be decoded (see C67 for the others). -/
def AllReadable (cfg : Config) (ms : Schedule) : Prop :=
  ∀ m ∈ ms, ∀ c, m.2 = .call c → ∀ er ∈ c.events, Readable cfg.ty er

/-- What `Events(0)` hands out. -/
def logOf (cfg : Config) (s : State) : List Record := (events cfg s 0).recs

/-- The full statement of **C89**: in every state that concurrent calls lead to, all four reads are views of one log. The
only stream that is not found is one without events. -/
def C89_full : Prop :=
  ∀ (cfg : Config) (ms : Schedule), AllReadable cfg ms →
    ((logOf cfg (run cfg ms)).map (·.gsn)).Pairwise (· < ·) ∧
    (∀ g, events cfg (run cfg ms) g = ⟨(logOf cfg (run cfg ms)).filter (fun r => g ≤ r.gsn), none⟩) ∧
    (∀ g types, eventsByAggregateTypes cfg (run cfg ms) g types =
      ⟨(logOf cfg (run cfg ms)).filter (fun r => decide (r.aggType ∈ types) && decide (g ≤ r.gsn)), none⟩) ∧
    (∀ n st, eventsByStream cfg (run cfg ms) n st =
      if ∃ r ∈ logOf cfg (run cfg ms), r.streamName = st then
        ⟨(logOf cfg (run cfg ms)).filter (fun r => decide (r.streamName = st) && decide (n ≤ r.seq)), none⟩
      else ⟨[], some .notFound⟩)

/-! ## Decoding -/

theorem readable_rows (cfg : Config) (ms : Schedule) (h : AllReadable cfg ms) :
    ∀ r ∈ (run cfg ms).rows, ∃ d, Rem.decodeData cfg.ty r.evType r.data = some d ∧
      decodeRow cfg.ty r = some { r with data := d, metadata := nullText } := by
  intro r hr
  have hf := from_run cfg (Readable cfg.ty) ms h
  obtain ⟨st, er, ⟨h1, h2⟩, h3⟩ := hf.table _ _ ((mem_rows (base_run cfg ms)).mp hr)
  have e1 : r.metadata = nullText := (congrArg Record.metadata h3).trans h1
  have e2 : r.evType = er.event.evType := congrArg Record.evType h3
  have e3 : r.data = compact er.event.data := congrArg Record.data h3
  obtain ⟨d, hd⟩ := Option.isSome_iff_exists.mp h2
  rw [← e2, ← e3] at hd
  refine ⟨d, hd, ?_⟩
  unfold decodeRow
  rw [hd]
  simp [metadataOk, e1]

theorem readRows_all {ty : Types} : ∀ l : List Record,
    (∀ r ∈ l, ∃ d, Rem.decodeData ty r.evType r.data = some d ∧
      decodeRow ty r = some { r with data := d, metadata := nullText }) →
    ∀ q : Record → Bool, (∀ r d, q { r with data := d, metadata := nullText } = q r) →
      readRows ty (l.filter q) = ⟨(readRows ty l).recs.filter q, none⟩ := by
  intro l
  induction l with
  | nil => intro _ q _; rfl
  | cons r l ih =>
    intro hl q hq
    obtain ⟨d, _, hd⟩ := hl r (by simp)
    have := ih (fun x hx => hl x (by simp [hx])) q hq
    simp only [readRows, hd, List.filter_cons, hq]
    by_cases e : q r = true
    · rw [if_pos e, if_pos e]
      simp only [readRows, hd, this]
    · rw [if_neg e, if_neg e]
      exact this

theorem logOf_eq (cfg : Config) (s : State) : logOf cfg s = (readRows cfg.ty s.rows).recs := by
  unfold logOf events
  congr 1
  congr 1
  exact List.filter_eq_self.mpr (by simp)

theorem logOf_map (cfg : Config) (ms : Schedule) (h : AllReadable cfg ms) {β : Type} (f : Record → β)
    (hf : ∀ r d, f { r with data := d, metadata := nullText } = f r) :
    (logOf cfg (run cfg ms)).map f = (run cfg ms).rows.map f := by
  rw [logOf_eq]
  have : ∀ l : List Record, (∀ r ∈ l, r ∈ (run cfg ms).rows) → (readRows cfg.ty l).recs.map f = l.map f := by
    intro l
    induction l with
    | nil => intro _; rfl
    | cons r l ih =>
      intro hl
      obtain ⟨d, _, hd⟩ := readable_rows cfg ms h r (hl r (by simp))
      simp only [readRows, hd, List.map_cons, hf, ih (fun x hx => hl x (by simp [hx]))]
  exact this _ (fun _ hr => hr)

theorem streamRows_eq (s : State) (st : Str) : s.streamRows st = s.rows.filter (fun r => decide (r.streamName = st)) := by
  unfold State.streamRows
  refine List.filter_congr (fun r _ => ?_)
  by_cases e : r.streamName = st <;> simp [e]

/-- **C89**, partial: as in the full statement, but for `EventsByStream` only if there is an event to hand out. Missing:
reading a stream from a number beyond its last event reports that there is no such stream, see `C89_false`. -/
theorem C89_partial (cfg : Config) (ms : Schedule) (h : AllReadable cfg ms) :
    ((logOf cfg (run cfg ms)).map (·.gsn)).Pairwise (· < ·) ∧
    (∀ g, events cfg (run cfg ms) g = ⟨(logOf cfg (run cfg ms)).filter (fun r => g ≤ r.gsn), none⟩) ∧
    (∀ g types, eventsByAggregateTypes cfg (run cfg ms) g types =
      ⟨(logOf cfg (run cfg ms)).filter (fun r => decide (r.aggType ∈ types) && decide (g ≤ r.gsn)), none⟩) ∧
    (∀ n st, eventsByStream cfg (run cfg ms) n st =
      if ∃ r ∈ logOf cfg (run cfg ms), r.streamName = st ∧ n ≤ r.seq then
        ⟨(logOf cfg (run cfg ms)).filter (fun r => decide (r.streamName = st) && decide (n ≤ r.seq)), none⟩
      else ⟨[], some .notFound⟩) := by
  have hr := readRows_all (run cfg ms).rows (readable_rows cfg ms h)
  refine ⟨?_, ?_, ?_, ?_⟩
  · rw [logOf_map cfg ms h (fun r => r.gsn) (fun _ _ => rfl)]
    exact C38_unique cfg ms
  · intro g
    rw [logOf_eq]
    exact hr (fun r => g ≤ r.gsn) (fun _ _ => rfl)
  · intro g types
    rw [logOf_eq]
    have := hr (fun r => types.contains r.aggType && decide (g ≤ r.gsn)) (fun _ _ => rfl)
    simp only [eventsByAggregateTypes, this]
    congr 1
    refine List.filter_congr (fun r _ => ?_)
    simp
  · intro n st
    have := hr (fun r => decide (r.streamName = st) && decide (n ≤ r.seq)) (fun _ _ => rfl)
    have e : ((run cfg ms).streamRows st).filter (fun r => n ≤ r.seq) =
        (run cfg ms).rows.filter (fun r => decide (r.streamName = st) && decide (n ≤ r.seq)) := by
      unfold State.streamRows
      rw [List.filter_filter]
      refine List.filter_congr (fun r _ => ?_)
      by_cases e1 : r.streamName = st <;> by_cases e2 : n ≤ r.seq <;> simp [e1, e2]
    simp only [eventsByStream, e, this, ← logOf_eq]
    by_cases hx : ∃ r ∈ logOf cfg (run cfg ms), r.streamName = st ∧ n ≤ r.seq
    · rw [if_pos hx, if_neg]
      obtain ⟨r, h1, h2, h3⟩ := hx
      rintro ⟨_, h4⟩
      have : r ∈ (logOf cfg (run cfg ms)).filter (fun r => decide (r.streamName = st) && decide (n ≤ r.seq)) :=
        List.mem_filter.mpr ⟨h1, by simp [h2, h3]⟩
      rw [h4] at this
      cases this
    · rw [if_neg hx, if_pos]
      refine ⟨trivial, List.filter_eq_nil_iff.mpr ?_⟩
      intro r h1 h2
      simp only [Bool.and_eq_true, decide_eq_true_eq] at h2
      exact hx ⟨r, h1, h2.1, h2.2⟩

/-- **C89**, the numbers: `TotalEventsInStream` is the number of events of the stream in the log, and they are numbered
from 1, as long as nobody deletes the stream. -/
theorem C89_stream (cfg : Config) (ms : Schedule) (h : AllReadable cfg ms) (st : Str) (hd : NoDelete st ms) :
    let l := (logOf cfg (run cfg ms)).filter (fun r => r.streamName = st)
    l.map (·.seq) = List.range' 1 l.length ∧ totalEventsInStream (run cfg ms) st = l.length := by
  intro l
  have hl : l.map (·.seq) = ((run cfg ms).streamRows st).map (·.seq) := by
    have hr := readRows_all (run cfg ms).rows (readable_rows cfg ms h) (fun r => decide (r.streamName = st))
      (fun _ _ => rfl)
    have hm : ∀ a : List Record, (∀ r ∈ a, r ∈ (run cfg ms).rows) →
        (readRows cfg.ty a).recs.map (·.seq) = a.map (·.seq) := by
      intro a
      induction a with
      | nil => intro _; rfl
      | cons r a ih =>
        intro ha
        obtain ⟨d, _, hd⟩ := readable_rows cfg ms h r (ha r (by simp))
        simp only [readRows, hd, List.map_cons, ih (fun x hx => ha x (by simp [hx]))]
    have := hm _ (fun r hr => (List.mem_filter.mp hr).1 : ∀ r ∈ (run cfg ms).rows.filter (fun r => decide (r.streamName = st)), _)
    rw [hr] at this
    show (List.filter _ (logOf cfg (run cfg ms))).map _ = _
    rw [logOf_eq]
    refine this.trans ?_
    rw [streamRows_eq]
  have hlen : l.length = ((run cfg ms).streamRows st).length := by
    have := congrArg List.length hl
    simpa using this
  have hc := C38_contiguous cfg st ms hd
  refine ⟨by rw [hl, hlen]; exact hc, ?_⟩
  rw [hlen]
  show lastSeq _ _ = _
  unfold lastSeq
  have hfold : ∀ (a : List Record) (k m : Nat), a.map (·.seq) = List.range' k a.length → m < k →
      a.foldl (fun m r => max m r.seq) m = if a.length = 0 then m else k + a.length - 1 := by
    intro a
    induction a with
    | nil => intro k m _ _; rfl
    | cons r a ih =>
      intro k m ha hm
      simp only [List.map_cons, List.length_cons, List.range'_succ, List.cons.injEq] at ha
      simp only [List.foldl_cons, List.length_cons]
      rw [ih (k + 1) (max m r.seq) ha.2 (by omega)]
      split <;> simp_all <;> omega
  rw [hfold _ 1 0 hc (by omega)]
  split
  · omega
  · omega

/-- **C89**, what was saved is what is read: an acknowledged save is in the log as one piece, each event with the type, the
aggregate, the ID and the time it was saved with, and with its data decoded from what was given. -/
theorem C89_acknowledged (cfg : Config) (st : Str) (ms : Schedule) (h : AllReadable cfg ms) (hd : NoDelete st ms) (p : Nat)
    (e : Option Nat) (ers : List EventRecord) (n : Nat)
    (hp : (run cfg ms).procs p = .returned (.save st e ers) (.ok n)) :
    ∃ before mine after, (logOf cfg (run cfg ms)).filter (fun r => r.streamName = st) = before ++ mine ++ after ∧
      n = before.length + ers.length ∧ mine.length = ers.length ∧
      ∀ i (hi : i < ers.length), ∃ r, mine[i]? = some r ∧ r.seq = before.length + 1 + i ∧
        r.aggType = (ers[i]).event.aggType ∧ r.aggId = (ers[i]).event.aggId ∧ r.evType = (ers[i]).event.evType ∧
        r.eventId = (ers[i]).uuid ∧ r.ts = (ers[i]).now ∧
        Rem.decodeData cfg.ty (ers[i]).event.evType (compact (ers[i]).event.data) = some r.data := by
  obtain ⟨b, rows, a, hs, hc, hq, hn, _⟩ := C38_acknowledged cfg st ms hd p e ers n hp
  have hr := readRows_all (run cfg ms).rows (readable_rows cfg ms h) (fun r => decide (r.streamName = st))
    (fun _ _ => rfl)
  have happ : ∀ x y : List Record, (∀ r ∈ x, r ∈ (run cfg ms).rows) →
      (readRows cfg.ty (x ++ y)).recs = (readRows cfg.ty x).recs ++ (readRows cfg.ty y).recs := by
    intro x y
    induction x with
    | nil => intro _; rfl
    | cons r x ih =>
      intro hx
      obtain ⟨d, _, hd⟩ := readable_rows cfg ms h r (hx r (by simp))
      simp only [List.cons_append, readRows, hd, ih (fun z hz => hx z (by simp [hz]))]
  have hget : ∀ x : List Record, (∀ r ∈ x, r ∈ (run cfg ms).rows) → (readRows cfg.ty x).recs.length = x.length ∧
      ∀ i (hi : i < x.length), ∃ d, Rem.decodeData cfg.ty x[i].evType x[i].data = some d ∧
        (readRows cfg.ty x).recs[i]? = some { x[i] with data := d, metadata := nullText } := by
    intro x
    induction x with
    | nil => intro _; exact ⟨rfl, fun i hi => absurd hi (by simp)⟩
    | cons r x ih =>
      intro hx
      obtain ⟨d, hd1, hd⟩ := readable_rows cfg ms h r (hx r (by simp))
      obtain ⟨i1, i2⟩ := ih (fun z hz => hx z (by simp [hz]))
      simp only [readRows, hd]
      refine ⟨by simp [i1], ?_⟩
      intro i hi
      cases i with
      | zero => exact ⟨d, hd1, rfl⟩
      | succ i => exact i2 i (by simpa using hi)
  have hsub : ∀ r ∈ b ++ rows ++ a, r ∈ (run cfg ms).rows := by
    intro r hr'
    rw [← hs] at hr'
    exact (List.mem_filter.mp hr').1
  have hb : ∀ r ∈ b, r ∈ (run cfg ms).rows := fun r hr' => hsub r (by simp [hr'])
  have hrw : ∀ r ∈ rows, r ∈ (run cfg ms).rows := fun r hr' => hsub r (by simp [hr'])
  have hlog : (logOf cfg (run cfg ms)).filter (fun r => r.streamName = st) =
      (readRows cfg.ty b).recs ++ (readRows cfg.ty rows).recs ++ (readRows cfg.ty a).recs := by
    rw [← happ b rows hb, ← happ (b ++ rows) a (fun r hr' => hsub r (List.mem_append_left _ hr')), ← hs, logOf_eq]
    rw [streamRows_eq, hr]
  have hlen : rows.length = ers.length := by
    have := congrArg List.length hc
    simpa using this
  refine ⟨_, _, _, hlog, by rw [(hget b hb).1]; exact hn, by rw [(hget rows hrw).1, hlen], ?_⟩
  intro i hi
  obtain ⟨d, hd1, hd2⟩ := (hget rows hrw).2 i (by omega)
  have hci : content (rows[i]'(by omega)) = stored st ers[i] := by
    have := congrArg (fun l => l[i]?) hc
    simpa [hlen, hi] using this
  have hsi : (rows[i]'(by omega)).seq = b.length + 1 + i := by
    have := congrArg (fun l => l[i]?) hq
    simpa [hlen, hi] using this
  have f1 : (rows[i]'(by omega)).evType = ers[i].event.evType := congrArg Record.evType hci
  have f2 : (rows[i]'(by omega)).data = compact ers[i].event.data := congrArg Record.data hci
  have f3 : (rows[i]'(by omega)).aggType = ers[i].event.aggType := congrArg Record.aggType hci
  have f4 : (rows[i]'(by omega)).aggId = ers[i].event.aggId := congrArg Record.aggId hci
  have f5 : (rows[i]'(by omega)).eventId = ers[i].uuid := congrArg Record.eventId hci
  have f6 : (rows[i]'(by omega)).ts = ers[i].now := congrArg Record.ts hci
  refine ⟨_, hd2, by rw [(hget b hb).1]; exact hsi, f3, f4, f1, f5, f6, ?_⟩
  rw [← f1, ← f2]
  exact hd1

theorem allReadable_one : AllReadable demoCfg (fullSave 0 pA none (demoEr goodData)) := by
  intro m hm c hc er her
  simp only [fullSave, List.mem_cons, List.not_mem_nil, or_false] at hm
  rcases hm with rfl | rfl | rfl | rfl | rfl | rfl
  · simp only [Move.call.injEq] at hc
    subst hc
    simp only [Call.events, List.mem_singleton] at her
    subst her
    exact ⟨by decide +kernel, by decide +kernel⟩
  all_goals simp at hc

/-- A stream of one event, read from its second event on, is "not found". -/
theorem C89_false : ¬ C89_full := by
  intro h
  have h1 := (h demoCfg (fullSave 0 pA none (demoEr goodData)) allReadable_one).2.2.2 2 pA
  rw [if_pos (by decide +kernel)] at h1
  have h2 : eventsByStream demoCfg (run demoCfg (fullSave 0 pA none (demoEr goodData))) 2 pA = ⟨[], some .notFound⟩ := by
    decide +kernel
  rw [h2] at h1
  exact absurd (congrArg Iter.err h1) (by decide)

/-- Two streams of one type; each read hands out its part. -/
example : let s := run demoCfg (fullSave 0 pA none (demoEr goodData) ++ fullSave 1 pB none demoEr2)
    (logOf demoCfg s).map (fun r => (r.gsn, r.seq, r.streamName)) = [(1, 1, pA), (2, 1, pB)] ∧
      (eventsByAggregateTypes demoCfg s 2 [[65], [66]]).recs.length = 1 ∧
      (eventsByAggregateTypes demoCfg s 0 [[66]]).recs = [] ∧
      (eventsByStream demoCfg s 1 pB).recs.length = 1 := by decide +kernel

end RangeDB.PG

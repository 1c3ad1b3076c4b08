import Verif.Thm.LevelDB

/-! # Exactly which names the LevelDB store keeps apart (C12) -/

namespace RangeDB.LD

open Demo KV

/-! ## Lemmas -/

/-- Clashing names clash on the number of an event. -/
theorem clash_number {a b : Str} (h : Clash a b) :
    ∃ n, 1 ≤ n ∧ n < 2 ^ 64 ∧ a ++ [36, 33] <+: b ++ [36, 33] ++ uint64ToBytes n := by
  obtain ⟨x, hl, hx, hp⟩ := h
  obtain ⟨n, hn, rfl⟩ := uint64_surj hl hx
  by_cases h0 : n = 0
  · subst h0
    refine ⟨1, by omega, by omega, ?_⟩
    have e0 : uint64ToBytes 0 = [0, 0, 0, 0, 0, 0, 0] ++ [0] := by decide
    have e1 : uint64ToBytes 1 = [0, 0, 0, 0, 0, 0, 0] ++ [1] := by decide
    rw [e0, ← List.append_assoc, List.prefix_concat_iff] at hp
    rw [e1, ← List.append_assoc]
    rcases hp with hp | hp
    · have := congrArg List.getLast? hp
      rw [List.getLast?_append, List.getLast?_append] at this
      simp at this
    · exact hp.trans (List.prefix_append _ _)
  · exact ⟨n, by omega, hn, hp⟩

/-- Copies of one event have no problem. -/
theorem firstProblem_replicate {ser : Record → Option Str} {st : Str} {er : EventRecord}
    (hs : ∀ g q, (ser (mkRecord st g q er)).isSome = true) :
    ∀ (k g q i : Nat) (prev : Option EventRecord), (prev = none ∨ prev = some er) →
      firstProblem ser st none g q none i prev (List.replicate k er) = none
  | 0, _, _, _, _, _ => rfl
  | k + 1, g, q, i, prev, hp => by
    rw [List.replicate_succ]
    unfold firstProblem
    have : problem (ser (mkRecord st (g + 1) (q + 1) er)).isSome q none none i prev er = none := by
      rcases hp with rfl | rfl <;> simp [problem, differs, ctxDone, hs]
    rw [this]
    exact firstProblem_replicate hs k _ _ _ _ (Or.inr rfl)

/-- The store after one save of `k` copies of one event to stream `st`. -/
theorem run_copies (N : Names) {st : Str} {er : EventRecord} (hst : N.streams st)
    (ht : N.types er.event.aggType) (hd : er.event.data.head? ≠ some 255) (k : Nat) (hk : 0 < k)
    (hb : k < 2 ^ 64) :
    Sim N demo (run demo [.save st none none (List.replicate k er)]).db
      (Log.empty.append id st (List.replicate k er)) ∧
    (run demo [.save st none none (List.replicate k er)]).muxHeld = false := by
  have hne : List.replicate k er ≠ [] := by
    cases k with
    | zero => omega
    | succ k => simp [List.replicate_succ]
  have hsp := (saveEvents_spec (N := N) demo_lawful (s := init) (L := Log.empty) Log.WF.empty sim_init rfl rfl hst none
    none (List.replicate k er) (fun e he => by rw [(List.mem_replicate.mp he).2]; exact ht)
    (by simpa [Log.empty] using hb) hne).1
      (firstProblem_replicate (fun g q => by simp [demo, ser, mkRecord, hd]) k _ _ _ _ (Or.inl rfl))
  obtain ⟨_, ⟨db', h1, h2⟩, _⟩ := hsp
  have hrun : run demo [.save st none none (List.replicate k er)] = { init with db := db' } := h1
  rw [hrun]
  exact ⟨h2, rfl⟩

theorem numbered_replicate (st : Str) (er : EventRecord) : ∀ (k g q i : Nat), i < k →
    mkRecord st (g + 1 + i) (q + 1 + i) er ∈ numbered st g q (List.replicate k er)
  | 0, _, _, i, h => by omega
  | k + 1, g, q, i, h => by
    rw [List.replicate_succ]
    simp only [numbered, List.mem_cons]
    cases i with
    | zero => left; rfl
    | succ i =>
      right
      have := numbered_replicate st er k (g + 1) (q + 1) i (by omega)
      rw [show g + 1 + (i + 1) = g + 1 + 1 + i from by omega,
        show q + 1 + (i + 1) = q + 1 + 1 + i from by omega]
      exact this

/-- A full scan of entries that all decode returns what they decode to. -/
theorem prefixLoop_all {z : Serializer} : ∀ (l : List (Str × Str)) (p : Nat),
    (∀ e ∈ l, ∃ r, z.deser e.2 = some r) →
    (prefixLoop z none 0 p l).recs = l.filterMap (fun e => z.deser e.2) ∧ (prefixLoop z none 0 p l).err = none
  | [], _, _ => ⟨rfl, rfl⟩
  | (k, v) :: es, p, h => by
    obtain ⟨r, hr⟩ := h (k, v) (by simp)
    have ih := prefixLoop_all es (p + 1) (fun e he => h e (by simp [he]))
    simp only at hr
    simp [prefixLoop, hr, ctxDone, ih]

theorem lookupLoop_all {z : Serializer} {db : DB} : ∀ (l : List (Str × Str)) (p : Nat),
    (∀ e ∈ l, ∃ v r, get db e.2 = some v ∧ z.deser v = some r) →
    (lookupLoop z db none 0 p l).recs = l.filterMap (fun e => (get db e.2).bind z.deser) ∧
      (lookupLoop z db none 0 p l).err = none
  | [], _, _ => ⟨rfl, rfl⟩
  | (k, v) :: es, p, h => by
    obtain ⟨w, r, hg, hr⟩ := h (k, v) (by simp)
    have ih := lookupLoop_all es (p + 1) (fun e he => h e (by simp [he]))
    simp only at hg
    simp [lookupLoop, hg, hr, ctxDone, ih]

variable {N : Names} {z : Serializer}

/-- What a read of any stream name, used or not, returns. -/
theorem prefix_any {db : DB} {L : Log} (h : Sim N z db L) (hL : L.WF) (a : Str) (r : Record) :
    r ∈ (getEventsByPrefix z db none (getStreamKeyPrefix a) 0).recs ↔
      r ∈ L.recs ∧ a ++ [36, 33] <+: r.streamName ++ [36, 33] ++ uint64ToBytes r.seq := by
  have hv : DbIter.each ((DbIter.new db (getStreamKeyPrefix a)).items.length + 1)
      (DbIter.new db (getStreamKeyPrefix a)) = slice db (getStreamKeyPrefix a) :=
    DbIter.each_soi _ _ (by simp [DbIter.new])
  have hp : ∀ e, e ∈ slice db (getStreamKeyPrefix a) ↔ e ∈ db ∧ getStreamKeyPrefix a <+: e.1 := by
    intro e
    have : getStreamKeyPrefix a = (streamPrefix ++ (a ++ [36])) ++ [33] := by simp [getStreamKeyPrefix]
    rw [this, mem_slice _ _ _ (by omega)]
  have hpre : ∀ (b : Str) (n : Nat), getStreamKeyPrefix a <+: streamKey b n ↔
      a ++ [36, 33] <+: b ++ [36, 33] ++ uint64ToBytes n := by
    intro b n
    unfold streamKey getKeyWithNumber getStreamKeyPrefix
    rw [List.append_assoc, List.prefix_append_right_inj]
  have hent : ∀ e ∈ slice db (getStreamKeyPrefix a), ∃ r ∈ L.recs, z.deser e.2 = some r ∧
      a ++ [36, 33] <+: r.streamName ++ [36, 33] ++ uint64ToBytes r.seq := by
    rintro ⟨k, v⟩ he
    obtain ⟨hm, hk⟩ := (hp _).mp he
    rcases h.entries k v hm with rfl | ⟨r, hr, rfl | ⟨rfl, rfl⟩ | ⟨rfl, rfl⟩⟩
    · exact absurd hk (streamPrefix_gsn _)
    · obtain ⟨w, hw, hd⟩ := h.data r hr
      have := h.sorted.inj hm hw
      subst this
      exact ⟨r, hr, hd, (hpre _ _).mp hk⟩
    · exact absurd hk (streamPrefix_type _ _ _)
    · exact absurd hk (streamPrefix_all _ _)
  have hloop := prefixLoop_all (slice db (getStreamKeyPrefix a)) 0
    (fun e he => by obtain ⟨r, _, hd, _⟩ := hent e he; exact ⟨r, hd⟩)
  unfold getEventsByPrefix
  simp only [hv]
  have key : r ∈ (slice db (getStreamKeyPrefix a)).filterMap (fun e => z.deser e.2) ↔
      r ∈ L.recs ∧ a ++ [36, 33] <+: r.streamName ++ [36, 33] ++ uint64ToBytes r.seq := by
    rw [List.mem_filterMap]
    constructor
    · rintro ⟨e, he, hd⟩
      obtain ⟨r', hr', hd', hc⟩ := hent e he
      rw [hd] at hd'
      simp only [Option.some.injEq] at hd'
      subst hd'
      exact ⟨hr', hc⟩
    · rintro ⟨hr, hc⟩
      obtain ⟨v, hm, hd⟩ := h.data r hr
      exact ⟨_, (hp _).mpr ⟨hm, (hpre _ _).mpr hc⟩, hd⟩
  split
  · rename_i h0
    rw [List.length_eq_zero_iff] at h0
    rw [h0] at key
    simpa using key
  · rw [hloop.1]; exact key

/-- What a read of any aggregate type, used or not, returns. -/
theorem lookup_any {db : DB} {L : Log} (h : Sim N z db L) (hL : L.WF) (a : Str) (r : Record) :
    r ∈ (getEventsByLookup z db none (getAggregateTypeKeyPrefix a) 0).recs ↔
      r ∈ L.recs ∧ a ++ [36, 33] <+: r.aggType ++ [36, 33] ++ uint64ToBytes r.gsn := by
  have hp : ∀ e, e ∈ slice db (getAggregateTypeKeyPrefix a) ↔
      e ∈ db ∧ getAggregateTypeKeyPrefix a <+: e.1 := by
    intro e
    have : getAggregateTypeKeyPrefix a = (aggregateTypePrefix ++ (a ++ [36])) ++ [33] := by
      simp [getAggregateTypeKeyPrefix]
    rw [this, mem_slice _ _ _ (by omega)]
  have hpre : ∀ (b : Str) (n : Nat), getAggregateTypeKeyPrefix a <+: typeKey b n ↔
      a ++ [36, 33] <+: b ++ [36, 33] ++ uint64ToBytes n := by
    intro b n
    unfold typeKey getKeyWithNumber getAggregateTypeKeyPrefix
    rw [List.append_assoc, List.prefix_append_right_inj]
  have hent : ∀ e ∈ slice db (getAggregateTypeKeyPrefix a), ∃ r ∈ L.recs,
      (∃ v, get db e.2 = some v ∧ z.deser v = some r) ∧
      a ++ [36, 33] <+: r.aggType ++ [36, 33] ++ uint64ToBytes r.gsn := by
    rintro ⟨k, v⟩ he
    obtain ⟨hm, hk⟩ := (hp _).mp he
    rcases h.entries k v hm with rfl | ⟨r, hr, rfl | ⟨rfl, rfl⟩ | ⟨rfl, rfl⟩⟩
    · exact absurd hk (typePrefix_gsn _)
    · exact absurd hk (typePrefix_stream _ _ _)
    · exact ⟨r, hr, ⟨_, (h.get_data hr).2, (h.get_data hr).1⟩, (hpre _ _).mp hk⟩
    · exact absurd hk (typePrefix_all _ _)
  have hloop := lookupLoop_all (z := z) (db := db) (slice db (getAggregateTypeKeyPrefix a)) 0
    (fun e he => by obtain ⟨r, _, ⟨v, h1, h2⟩, _⟩ := hent e he; exact ⟨v, r, h1, h2⟩)
  unfold getEventsByLookup
  simp only [lookupStart_each, gt_iff_lt, Nat.lt_irrefl, if_false]
  rw [hloop.1, List.mem_filterMap]
  constructor
  · rintro ⟨e, he, hd⟩
    obtain ⟨r', hr', ⟨v, h1, h2⟩, hc⟩ := hent e he
    rw [h1, Option.bind_some, h2] at hd
    simp only [Option.some.injEq] at hd
    subst hd
    exact ⟨hr', hc⟩
  · rintro ⟨hr, hc⟩
    refine ⟨_, (hp _).mpr ⟨h.types r hr, (hpre _ _).mpr hc⟩, ?_⟩
    show (get db (streamKey r.streamName r.seq)).bind z.deser = some r
    rw [(h.get_data hr).2]
    exact (h.get_data hr).1

/-! ## C12 -/

/-- **C12**, reads of any name. After every history on names that do not clash, reading a stream under
*any* name `a`, in use or not, returns exactly the live events for which `a$!` begins
`stream$!number`, the number in eight bytes; and reading an aggregate type likewise, with the global
number. -/
theorem C12_any_name (hz : z.Lawful) (ops : List Op) (hn : ∀ op ∈ ops, op.NamesIn N)
    (hb : (ops.map Op.size).sum < 2 ^ 64) (a : Str) (all : Iter) (hall : events z (run z ops) none 0 = .ok all) :
    (∃ it, eventsByStream z (run z ops) none 0 a = .ok it ∧ ∀ r, r ∈ it.recs ↔
      r ∈ all.recs ∧ a ++ [36, 33] <+: r.streamName ++ [36, 33] ++ uint64ToBytes r.seq) ∧
    (∃ it, eventsByAggregateTypes z (run z ops) (fun _ => none) 0 [a] = .ok it ∧ ∀ r, r ∈ it.recs ↔
      r ∈ all.recs ∧ a ++ [36, 33] <+: r.aggType ++ [36, 33] ++ uint64ToBytes r.gsn) := by
  obtain ⟨⟨hs, hw, htx, hmx, hst⟩, hle⟩ := run_simA hz ops hn hb
  have hmu : (run z ops).muxHeld = false := by
    cases hx : (run z ops).muxHeld with
    | false => rfl
    | true => simp [events, hx] at hall
  simp only [events, hmu, Bool.false_eq_true, if_false, lookup_all hs hw none 0 (by omega),
    Outcome.ok.injEq] at hall
  have hrec : all.recs = (aRun z ops).log.recs := by
    rw [← hall]; simp [cut]
  rw [hrec]
  refine ⟨⟨_, by simp only [eventsByStream, hmu, Bool.false_eq_true, if_false], prefix_any hs hw a⟩,
    ⟨_, by simp only [eventsByAggregateTypes, hmu, Bool.false_eq_true, false_and, if_false],
      lookup_any hs hw a⟩⟩

/-- Every call is addressed to stream `a` or stream `b`, and its events' types contain no `$!`. -/
def OnStreams (a b : Str) : Op → Prop
  | .save st _ _ ers => (st = a ∨ st = b) ∧ ∀ er ∈ ers, NoSep er.event.aggType = true
  | .delete st _ _ => st = a ∨ st = b

/-- Every event saved is of type `a` or of type `b`, and the streams' names contain no `$!`. -/
def OfTypes (a b : Str) : Op → Prop
  | .save st _ _ ers => NoSep st = true ∧ ∀ er ∈ ers, er.event.aggType = a ∨ er.event.aggType = b
  | .delete st _ _ => NoSep st = true

/-- **C12**, exactly. Two different stream names are kept apart, that is, in no store whatever was saved
and deleted in them does a read of one return an event of the other, if and only if they do not clash. -/
theorem C12_streams_exact (a b : Str) (hab : a ≠ b) :
    (∀ z : Serializer, z.Lawful → ∀ ops : List Op, (∀ op ∈ ops, OnStreams a b op) →
      (ops.map Op.size).sum < 2 ^ 64 → ∀ st, st = a ∨ st = b → ∀ c n it,
      eventsByStream z (run z ops) c n st = .ok it → ∀ r ∈ it.recs, r.streamName = st) ↔
    ¬ Clash a b ∧ ¬ Clash b a := by
  constructor
  · intro h
    have main : ∀ a' b', (a' = a ∧ b' = b) ∨ (a' = b ∧ b' = a) → ¬ Clash a' b' := by
      intro a' b' hx hc
      have hab' : a' ≠ b' := by rcases hx with ⟨rfl, rfl⟩ | ⟨rfl, rfl⟩ <;> simp_all [ne_comm]
      obtain ⟨n, h1, h2, hp⟩ := clash_number hc
      let N : Names := ⟨(· = b'), (· = [116]), fun _ _ h1 h2 _ => h1.trans h2.symm,
        fun _ _ h1 h2 _ => h1.trans h2.symm⟩
      have hr := run_copies N (st := b') (er := ev [116] [105] [1]) rfl rfl (by decide) n (by omega) h2
      have hw : (Log.empty.append id b' (List.replicate n (ev [116] [105] [1]))).WF :=
        Log.WF.empty.append demo_lawful b' _
      have hmem : mkRecord b' n n (ev [116] [105] [1]) ∈
          (Log.empty.append id b' (List.replicate n (ev [116] [105] [1]))).recs := by
        have := numbered_replicate b' (ev [116] [105] [1]) n 0 0 (n - 1) (by omega)
        rw [show 0 + 1 + (n - 1) = n from by omega] at this
        simpa [Log.append, Log.empty, Log.streamLen, Log.stream] using this
      have hin := (prefix_any hr.1 hw a' (mkRecord b' n n (ev [116] [105] [1]))).mpr ⟨hmem, hp⟩
      have := h demo demo_lawful [.save b' none none (List.replicate n (ev [116] [105] [1]))]
        (by
          intro op hop
          simp only [List.mem_singleton] at hop
          subst hop
          refine ⟨by rcases hx with ⟨_, rfl⟩ | ⟨_, rfl⟩ <;> simp, ?_⟩
          intro er her
          rw [(List.mem_replicate.mp her).2]; decide)
        (by simpa [Op.size] using h2) a' (by rcases hx with ⟨rfl, _⟩ | ⟨rfl, _⟩ <;> simp) none 0 _
        (by simp only [eventsByStream, hr.2, Bool.false_eq_true, if_false]) _ hin
      exact hab' this.symm
    exact ⟨main a b (Or.inl ⟨rfl, rfl⟩), main b a (Or.inr ⟨rfl, rfl⟩)⟩
  · rintro ⟨h1, h2⟩ z hz ops hops hb st hst c n it hit r hr
    let N : Names := ⟨fun s => s = a ∨ s = b, fun s => NoSep s = true,
      by rintro x y (rfl | rfl) (rfl | rfl) hc <;> first | rfl | exact absurd hc h1 | exact absurd hc h2,
      Names.plain.types_apart⟩
    have hn : ∀ op ∈ ops, op.NamesIn N := by
      intro op hop
      have := hops op hop
      cases op with
      | save st e c ers => exact this
      | delete st e c => exact this
    exact (C12_partial hz ops hn hb).1 c n st it hst hit r hr

/-- **C12**, exactly, for aggregate types. -/
theorem C12_types_exact (a b : Str) (hab : a ≠ b) :
    (∀ z : Serializer, z.Lawful → ∀ ops : List Op, (∀ op ∈ ops, OfTypes a b op) →
      (ops.map Op.size).sum < 2 ^ 64 → ∀ t, t = a ∨ t = b → ∀ c g it, g < 2 ^ 64 →
      eventsByAggregateTypes z (run z ops) c g [t] = .ok it → ∀ r ∈ it.recs, r.aggType = t) ↔
    ¬ Clash a b ∧ ¬ Clash b a := by
  constructor
  · intro h
    have main : ∀ a' b', (a' = a ∧ b' = b) ∨ (a' = b ∧ b' = a) → ¬ Clash a' b' := by
      intro a' b' hx hc
      have hab' : a' ≠ b' := by rcases hx with ⟨rfl, rfl⟩ | ⟨rfl, rfl⟩ <;> simp_all [ne_comm]
      obtain ⟨n, h1, h2, hp⟩ := clash_number hc
      let N : Names := ⟨(· = [115]), (· = b'), fun _ _ h1 h2 _ => h1.trans h2.symm,
        fun _ _ h1 h2 _ => h1.trans h2.symm⟩
      have hr := run_copies N (st := [115]) (er := ev b' [105] [1]) rfl rfl (by simp [ev]) n (by omega) h2
      have hw : (Log.empty.append id [115] (List.replicate n (ev b' [105] [1]))).WF :=
        Log.WF.empty.append demo_lawful [115] _
      have hmem : mkRecord [115] n n (ev b' [105] [1]) ∈
          (Log.empty.append id [115] (List.replicate n (ev b' [105] [1]))).recs := by
        have := numbered_replicate [115] (ev b' [105] [1]) n 0 0 (n - 1) (by omega)
        rw [show 0 + 1 + (n - 1) = n from by omega] at this
        simpa [Log.append, Log.empty, Log.streamLen, Log.stream] using this
      have hin := (lookup_any hr.1 hw a' (mkRecord [115] n n (ev b' [105] [1]))).mpr ⟨hmem, hp⟩
      have := h demo demo_lawful [.save [115] none none (List.replicate n (ev b' [105] [1]))]
        (by
          intro op hop
          simp only [List.mem_singleton] at hop
          subst hop
          refine ⟨by decide, ?_⟩
          intro er her
          rw [(List.mem_replicate.mp her).2]
          rcases hx with ⟨_, rfl⟩ | ⟨_, rfl⟩ <;> simp [ev])
        (by simpa [Op.size] using h2) a' (by rcases hx with ⟨rfl, _⟩ | ⟨rfl, _⟩ <;> simp) (fun _ => none) 0 _
        (by omega) (by simp only [eventsByAggregateTypes, hr.2, Bool.false_eq_true, false_and, if_false]) _ hin
      exact hab' this.symm
    exact ⟨main a b (Or.inl ⟨rfl, rfl⟩), main b a (Or.inr ⟨rfl, rfl⟩)⟩
  · rintro ⟨h1, h2⟩ z hz ops hops hb t ht c g it hg hit r hr
    let N : Names := ⟨fun s => NoSep s = true, fun s => s = a ∨ s = b, Names.plain.streams_apart,
      by rintro x y (rfl | rfl) (rfl | rfl) hc <;> first | rfl | exact absurd hc h1 | exact absurd hc h2⟩
    have hn : ∀ op ∈ ops, op.NamesIn N := by
      intro op hop
      have := hops op hop
      cases op with
      | save st e c ers => exact this
      | delete st e c => exact this
    exact (C12_partial hz ops hn hb).2.1 c g t it hg ht hit r hr

/-- "a" and "a$!b" clash, so nothing keeps them apart. -/
example : Clash [97] sAB := ⟨[0, 0, 0, 0, 0, 0, 0, 1], rfl, by decide, by decide⟩

/-- The separator in a name is harmless by itself: "a$!b" and "c$!d" do not clash. -/
theorem apart_example : ¬ Clash sAB [99, 36, 33, 100] ∧ ¬ Clash [99, 36, 33, 100] sAB := by
  constructor <;> (rintro ⟨x, _, _, h⟩; simp [sAB] at h)

/-- Even two names one of which never held the separator's bytes next to a letter may clash, on one
event only: "b" and "b$!" followed by six zero bytes clash on event 9249 of "b". -/
example : Clash ([98] ++ [36, 33] ++ [0, 0, 0, 0, 0, 0]) [98] ∧
    ([98] ++ [36, 33] ++ [0, 0, 0, 0, 0, 0]) ++ [36, 33] =
      (streamKey [98] 9249).drop streamPrefix.length := by
  refine ⟨⟨[0, 0, 0, 0, 0, 0, 36, 33], rfl, by decide, by decide⟩, by decide⟩

example : ∀ op ∈ [Op.save sAB none none [ev [97] [36] [1]], .save [99, 36, 33, 100] none none [ev [98] [36] [1]]],
    OnStreams sAB [99, 36, 33, 100] op := by
  intro op hop
  simp only [List.mem_cons, List.not_mem_nil, or_false] at hop
  rcases hop with rfl | rfl <;> simp [OnStreams, ev, NoSep]

end RangeDB.LD

import Verif.Proof.Poison
import Verif.Thm.InMemory
import Verif.Thm.IoStream
import Verif.Proof.Utf8

/-!
# Theorems: what the stores accept with the JSON serializer, and what they can read back (C61, C62)

`Serializer.Lawful`, the assumption of the theorems about the stores, says that what the serializer accepts it reads
back. Here is where it holds of the JSON serializer that the stores use by default, and where it does not.
-/

namespace RangeDB.Json

theorem im_recordsByIDs_deser (ty : Types) (s : IM.State) (c : Option Nat) (keep : Record → Bool) (ids : List Nat) :
    ∀ n, IM.recordsByIDs (serializer ty) s c keep n ids = IM.recordsByIDs (goodZ ty) s c keep n ids := by
  induction ids with
  | nil => intro n; rfl
  | cons id ids ih =>
    intro n
    have e : (serializer ty).deser = (goodZ ty).deser := rfl
    simp only [IM.recordsByIDs, e, ih]

theorem im_events_deser (ty : Types) (s : IM.State) (c : Option Nat) (g : Nat) :
    IM.events (serializer ty) s c g = IM.events (goodZ ty) s c g := im_recordsByIDs_deser ..

theorem ld_lookupLoop_deser (ty : Types) (db : KV.DB) (c : Option Nat) (g : Nat) (l : KV.DB) :
    ∀ n, LD.lookupLoop (serializer ty) db c g n l = LD.lookupLoop (goodZ ty) db c g n l := by
  induction l with
  | nil => intro n; rfl
  | cons x l ih =>
    intro n
    have e : (serializer ty).deser = (goodZ ty).deser := rfl
    simp only [LD.lookupLoop, e, ih]

theorem ld_events_deser (ty : Types) (s : LD.State) (c : Option Nat) (g : Nat) :
    LD.events (serializer ty) s c g = LD.events (goodZ ty) s c g := by
  unfold LD.events LD.getEventsByLookup
  simp only [ld_lookupLoop_deser]

/-- What a successful `Save` of one event does. -/
theorem im_save_one {z : Serializer} {s : IM.State} {st : Str} {er : EventRecord} {k : Nat}
    (h : (IM.saveEvents z s st none none [er]).out = .ok k) :
    ∃ b, z.ser (mkRecord st (s.gsn + 1) (IM.streamSeq s st + 1) er) = some b ∧
      (IM.saveEvents z s st none none [er]).state.records = s.records ++ [s.gsn + 1] ∧
      (IM.saveEvents z s st none none [er]).state.data = IM.setMap s.data (s.gsn + 1) (some b) ∧
      (IM.saveEvents z s st none none [er]).state.gsn = s.gsn + 1 ∧
      (IM.saveEvents z s st none none [er]).state.streams =
        IM.setMap s.streams st (some (IM.get s.streams st ++ [s.gsn + 1])) := by
  unfold IM.saveEvents at h ⊢
  simp only [List.length_cons, List.length_nil, Nat.reduceAdd, Nat.lt_irrefl, if_false] at h ⊢
  cases hl : s.locked with
  | true => simp [hl] at h
  | false =>
    simp only [hl, Bool.false_eq_true, if_false, IM.saveLoop, ne_eq, not_true_eq_false, false_and, ctxDone,
      IM.saveEvent, IM.saveEvent.store] at h ⊢
    cases hz : z.ser (mkRecord st (s.gsn + 1) (IM.streamSeq s st + 1) er) with
    | some b => exact ⟨b, rfl, rfl, rfl, rfl, rfl⟩
    | none =>
      simp only [hz] at h
      split at h <;> rename_i heq <;> split at heq <;> simp_all

/-! ## C61 -/

/-- The full claim: what `Save` accepts, `Events` returns. -/
def C61_full (ty : Types) : Prop :=
  ∀ (ops : List Op) (st : Str) (er : EventRecord) (k : Nat),
    (IM.saveEvents (serializer ty) (IM.run (serializer ty) ops) st none none [er]).out = .ok k →
    (IM.events (serializer ty) (IM.saveEvents (serializer ty) (IM.run (serializer ty) ops) st none none [er]).state
      none 0).err = none

/-- **C61** where it holds, in-memory store: after any history of saves of good events and of deletes, a successful
save of good events is read back: exactly these events, as they were given, behind the earlier ones.
Missing: events that are not `GoodEvent`. -/
theorem C61_inmemory_partial (ty : Types) (ops : List Op) (hg : ∀ op ∈ ops, GoodOp ty op) (st : Str)
    (expected cancelAt : Option Nat) (ers : List EventRecord) (hgs : GoodOp ty (.save st expected cancelAt ers))
    (hb : (ops.map Op.size).sum + ers.length < 2 ^ 64) (k : Nat)
    (hok : (IM.saveEvents (serializer ty) (IM.run (serializer ty) ops) st expected cancelAt ers).out = .ok k) :
    ∃ n g,
      (IM.events (serializer ty) (IM.run (serializer ty) ops) none 0).err = none ∧
      IM.events (serializer ty) (IM.saveEvents (serializer ty) (IM.run (serializer ty) ops) st expected cancelAt ers).state
        none 0 = ⟨(IM.events (serializer ty) (IM.run (serializer ty) ops) none 0).recs ++ numbered st g n ers, none⟩ := by
  obtain ⟨h1, h2⟩ := im_run_congr ops hg (by omega)
  rw [h1, im_saveEvents_congr h2 hgs.1 expected cancelAt ers hgs.2 hb] at hok ⊢
  obtain ⟨n, g, _, h4, _, _, h5, _⟩ := IM.C01_save_appends (goodZ_lawful ty) ops st expected cancelAt ers k hok
  refine ⟨n, g, by rw [im_events_deser]; exact h4, ?_⟩
  rw [im_events_deser, im_events_deser, h5]
  have : (goodZ ty).view = id := rfl
  rw [this, List.map_id]

/-- **C61** where it holds, LevelDB store. -/
theorem C61_leveldb_partial (ty : Types) (ops : List Op) (hg : ∀ op ∈ ops, GoodOp ty op)
    (hn : ∀ op ∈ ops, op.NamesIn N) (st : Str) (expected cancelAt : Option Nat) (ers : List EventRecord)
    (hgs : GoodOp ty (.save st expected cancelAt ers)) (hno : (Op.save st expected cancelAt ers).NamesIn N)
    (hb : (ops.map Op.size).sum + ers.length < 2 ^ 64) (old : Iter) (n : Nat)
    (hold : LD.events (serializer ty) (LD.run (serializer ty) ops) none 0 = .ok old)
    (hlen : LD.totalEventsInStream (LD.run (serializer ty) ops) st false = .ok n) (k : Nat)
    (hok : (LD.saveEvents (serializer ty) (LD.run (serializer ty) ops) st expected cancelAt ers).out = .ok k) :
    ∃ g, LD.events (serializer ty)
      (LD.saveEvents (serializer ty) (LD.run (serializer ty) ops) st expected cancelAt ers).state none 0 =
        .ok ⟨old.recs ++ numbered st g n ers, none⟩ := by
  have h1 := ld_run_congr ops hg hn (by omega)
  rw [h1] at hold hlen hok ⊢
  rw [ld_saveEvents_congr ops hn hgs.1 expected cancelAt ers hno hgs.2 hb] at hok ⊢
  rw [ld_events_deser] at hold ⊢
  obtain ⟨_, _, g, _, h5, _⟩ :=
    (LD.C11_save_appends (goodZ_lawful ty) ops hn st expected cancelAt ers hno hb old n hold hlen).1 k hok
  have : (goodZ ty).view = id := rfl
  rw [this, List.map_id] at h5
  exact ⟨g, h5⟩

/-- An event whose data is the JSON text `d`. -/
def demoEr (d : Str) : EventRecord := ⟨⟨[65], [49], [69], d⟩, nullText, [117], 7⟩

/-- `{"k":"€\""}`. -/
def goodData : Str := (Json.obj [([107], .str [226, 130, 172, 34])]).text

theorem demoEr_good : GoodEvent unbound (demoEr goodData) where
  aggType := show Valid [65] by decide
  aggId := show Valid [49] by decide
  evType := show Valid [69] by decide
  uuid := show Valid [117] by decide
  now := show 7 < 2 ^ 64 by decide
  data := ⟨.obj [([107], .str [226, 130, 172, 34])], by simp only [Json.WF, WFf]; decide, by simp, rfl, rfl⟩
  metadata := ⟨.null, by simp [Json.WF], rfl, rfl⟩

example : GoodOp unbound (.save [65, 33, 49] none none [demoEr goodData, demoEr goodData]) :=
  ⟨by decide, by intro er h; simp only [List.mem_cons, List.not_mem_nil, or_false, or_self] at h; subst h; exact demoEr_good⟩

example : (IM.saveEvents (serializer unbound)
    (IM.run (serializer unbound) [.save [65, 33, 49] none none [demoEr goodData, demoEr goodData]])
    [65, 33, 49] none none [demoEr goodData]).out = .ok 3 := by decide +kernel

/-- **C61 is false**: an event whose data is JSON `null` (which the HTTP API produces from a request without data) is
accepted. From then on, whatever else is saved, *every* read of all events from any global number returns only
events saved before that one, and ends with an error (or waits for ever, if one of the later saves has panicked): the events
saved later can no longer be read. -/
theorem C61_null_poisons (ty : Types) (ops : List Op) (hg : ∀ op ∈ ops, GoodOp ty op)
    (hb : (ops.map Op.size).sum < 2 ^ 63) (st : Str) (er : EventRecord) (hd : er.event.data = nullText)
    (hm : ∃ m : Json, m.WF ∧ er.metadata = m.text) (hnow : er.now < 2 ^ 64) (k : Nat)
    (hok : (IM.saveEvents (serializer ty) (IM.run (serializer ty) ops) st none none [er]).out = .ok k)
    (later : List Op) (hs : ∀ op ∈ later, IM.isSave op = true) (g : Nat) :
    IM.events (serializer ty)
      (later.foldl (IM.step (serializer ty))
        (IM.saveEvents (serializer ty) (IM.run (serializer ty) ops) st none none [er]).state) none g =
      ⟨(IM.events (serializer ty) (IM.run (serializer ty) ops) none g).recs, some .deserialize⟩ := by
  obtain ⟨h1, h2⟩ := im_run_congr ops hg (by omega)
  obtain ⟨L, hL⟩ := IM.run_E (goodZ_lawful ty) ops
  obtain ⟨b, hser, hr, hdata, hgsn, _⟩ := im_save_one hok
  have hk := IM.saves_keep (serializer ty) later hs
    (IM.saveEvents (serializer ty) (IM.run (serializer ty) ops) st none none [er]).state
  rw [h1] at hser hr hdata hgsn hk ⊢
  generalize later.foldl (IM.step (serializer ty)) _ = s' at hk ⊢
  generalize (IM.saveEvents (serializer ty) (IM.run (goodZ ty) ops) st none none [er]).state = s1 at hr hdata hgsn hk ⊢
  obtain ⟨post, hpost⟩ := hk.records
  have hrecs : (IM.events (serializer ty) (IM.run (goodZ ty) ops) none g).recs = L.recs.filter (fun r => r.gsn ≥ g) := by
    rw [im_events_deser, IM.events_E hL]; rfl
  obtain ⟨m, hmw, hme⟩ := hm
  obtain ⟨b', hb1, hb2⟩ := null_poison ty (mkRecord st ((IM.run (goodZ ty) ops).gsn + 1)
    (IM.streamSeq (IM.run (goodZ ty) ops) st + 1) er)
    ⟨by have := h2.1; simp only [mkRecord]; omega, by have := h2.2 st; simp only [mkRecord, IM.streamSeq]; omega, hnow⟩ hd m hmw hme
  have hbb : b' = b := by
    simp only [serializer] at hser
    rw [hser] at hb1
    exact (Option.some.inj hb1).symm
  subst hbb
  have hne : deserialize ty b' = none := by
    have := hb2 []
    rw [List.append_nil] at this
    simp [deserialize, this]
  rw [hrecs]
  unfold IM.events
  rw [hpost, hr, hL.records, List.append_assoc, List.singleton_append]
  have hold : ∀ id, id ≤ (IM.run (goodZ ty) ops).gsn → s'.data id = (IM.run (goodZ ty) ops).data id := by
    intro id hid
    rw [hk.data id (by omega), hdata]
    simp only [IM.setMap]
    rw [if_neg (by omega)]
  refine IM.recordsByIDs_stops (z := serializer ty) s' _ L.recs ?_ _ b' ?_ hne post 0
  · intro r hr
    obtain ⟨x, hx1, hx2⟩ := hL.data r hr
    have := (hL.bounded r hr).2
    exact ⟨x, by rw [hold r.gsn (by rw [hL.gsn]; exact this), hx1], hx2⟩
  · rw [hk.data _ (by omega), hdata]
    simp [IM.setMap]

/-- The premises can be met, so the full claim is false. -/
theorem C61_false : ¬ C61_full unbound := by
  intro h
  exact absurd (h [.save [65, 33, 49] none none [demoEr goodData]] [65, 33, 49] (demoEr nullText) 2 (by decide +kernel))
    (by decide +kernel)

/-- The example in full: three events saved, all three successfully; reading returns the first. -/
example : IM.events (serializer unbound) (IM.run (serializer unbound)
      [.save [65, 33, 49] none none [demoEr goodData], .save [65, 33, 49] none none [demoEr nullText],
       .save [65, 33, 50] none none [demoEr goodData]]) none 0 =
    ⟨[mkRecord [65, 33, 49] 1 1 (demoEr goodData)], some .deserialize⟩ := by decide +kernel

/-- On the LevelDB store the event also ends the life of the store: an attempt to delete the stream fails and keeps
the database's only transaction open, so that the next save waits for ever. -/
theorem C61_leveldb_wedged :
    let s := LD.run (serializer unbound) [.save [65, 33, 49] none none [demoEr nullText]]
    (LD.saveEvents (serializer unbound) (LD.run (serializer unbound) []) [65, 33, 49] none none [demoEr nullText]).out
      = .ok 1 ∧
    (LD.deleteStream (serializer unbound) s [65, 33, 49] 1 false).2 = .err .deserialize ∧
    (LD.saveEvents (serializer unbound) (LD.deleteStream (serializer unbound) s [65, 33, 49] 1 false).1
      [66, 33, 49] none none [demoEr goodData]).out = .blocked := by decide +kernel

/-! ## C62 -/

/-- The full claim: names come back as they were given. -/
def C62_full : Prop :=
  ∀ (st : Str) (er : EventRecord) (k : Nat),
    (IM.saveEvents (serializer unbound) IM.init st none none [er]).out = .ok k →
    (IM.events (serializer unbound) (IM.saveEvents (serializer unbound) IM.init st none none [er]).state none 0).recs.map
      (fun r => (r.streamName, r.aggType, r.aggId)) = [(st, er.event.aggType, er.event.aggId)]

/-- **C62 is false**: names are changed on the way to the store and back whenever they are not valid UTF-8. After any
history of good events, what is read back of an accepted event is the event with every invalid byte of its names
replaced by the three bytes of U+FFFD. -/
theorem C62_names_replaced (ops : List Op) (hg : ∀ op ∈ ops, GoodOp unbound op)
    (hb : (ops.map Op.size).sum < 2 ^ 63) (st : Str) (er : EventRecord)
    (hd : ∃ d : Json, d.WF ∧ d ≠ .null ∧ d.canon = d ∧ er.event.data = d.text)
    (hm : ∃ m : Json, m.WF ∧ m.canon = m ∧ er.metadata = m.text) (hnow : er.now < 2 ^ 64) (k : Nat)
    (hok : (IM.saveEvents (serializer unbound) (IM.run (serializer unbound) ops) st none none [er]).out = .ok k) :
    ∃ n g, IM.events (serializer unbound)
      (IM.saveEvents (serializer unbound) (IM.run (serializer unbound) ops) st none none [er]).state none 0 =
      ⟨(IM.events (serializer unbound) (IM.run (serializer unbound) ops) none 0).recs ++ [saneRec (mkRecord st g n er)],
        none⟩ := by
  obtain ⟨h1, h2⟩ := im_run_congr ops hg (by omega)
  obtain ⟨L, hL⟩ := IM.run_E (goodZ_lawful unbound) ops
  obtain ⟨b, hser, hr, hdata, hgsn, _⟩ := im_save_one hok
  rw [h1] at hser hr hdata hgsn ⊢
  generalize (IM.saveEvents (serializer unbound) (IM.run (goodZ unbound) ops) st none none [er]).state = s1
    at hr hdata hgsn ⊢
  have hrecs : (IM.events (serializer unbound) (IM.run (goodZ unbound) ops) none 0).recs = L.recs := by
    rw [im_events_deser, IM.events_E_zero hL]
  obtain ⟨d, hdw, hdn, hdc, hde⟩ := hd
  obtain ⟨m, hmw, hmc, hme⟩ := hm
  refine ⟨IM.streamSeq (IM.run (goodZ unbound) ops) st + 1, (IM.run (goodZ unbound) ops).gsn + 1, ?_⟩
  obtain ⟨b', hb1, hb2⟩ := invalid_utf8 (mkRecord st ((IM.run (goodZ unbound) ops).gsn + 1)
    (IM.streamSeq (IM.run (goodZ unbound) ops) st + 1) er)
    ⟨by have := h2.1; simp only [mkRecord]; omega, by have := h2.2 st; simp only [mkRecord, IM.streamSeq]; omega, hnow⟩
    d m hdw hdn hdc hde hmw hmc hme
  have hbb : b' = b := by
    simp only [serializer] at hser
    rw [hser] at hb1
    exact (Option.some.inj hb1).symm
  subst hbb
  rw [hrecs]
  unfold IM.events
  rw [hr, hL.records]
  have hmap : L.recs.map (·.gsn) ++ [(IM.run (goodZ unbound) ops).gsn + 1] =
      (L.recs ++ [saneRec (mkRecord st ((IM.run (goodZ unbound) ops).gsn + 1)
        (IM.streamSeq (IM.run (goodZ unbound) ops) st + 1) er)]).map (·.gsn) := by
    simp [saneRec, mkRecord]
  rw [hmap, IM.recordsByIDs_spec (z := serializer unbound), IM.cutFrom_zero, List.filter_eq_self.mpr (by simp)]
  · rfl
  · intro r hr
    rw [List.mem_append] at hr
    rcases hr with hr | hr
    · obtain ⟨x, hx1, hx2⟩ := hL.data r hr
      have := (hL.bounded r hr).2
      refine ⟨x, ?_, hx2⟩
      rw [hdata]
      simp only [IM.setMap]
      rw [if_neg (by rw [hL.gsn]; omega), hx1]
    · simp only [List.mem_singleton] at hr
      subst hr
      exact ⟨b', by rw [hdata]; simp [IM.setMap, saneRec, mkRecord], hb2⟩

/-- **C62, what holds**: names that are UTF-8 text are not changed, and no others are kept. -/
theorem C62_utf8_kept_partial (r : Record) :
    saneRec r = r ↔ Utf8 r.streamName ∧ Utf8 r.aggType ∧ Utf8 r.aggId ∧ Utf8 r.eventId ∧ Utf8 r.evType := by
  simp only [← valid_iff_utf8, Valid]
  constructor
  · intro h
    exact ⟨congrArg Record.streamName h, congrArg Record.aggType h, congrArg Record.aggId h,
      congrArg Record.eventId h, congrArg Record.evType h⟩
  · rintro ⟨h1, h2, h3, h4, h5⟩
    simp only [saneRec, h1, h2, h3, h4, h5]

example : Utf8 [65, 33, 0xE2, 0x82, 0xAC, 0xF0, 0x9F, 0x98, 0x80] :=
  ⟨[65, 33, 0x20AC, 0x1F600], by decide, by decide⟩

/-- An event of the aggregate whose ID is the one byte `c`. -/
def idEr (c : Nat) : EventRecord := ⟨⟨[65], [c], [69], goodData⟩, nullText, [117], 7⟩

theorem C62_false : ¬ C62_full := by
  intro h
  exact absurd (h [65, 33, 255] (idEr 255) 1 (by decide +kernel)) (by decide +kernel)

/-- Two different aggregates, saved in two different streams, come back under one and the same name. -/
theorem C62_names_merge :
    (IM.events (serializer unbound) (IM.run (serializer unbound)
      [.save [65, 33, 255] none none [idEr 255], .save [65, 33, 254] none none [idEr 254]]) none 0).recs.map
        (fun r => (r.streamName, r.aggId, r.seq)) =
      [([65, 33, 239, 191, 189], [239, 191, 189], 1), ([65, 33, 239, 191, 189], [239, 191, 189], 1)] := by
  decide +kernel

end RangeDB.Json

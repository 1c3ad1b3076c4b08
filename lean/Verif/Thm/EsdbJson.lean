import Verif.Model.EsdbJson
import Verif.Thm.EventStoreDB
import Verif.Thm.EventStoreDBReads
import Verif.Proof.Http
import Verif.Thm.Constants

/-!
# What the EventStoreDB adapter reads is what it wrote (C125)

The theorems on the adapter (C43, C74, C75, C76, C112) are about any encoding of events that reads back what it wrote.
Here is where this is true of the JSON texts that the adapter uses.
-/

namespace RangeDB.EDB

open Json Http Demo

/-! ## Specification -/

/-- An event that the JSON texts keep: names in UTF-8, a time that fits, data that its type prints as it was, and
metadata whose numbers survive `float64`. -/
structure Storable (ty : Types) (fl : Str → Option Str) (name : Str) (er : EventRecord) : Prop where
  name : Utf8 name
  aggType : Utf8 er.event.aggType
  aggId : Utf8 er.event.aggId
  evType : Utf8 er.event.evType
  uuid : Utf8 er.uuid
  now : er.now < 2 ^ 64
  data : ∃ d : Json, d.WF ∧ er.event.data = d.text ∧ ty er.event.evType d = some er.event.data
  metadata : ∃ m : Json, m.WF ∧ Exact fl m ∧ m.canon = m ∧ er.metadata = m.text

/-- The calls of a history that save such events only. -/
def StorableOp (ty : Types) (fl : Str → Option Str) : EOp → Prop
  | .save _ _ _ name ers _ => ∀ er ∈ ers, Storable ty fl name er
  | .append _ _ name er ers _ => ∀ x ∈ er :: ers, Storable ty fl name x
  | .delete .. => True
  | .restart _ => True

/-! ## The texts -/

theorem parse_wf {v : Json} (h : v.WF) : parse v.text = some (v, []) := by
  have := parse_text v h [] (fun _ => Or.inl rfl)
  rwa [List.append_nil] at this

theorem marshal_wf {v : Json} (h : v.WF) : marshalValue v.text = some v := by
  simp [marshalValue, parse_wf h]

theorem metaJson_wf {name : Str} {er : EventRecord} {m : Json} (hn : Valid name) (h1 : Valid er.event.aggType)
    (h2 : Valid er.event.aggId) (h3 : Valid er.event.evType) (h4 : Valid er.uuid) (hm : m.WF) :
    (metaJson name er m).WF :=
  ⟨(by decide : Valid kRangeDBMetadata),
    ⟨(by decide : Valid kStreamName), hn, (by decide : Valid kAggregateType), h1, (by decide : Valid kAggregateID), h2,
      (by decide : Valid kInsertTimestamp), scanNum_natText _, (by decide : Valid kEventType), h3,
      (by decide : Valid kEventID), h4, trivial⟩,
    (by decide : Valid kEventMetadata), hm, trivial⟩

theorem decodeMeta_metaJson {fl : Str → Option Str} {name : Str} {er : EventRecord} {m m' : Json}
    (hw : (metaJson name er m).WF) (ht : er.now < 2 ^ 64) (hm : decodeAny fl m = some m') :
    decodeMeta fl (metaJson name er m).text =
      some ⟨name, er.event.aggType, er.event.aggId, er.now, er.event.evType, er.uuid, m', false⟩ := by
  have f1 : ∀ st l, Meta.field fl st (kRangeDBMetadata, .obj l) = l.foldl Meta.inner st := fun _ _ => rfl
  have f2 : ∀ st, Meta.field fl st (kEventMetadata, m) = { st with metadata := m' } := by
    intro st
    have : Meta.field fl st (kEventMetadata, m) =
      match decodeAny fl m with
      | some m => { st with metadata := m }
      | none => { st with bad := true } := rfl
    rw [this, hm]
  have g : ∀ st, Meta.inner st (kInsertTimestamp, .num (Dec.natText er.now)) = { st with ts := er.now } := by
    intro st
    have : Meta.inner st (kInsertTimestamp, .num (Dec.natText er.now)) = st.setTs (.num (Dec.natText er.now)) := rfl
    rw [this]
    simp only [Meta.setTs, Dec.parseUint_natText _ ht]
  have hv : ∃ l, metaJson name er m = .obj l ∧ l.foldl (Meta.field fl) .zero =
      ⟨name, er.event.aggType, er.event.aggId, er.now, er.event.evType, er.uuid, m', false⟩ := by
    refine ⟨_, rfl, ?_⟩
    rw [List.foldl_cons, List.foldl_cons, List.foldl_nil, f1, f2]
    rw [List.foldl_cons, List.foldl_cons, List.foldl_cons, List.foldl_cons, g]
    rfl
  obtain ⟨l, h1, h2⟩ := hv
  unfold decodeMeta
  rw [parse_wf hw, h1]
  simp only [h2]
  rfl

/-- **C125**, one event: its texts are read as what was written. -/
theorem json_roundTrip {ty : Types} {fl : Str → Option Str} {name : Str} {er : EventRecord}
    (h : Storable ty fl name er) : ∃ b, jsonEnc name er = some b ∧ jsonDec ty fl b = some (name, er) := by
  obtain ⟨d, hd, e1, e2⟩ := h.data
  obtain ⟨m, hm, hx, hc, e3⟩ := h.metadata
  have hw : (metaJson name er m).WF := metaJson_wf (valid_iff_utf8.mpr h.name) (valid_iff_utf8.mpr h.aggType)
    (valid_iff_utf8.mpr h.aggId) (valid_iff_utf8.mpr h.evType) (valid_iff_utf8.mpr h.uuid) hm
  refine ⟨((metaJson name er m).text, d.text), ?_, ?_⟩
  · simp only [jsonEnc, e1, e3, marshal_wf hm, marshal_wf hd]
  · simp only [jsonDec, decodeMeta_metaJson hw h.now (decodeAny_exact hx), parse_wf hd, e2, hc]
    rw [← e3]

open Classical in
/-- The encoding, restricted to the events it keeps. -/
noncomputable def keptCodec (ty : Types) (fl : Str → Option Str) : Codec :=
  ⟨fun name er => if Storable ty fl name er then jsonEnc name er else none, jsonDec ty fl, id⟩

theorem keptCodec_lawful (ty : Types) (fl : Str → Option Str) : (keptCodec ty fl).Lawful where
  roundTrip := by
    intro n er b h
    simp only [keptCodec] at h ⊢
    split at h
    · rename_i hg
      obtain ⟨b', h1, h2⟩ := json_roundTrip hg
      rw [h] at h1
      obtain rfl := Option.some.inj h1
      exact h2
    · simp at h
  aggType := fun _ => rfl

/-! ## Runs with two encodings -/

section
variable {C D : Codec}

theorem fromLinked_congr (h : C.dec = D.dec) : fromLinked C = fromLinked D := by
  funext b e; unfold fromLinked; rw [h]

theorem streamLoop_congr (h : C.dec = D.dec) (c : Config) (n : Nat) (name : Str) (es : List Stored) :
    streamLoop C c n name es = streamLoop D c n name es := by
  induction es with
  | nil => rfl
  | cons e es ih => simp only [streamLoop, ih, fromLinked_congr h]

theorem eventsByStream_congr (h : C.dec = D.dec) : eventsByStream C = eventsByStream D := by
  funext c s n name
  unfold eventsByStream
  simp only [streamLoop_congr h]

theorem eventsLoop_congr (h : C.dec = D.dec) (c : Config) (del : List Str) (es : List Stored) :
    eventsLoop C c del es = eventsLoop D c del es := by
  induction es with
  | nil => rfl
  | cons e es ih => simp only [eventsLoop, ih, fromLinked_congr h]

theorem typesLoop_congr (h : C.dec = D.dec) (c : Config) (del : List Str) (g : Nat) (ts : List Str)
    (es : List Stored) : typesLoop C c del g ts es = typesLoop D c del g ts es := by
  induction es with
  | nil => rfl
  | cons e es ih => simp only [typesLoop, ih, fromLinked_congr h]

theorem broadcasts_congr (h : C.dec = D.dec) (c : Config) (es : List Stored) :
    broadcasts C c es = broadcasts D c es := by
  induction es with
  | nil => rfl
  | cons e es ih => simp only [broadcasts, ih, fromLinked_congr h]

theorem getSeq_congr (h : C.dec = D.dec) : getStreamSequenceNumber C = getStreamSequenceNumber D := by
  funext c s name; unfold getStreamSequenceNumber; rw [eventsByStream_congr h]

theorem check_congr (h : C.dec = D.dec) : checkExpected C = checkExpected D := by
  funext c s f e name; unfold checkExpected; rw [getSeq_congr h]

theorem delete_congr (h : C.dec = D.dec) : deleteStream C = deleteStream D := by
  funext c s d e name; unfold deleteStream; rw [getSeq_congr h]

theorem propose_congr {name : Str} {ers : List EventRecord} (he : ∀ er ∈ ers, C.enc name er = D.enc name er) :
    ∀ t i, propose C name t i ers = propose D name t i ers := by
  induction ers with
  | nil => intro _ _; rfl
  | cons er ers ih =>
    intro t i
    simp only [propose, he er (by simp), ih (fun x hx => he x (by simp [hx]))]

theorem save_congr (h : C.dec = D.dec) {name : Str} {ers : List EventRecord}
    (he : ∀ er ∈ ers, C.enc name er = D.enc name er) (c : Config) (s : Server) (f : Bool) (bt : Server → Server)
    (net : Net) (ex : Option Nat) (commits : Nat → Nat) :
    saveEvents C c s f bt net ex name ers commits = saveEvents D c s f bt net ex name ers commits := by
  cases ers with
  | nil => rfl
  | cons er ers => simp only [saveEvents, check_congr h, propose_congr he]

end

theorem enc_kept {ty : Types} {fl : Str → Option Str} {name : Str} {ers : List EventRecord}
    (h : ∀ er ∈ ers, Storable ty fl name er) :
    ∀ er ∈ ers, (jsonCodec ty fl).enc name er = (keptCodec ty fl).enc name er := by
  intro er he
  simp only [jsonCodec, keptCodec]
  rw [if_pos (h er he)]

theorem step_kept {ty : Types} {fl : Str → Option Str} (c : Config) (w : World) (op : EOp)
    (h : StorableOp ty fl op) : World.step (jsonCodec ty fl) c w op = World.step (keptCodec ty fl) c w op := by
  have hd : (jsonCodec ty fl).dec = (keptCodec ty fl).dec := rfl
  cases op with
  | save ex f net name ers commits => simp only [World.step, save_congr hd (enc_kept h)]
  | append ex net name er ers commits => simp only [World.step, propose_congr (enc_kept h)]
  | delete a ex name => simp only [World.step, delete_congr hd]
  | restart a => rfl

/-- **C125**, transfer: in every history of saves of such events, of deletes and of restarts, the server, and with it
every read, is the same with the JSON texts as with an encoding for which the theorems on the adapter hold. -/
theorem C125_run (ty : Types) (fl : Str → Option Str) (c : Config) (ops : List EOp)
    (hg : ∀ op ∈ ops, StorableOp ty fl op) :
    World.run (jsonCodec ty fl) c ops = World.run (keptCodec ty fl) c ops ∧
    eventsByStream (jsonCodec ty fl) = eventsByStream (keptCodec ty fl) ∧
    events (jsonCodec ty fl) = events (keptCodec ty fl) ∧
    eventsByTypes (jsonCodec ty fl) = eventsByTypes (keptCodec ty fl) ∧
    broadcasts (jsonCodec ty fl) = broadcasts (keptCodec ty fl) ∧ (keptCodec ty fl).Lawful := by
  have hd : (jsonCodec ty fl).dec = (keptCodec ty fl).dec := rfl
  refine ⟨?_, eventsByStream_congr hd, ?_, ?_, ?_, keptCodec_lawful ty fl⟩
  · unfold World.run
    generalize World.init = w
    induction ops generalizing w with
    | nil => rfl
    | cons op ops ih =>
      simp only [List.foldl_cons]
      rw [step_kept c w op (hg op (by simp))]
      exact ih (fun o ho => hg o (by simp [ho])) _
  · funext c d s g; unfold events; exact eventsLoop_congr hd ..
  · funext c d s g t; unfold eventsByTypes; exact typesLoop_congr hd ..
  · funext c es; exact broadcasts_congr hd ..

/-! ## C125 -/

/-- The record that a reader is to get for an event. -/
def recordOf (name : Str) (g n : Nat) (er : EventRecord) : Record :=
  ⟨name, er.event.aggType, er.event.aggId, g, n, er.now, er.uuid, er.event.evType, er.event.data, er.metadata⟩

/-- The full claim of **C125**: an event that the adapter saved is read as it was saved: names, event ID, time, data and
metadata; for an event with names in UTF-8, data that its type keeps, and any JSON value for metadata. -/
def C125_full (ty : Types) (fl : Str → Option Str) : Prop :=
  ∀ (c : Config) (ops : List EOp), (∀ op ∈ ops, Plain op.events ∧ StorableOp ty fl op) →
  ∀ (net : Net) (expected : Option Nat) (name : Str) (er : EventRecord) (positions : Nat → Nat) (s : Server) (m : Nat),
    Plain [er] → Utf8 name → Utf8 er.event.aggType → Utf8 er.event.aggId → Utf8 er.event.evType → Utf8 er.uuid →
    er.now < 2 ^ 64 → (∃ d : Json, d.WF ∧ er.event.data = d.text ∧ ty er.event.evType d = some er.event.data) →
    (∃ v : Json, v.WF ∧ v.canon = v ∧ er.metadata = v.text) →
    saveEvents (jsonCodec ty fl) c (World.run (jsonCodec ty fl) c ops).server false id net expected name [er] positions =
      (s, .ok m) →
    ∃ g, (readAllOf (jsonCodec ty fl) c s name).getLast? = some (recordOf name g m er)

theorem save_id (C : Codec) (c : Config) (s : Server) (f : Bool) (net : Net) (ex : Option Nat) (name : Str)
    (ers : List EventRecord) (commits : Nat → Nat) :
    saveEvents C c s f id net ex name ers commits = saveEvents C c s f (fun _ => s) net ex name ers commits := by
  cases ers <;> rfl

theorem recordsFrom_mapIdx (name : Str) (g : Nat → Nat) (ers : List EventRecord) :
    ∀ (pos : Nat → Nat) (k : Nat), recordsFrom id g k (batch name ers pos) =
      ers.mapIdx (fun i er => recordOf name (g (pos i)) (k + i) er) := by
  induction ers with
  | nil => intro _ _; rfl
  | cons er ers ih =>
    intro pos k
    simp only [batch, recordsFrom, List.mapIdx_cons, ih]
    congr 1
    apply congrArg (fun f => List.mapIdx f ers)
    funext i x
    rw [show k + 1 + i = k + (i + 1) by omega]

/-- **C125**, what holds: for metadata whose numbers survive `float64`, and for batches: the events that the adapter
saved are read as they were saved, numbered on. Missing: metadata with other numbers, for which it is false. -/
theorem C125_partial (ty : Types) (fl : Str → Option Str) (c : Config) (ops : List EOp)
    (hg : ∀ op ∈ ops, Plain op.events ∧ StorableOp ty fl op) (net : Net) (expected : Option Nat) (name : Str)
    (ers : List EventRecord) (hp : Plain ers) (he : ∀ er ∈ ers, Storable ty fl name er) (positions : Nat → Nat)
    (s : Server) (m : Nat)
    (hs : saveEvents (jsonCodec ty fl) c (World.run (jsonCodec ty fl) c ops).server false id net expected name ers
      positions = (s, .ok m)) :
    ∃ before, before = readAllOf (jsonCodec ty fl) c (World.run (jsonCodec ty fl) c ops).server name ∧
      readAllOf (jsonCodec ty fl) c s name =
        before ++ ers.mapIdx (fun i er => recordOf name (c.gsn (positions i)) (before.length + 1 + i) er) ∧
      m = before.length + ers.length := by
  have hd : (jsonCodec ty fl).dec = (keptCodec ty fl).dec := rfl
  obtain ⟨hr, hev, _⟩ := C125_run ty fl c ops (fun op ho => (hg op ho).2)
  have hread : ∀ x, readAllOf (jsonCodec ty fl) c x name = readAllOf (keptCodec ty fl) c x name := by
    intro x; unfold readAllOf; rw [hev]
  rw [hr, save_congr hd (enc_kept he)] at hs
  have := C43_save (keptCodec ty fl) (keptCodec_lawful ty fl) c ops [] (by simpa using fun op ho => (hg op ho).1)
    false net expected name ers hp positions _ _ s rfl rfl m
    (by rw [List.append_nil, ← save_id]; exact hs)
  refine ⟨_, rfl, ?_, ?_⟩
  · rw [hread, hread, hr]
    have h2 := this.2.1
    simp only [List.append_nil] at h2
    rw [h2]
    congr 1
    generalize (readAllOf (keptCodec ty fl) c (World.run (keptCodec ty fl) c ops).server name).length + 1 = k
    exact recordsFrom_mapIdx name c.gsn ers positions k
  · rw [hread, hr]
    simpa using this.2.2.1

/-- An event of type `E` on stream `A!a` with data `{"k":1}` and the given metadata. -/
def evMeta (m : Str) : EventRecord := ⟨⟨[65], [97], [69], bytes "{\"k\":1}"⟩, m, [117], 5⟩

theorem evMeta_storable (fl : Str → Option Str) (m : Json) (hm : m.WF) (hx : Exact fl m) (hc : m.canon = m) :
    Storable unbound fl [65, 33, 97] (evMeta m.text) where
  name := valid_iff_utf8.mp (by decide)
  aggType := valid_iff_utf8.mp (by decide : Valid [65])
  aggId := valid_iff_utf8.mp (by decide : Valid [97])
  evType := valid_iff_utf8.mp (by decide : Valid [69])
  uuid := valid_iff_utf8.mp (by decide : Valid [117])
  now := (by decide : 5 < 2 ^ 64)
  data := ⟨.obj [([107], .num [49])], ⟨(by decide : Valid [107]), (by decide : scanNum [49] = _), trivial⟩,
    (by decide +kernel : bytes "{\"k\":1}" = (Json.obj [([107], .num [49])]).text),
    (by decide +kernel : unbound [69] (Json.obj [([107], .num [49])]) = some (bytes "{\"k\":1}"))⟩
  metadata := ⟨m, hm, hx, hc, rfl⟩

/-- The hypotheses of `C125_partial` are met: a batch of two events after another save. -/
example (fl : Str → Option Str) := C125_partial unbound fl shipped
  [.save none false .ok [65, 33, 97] [evMeta nullText] (fun _ => 3)]
  (by
    intro op ho
    simp only [List.mem_singleton] at ho
    subst ho
    refine ⟨by unfold Plain; decide, ?_⟩
    intro er her
    simp only [List.mem_singleton] at her
    subst her
    exact evMeta_storable fl .null trivial rfl rfl)
  .ok (some 1) [65, 33, 97] [evMeta nullText, evMeta trueText] (by unfold Plain; decide)
  (by
    intro er her
    simp only [List.mem_cons, List.not_mem_nil, or_false] at her
    rcases her with rfl | rfl
    · exact evMeta_storable fl .null trivial rfl rfl
    · exact evMeta_storable fl (.bool true) trivial rfl rfl)
  (fun i => 7 + i)

/-- The texts of an event, as the server stores them. -/
example : jsonEnc [65, 33, 97] (evMeta (bytes "{\"z\":true}")) = some
    (bytes "{\"rangeDBMetadata\":{\"streamName\":\"A!a\",\"aggregateType\":\"A\",\"aggregateID\":\"a\",\"insertTimestamp\":5,\"eventType\":\"E\",\"eventID\":\"u\"},\"eventMetadata\":{\"z\":true}}",
     bytes "{\"k\":1}") := by decide +kernel

/-- The save of that batch succeeds, and all three events are read. -/
example : ∀ w, w = (World.run (jsonCodec unbound some) shipped
      [.save none false .ok [65, 33, 97] [evMeta nullText] (fun _ => 3)]).server →
    (readAllOf (jsonCodec unbound some) shipped (saveEvents (jsonCodec unbound some) shipped w false id .ok (some 1)
      [65, 33, 97] [evMeta nullText, evMeta trueText] (fun i => 7 + i)).1 [65, 33, 97]).map (fun r => (r.gsn, r.seq)) =
    [(3, 1), (7, 2), (8, 3)] := by
  intro w hw; subst hw; decide +kernel

theorem save_one {C : Codec} {er : EventRecord} {name : Str} {b : Str × Str} (he : C.enc name er = some b)
    (pos : Nat → Nat) : saveEvents C shipped Server.init false id .ok none name [er] pos =
      (⟨[⟨name, 0, pos 0, er.event.evType, b⟩], []⟩, .ok 1) := by
  simp [saveEvents, checkExpected, propose, he, appendEvents, deliver, Server.append, revision, number, Server.init,
    Server.stream, Config.streamName, shipped, oneBased]

theorem read_one {C : Codec} {er : EventRecord} {name ty : Str} {b : Str × Str} {pos : Nat}
    (hd : C.dec b = some (name, er)) (hi : [36].isPrefixOf ty = false) :
    readAllOf C shipped ⟨[⟨name, 0, pos, ty, b⟩], []⟩ name = [mkRecord name pos 1 er] := by
  have : (mkRecord name pos 1 er).streamName = name := rfl
  simp [readAllOf, eventsByStream, Server.readStream, Server.stream, Config.streamName, shipped, streamLoop, internal, hi,
    Config.current, fromLinked, hd, oneBased, this, zeroBased]

/-- **C125 is false**: the metadata 9007199254740993 (2^53 + 1) is read as 9007199254740992. -/
theorem C125_false (fl : Str → Option Str) (hl : FloatLaw fl) : ¬ C125_full unbound fl := by
  intro hf
  have hw : (Json.num (Dec.natText (2 ^ 53 + 1))).WF := scanNum_natText _
  have hst := evMeta_storable fl .null trivial rfl rfl
  have hd := hst.data
  have hmw : (metaJson [65, 33, 97] (evMeta (Dec.natText (2 ^ 53 + 1))) (.num (Dec.natText (2 ^ 53 + 1)))).WF :=
    metaJson_wf (valid_iff_utf8.mpr hst.name) (valid_iff_utf8.mpr hst.aggType) (valid_iff_utf8.mpr hst.aggId)
      (valid_iff_utf8.mpr hst.evType) (valid_iff_utf8.mpr hst.uuid) hw
  have hany : decodeAny fl (.num (Dec.natText (2 ^ 53 + 1))) = some (.num (Dec.natText (2 ^ 53))) := by
    simp only [decodeAny, allNums, hl.rounds, Option.isSome_some, if_true, Json.any, Option.getD_some]
  obtain ⟨d, hdw, e1, e2⟩ := hd
  have henc : (jsonCodec unbound fl).enc [65, 33, 97] (evMeta (Dec.natText (2 ^ 53 + 1))) = some
      ((metaJson [65, 33, 97] (evMeta (Dec.natText (2 ^ 53 + 1))) (.num (Dec.natText (2 ^ 53 + 1)))).text, d.text) := by
    have h1 : marshalValue (evMeta (Dec.natText (2 ^ 53 + 1))).metadata = some (.num (Dec.natText (2 ^ 53 + 1))) :=
      marshal_wf hw
    have h2 : marshalValue (evMeta (Dec.natText (2 ^ 53 + 1))).event.data = some d := by
      show marshalValue (evMeta Json.null.text).event.data = some d
      rw [e1]; exact marshal_wf hdw
    simp only [jsonCodec, jsonEnc, h1, h2]
  have hdec : (jsonCodec unbound fl).dec
      ((metaJson [65, 33, 97] (evMeta (Dec.natText (2 ^ 53 + 1))) (.num (Dec.natText (2 ^ 53 + 1)))).text, d.text) =
      some ([65, 33, 97], evMeta (Dec.natText (2 ^ 53))) := by
    simp only [jsonCodec, jsonDec]
    rw [decodeMeta_metaJson hmw hst.now hany]
    simp only [parse_wf hdw]
    have : unbound (evMeta (Dec.natText (2 ^ 53 + 1))).event.evType d = some (evMeta Json.null.text).event.data := e2
    rw [this]
    rfl
  have hsave := save_one henc (fun _ => 3)
  obtain ⟨g, hg⟩ := hf shipped [] (by simp) .ok none [65, 33, 97] (evMeta (Dec.natText (2 ^ 53 + 1))) (fun _ => 3) _ 1
    (by unfold Plain; simp [evMeta]) hst.name hst.aggType hst.aggId hst.evType hst.uuid hst.now ⟨d, hdw, e1, e2⟩
    ⟨_, hw, rfl, rfl⟩ hsave
  rw [read_one hdec (by rfl)] at hg
  simp only [List.getLast?_singleton, Option.some.injEq] at hg
  have hm := congrArg Record.metadata hg
  simp only [mkRecord, recordOf, evMeta] at hm
  have h1 := congrArg Dec.parseUint hm
  rw [Dec.parseUint_natText _ (by decide), Dec.parseUint_natText _ (by decide)] at h1
  simp at h1

end RangeDB.EDB

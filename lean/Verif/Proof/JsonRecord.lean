import Verif.Model.JsonRecord
import Verif.Proof.Json

/-! # Lemmas about records as JSON -/

namespace RangeDB.Json

theorem recordJson_sane (r : Record) (d m : Json) :
    (recordJson r d m).sane = recordJson (saneRec r) d.sane m.sane := by
  simp only [recordJson, Json.sane, sanef, saneRec]
  rfl

theorem recordJson_nums (r : Record) (d m : Json) (hd : d.Nums) (hm : m.Nums) : (recordJson r d m).Nums := by
  simp only [recordJson, Json.Nums, Numsf, scanNum_natText, hd, hm]
  simp

theorem recordJson_isNum (r : Record) (d m : Json) : (recordJson r d m).isNum = false := rfl

theorem sameName_keys :
    sameName kStreamName kStreamName = true ∧
    sameName kAggregateType kStreamName = false ∧
    sameName kAggregateType kAggregateType = true ∧
    sameName kAggregateID kStreamName = false ∧
    sameName kAggregateID kAggregateType = false ∧
    sameName kAggregateID kAggregateID = true ∧
    sameName kGlobalSequenceNumber kStreamName = false ∧
    sameName kGlobalSequenceNumber kAggregateType = false ∧
    sameName kGlobalSequenceNumber kAggregateID = false ∧
    sameName kGlobalSequenceNumber kGlobalSequenceNumber = true ∧
    sameName kStreamSequenceNumber kStreamName = false ∧
    sameName kStreamSequenceNumber kAggregateType = false ∧
    sameName kStreamSequenceNumber kAggregateID = false ∧
    sameName kStreamSequenceNumber kGlobalSequenceNumber = false ∧
    sameName kStreamSequenceNumber kStreamSequenceNumber = true ∧
    sameName kInsertTimestamp kStreamName = false ∧
    sameName kInsertTimestamp kAggregateType = false ∧
    sameName kInsertTimestamp kAggregateID = false ∧
    sameName kInsertTimestamp kGlobalSequenceNumber = false ∧
    sameName kInsertTimestamp kStreamSequenceNumber = false ∧
    sameName kInsertTimestamp kInsertTimestamp = true ∧
    sameName kEventID kStreamName = false ∧
    sameName kEventID kAggregateType = false ∧
    sameName kEventID kAggregateID = false ∧
    sameName kEventID kGlobalSequenceNumber = false ∧
    sameName kEventID kStreamSequenceNumber = false ∧
    sameName kEventID kInsertTimestamp = false ∧
    sameName kEventID kEventID = true ∧
    sameName kEventType kStreamName = false ∧
    sameName kEventType kAggregateType = false ∧
    sameName kEventType kAggregateID = false ∧
    sameName kEventType kGlobalSequenceNumber = false ∧
    sameName kEventType kStreamSequenceNumber = false ∧
    sameName kEventType kInsertTimestamp = false ∧
    sameName kEventType kEventID = false ∧
    sameName kEventType kEventType = true ∧
    sameName kData kStreamName = false ∧
    sameName kData kAggregateType = false ∧
    sameName kData kAggregateID = false ∧
    sameName kData kGlobalSequenceNumber = false ∧
    sameName kData kStreamSequenceNumber = false ∧
    sameName kData kInsertTimestamp = false ∧
    sameName kData kEventID = false ∧
    sameName kData kEventType = false ∧
    sameName kData kData = true ∧
    sameName kMetadata kStreamName = false ∧
    sameName kMetadata kAggregateType = false ∧
    sameName kMetadata kAggregateID = false ∧
    sameName kMetadata kGlobalSequenceNumber = false ∧
    sameName kMetadata kStreamSequenceNumber = false ∧
    sameName kMetadata kInsertTimestamp = false ∧
    sameName kMetadata kEventID = false ∧
    sameName kMetadata kEventType = false ∧
    sameName kMetadata kData = false ∧
    sameName kMetadata kMetadata = true := by decide

theorem decode_recordJson (r : Record) (d m : Json) (hf : Fits r) (hd : d ≠ .null) :
    decodeRecord (recordJson r d m) =
      some ⟨{ r with data := nullText, metadata := m.canon.text }, some d, true, false⟩ := by
  obtain ⟨h1, h2, h3⟩ := hf
  have e : ∀ (st : Decoding), st.setData d = if st.live then { st with raw := some d } else st := by
    intro st; cases d <;> simp_all [Decoding.setData]
  simp [decodeRecord, recordJson, Decoding.field, Decoding.start, Decoding.setStr, Decoding.setNum, e,
    Dec.parseUint_natText, h1, h2, h3, sameName_keys]

theorem decode_recordJson_null (r : Record) (m : Json) (hf : Fits r) :
    decodeRecord (recordJson r .null m) =
      some ⟨{ r with data := nullText, metadata := m.canon.text }, none, false, false⟩ := by
  obtain ⟨h1, h2, h3⟩ := hf
  simp [decodeRecord, recordJson, Decoding.field, Decoding.start, Decoding.setStr, Decoding.setNum,
    Decoding.setData, Dec.parseUint_natText, h1, h2, h3, sameName_keys]

theorem marshalValue_text (d : Json) (h : d.WF) : marshalValue d.text = some d := by
  have := parse_text d h [] (fun _ => Or.inl rfl)
  rw [List.append_nil] at this
  simp [marshalValue, this]

theorem follows_record (r : Record) (d m : Json) (rest : Str) : Follows (recordJson r d m) rest := by
  intro h; rw [recordJson_isNum] at h; simp at h

theorem saneRec_of {ty : Types} {r : Record} (h : Good ty r) : saneRec r = r := by
  cases r
  simp only [saneRec, Record.mk.injEq]
  exact ⟨h.streamName, h.aggType, h.aggId, trivial, trivial, trivial, h.eventId, h.evType, trivial, trivial⟩

/-- A good record serializes, and reads back unchanged whatever follows it. -/
theorem good_roundTrip {ty : Types} {r : Record} (h : Good ty r) :
    ∃ b, serialize r = some b ∧ ∀ rest, unmarshalRecord ty (b ++ rest) = some (r, rest) := by
  obtain ⟨d, hd, hn, ed, et⟩ := h.data
  obtain ⟨m, hm, hmc, em⟩ := h.metadata
  refine ⟨(recordJson r d m).text, by simp [serialize, ed, em, marshalValue_text, hd, hm], ?_⟩
  intro rest
  rw [unmarshalRecord, parse_text_sane _ (recordJson_nums r d m hd.nums hm.nums) rest (follows_record _ _ _ _),
    recordJson_sane, saneRec_of h, hd.sane, hm.sane]
  simp only
  rw [decode_recordJson r d m h.fits hn]
  simp only [finishRecord, et, Option.map_some, Option.some.injEq, Prod.mk.injEq, and_true]
  cases r
  simp_all

/-- The text of a good record is an object, and no strict prefix of it reads. -/
theorem good_torn {ty : Types} {r : Record} (h : Good ty r) {b p q : Str} (hb : serialize r = some b) (hq : q ≠ [])
    (he : b = p ++ q) : unmarshalRecord ty p = none := by
  obtain ⟨d, hd, hn, ed, et⟩ := h.data
  obtain ⟨m, hm, hmc, em⟩ := h.metadata
  simp [serialize, ed, em, marshalValue_text, hd, hm] at hb
  rw [unmarshalRecord, parse_torn (recordJson r d m) (recordJson_nums r d m hd.nums hm.nums) rfl p q hq
    (by rw [hb, he])]

theorem serialize_head {r : Record} {b : Str} (hb : serialize r = some b) : ∃ t, b = 123 :: t := by
  unfold serialize at hb
  cases h1 : marshalValue r.data <;> cases h2 : marshalValue r.metadata <;> simp only [h1, h2] at hb
  · simp at hb
  · simp at hb
  · simp at hb
  · simp only [recordJson, Json.text, Option.some.injEq] at hb
    exact ⟨_, hb.symm⟩

/-- A record whose data is `null` serializes, and never reads back. -/
theorem null_poison (ty : Types) (r : Record) (hf : Fits r) (hd : r.data = nullText) (m : Json) (hm : m.WF)
    (em : r.metadata = m.text) :
    ∃ b, serialize r = some b ∧ ∀ rest, unmarshalRecord ty (b ++ rest) = none := by
  have e : r.data = Json.null.text := hd
  refine ⟨(recordJson r .null m).text, by simp [serialize, e, em, marshalValue_text m hm, marshalValue_text .null trivial], ?_⟩
  intro rest
  rw [unmarshalRecord, parse_text_sane _ (recordJson_nums r .null m trivial hm.nums) rest (follows_record _ _ _ _),
    recordJson_sane]
  have : (Json.null).sane = .null := by simp [Json.sane]
  rw [this]
  simp only
  rw [decode_recordJson_null (saneRec r) m.sane hf]
  rfl

/-- A record whose strings are not valid UTF-8 reads back with every invalid byte replaced. -/
theorem invalid_utf8 (r : Record) (hf : Fits r) (d m : Json) (hd : d.WF) (hn : d ≠ .null) (hdc : d.canon = d)
    (ed : r.data = d.text) (hm : m.WF) (hmc : m.canon = m) (em : r.metadata = m.text) :
    ∃ b, serialize r = some b ∧ deserialize unbound b = some (saneRec r) := by
  refine ⟨(recordJson r d m).text, by simp [serialize, ed, em, marshalValue_text, hd, hm], ?_⟩
  have := parse_text_sane _ (recordJson_nums r d m hd.nums hm.nums) [] (follows_record _ _ _ _)
  rw [List.append_nil] at this
  rw [deserialize, unmarshalRecord, this, recordJson_sane, hd.sane, hm.sane]
  simp only
  rw [decode_recordJson (saneRec r) d m hf hn]
  simp only [finishRecord, unbound, Option.map_some, Option.some.injEq]
  cases r
  simp_all [saneRec]

end RangeDB.Json

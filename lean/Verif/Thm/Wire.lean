import Verif.Proof.Wire
import Verif.Thm.Constants

/-!
# C110, C111: messages of the gRPC service
-/

namespace RangeDB.Wire

open Json (Valid)

/-! ## C110: what is sent is what arrives -/

theorem unmarshal_marshal {x : Message} (hx : x.Typed) {b : Str} (hb : marshal x = some b) (hlen : b.length < 2 ^ 64) :
    unmarshal x.type b = some x := by
  obtain ⟨m, _, h2, h3, h4⟩ := marshal_spec hx hb hlen
  unfold unmarshal
  rw [decode_encode (schema_nodup _) h2 hlen h3]
  exact h4

/-- A message is refused or arrives as it was sent. -/
theorem C110_transmit (x y : Message) (hx : x.Typed) (h : transmit x = some y) : y = x := by
  unfold transmit at h
  cases hb : marshal x with
  | none => simp [hb] at h
  | some b =>
    simp only [hb] at h
    split at h
    · simp at h
    · rename_i hl
      rw [unmarshal_marshal hx hb (by unfold maxSize at hl; omega)] at h
      exact (Option.some.inj h).symm

/-- It is refused exactly when one of its texts is not UTF-8, or it is larger than four megabytes. -/
theorem C110_refused (x : Message) (hx : x.Typed) :
    transmit x = some x ↔ x.Utf8 ∧ ∀ b, marshal x = some b → b.length ≤ 4194304 := by
  rw [← marshal_isSome]
  unfold transmit
  cases hb : marshal x with
  | none => simp
  | some b =>
    simp only [Option.isSome_some, Option.some.injEq, forall_eq', true_and]
    by_cases hl : maxSize < b.length
    · rw [if_pos hl]
      unfold maxSize at hl
      simp only [reduceCtorEq, false_iff]
      omega
    · rw [if_neg hl, unmarshal_marshal hx hb (by unfold maxSize at hl; omega)]
      unfold maxSize at hl
      simp only [true_iff]
      omega

/-- Different messages of one type have different bytes. -/
theorem C110_distinct (x y : Message) (hx : x.Typed) (hy : y.Typed) (ht : x.type = y.type) (b : Str)
    (hlen : b.length < 2 ^ 64) (h1 : marshal x = some b) (h2 : marshal y = some b) : x = y := by
  have e1 := unmarshal_marshal hx h1 hlen
  have e2 := unmarshal_marshal hy h2 hlen
  rw [ht, e2] at e1
  exact (Option.some.inj e1).symm

/-- Whatever bytes arrive, a message that is made of them has texts in UTF-8 and numbers that fit their types. -/
theorem C110_hostile (t : MType) (s : Str) (hs : ∀ b ∈ s, b < 256) (x : Message) (h : unmarshal t s = some x) :
    x.type = t ∧ x.Utf8 ∧ x.Typed := unmarshal_sound hs h

/-- Fields that a message of type `t` does not have, as a newer version may add them. -/
inductive Unknown (t : MType) : Str → Prop
  | nil : Unknown t []
  | num {f v : Nat} {u : Str} (hf : 0 < f ∧ f < 2 ^ 29) (hk : kindOf t.schema f = none) (hv : v < 2 ^ 64)
      (h : Unknown t u) : Unknown t ((varint (8 * f) ++ varint v) ++ u)
  | bytes {f : Nat} {s u : Str} (hf : 0 < f ∧ f < 2 ^ 29) (hk : kindOf t.schema f = none) (hs : s.length < 2 ^ 64)
      (h : Unknown t u) : Unknown t (lengthField f s ++ u)

theorem steps_unknown {ok : Str → Bool} {t : MType} {u : Str} (h : Unknown t u) (m : Msg) :
    Steps ok t.schema u m m := by
  induction h with
  | nil => exact Steps.nil m
  | @num f v _ hf hk hv _ ih =>
    have h1 := steps_num (ok := ok) (sch := t.schema) hf hv m
    have e : takeNum t.schema f v m = m := by unfold takeNum; rw [hk]
    rw [e] at h1
    exact h1.append ih
  | bytes hf hk hs _ ih =>
    exact (steps_bytes hf hs (by unfold takeBytes; rw [hk])).append ih

/-- They are skipped, before and after the fields that are known. -/
theorem C110_unknown (x : Message) (hx : x.Typed) (b u w : Str) (hb : marshal x = some b) (hlen : b.length < 2 ^ 64)
    (hu : Unknown x.type u) (hw : Unknown x.type w) : unmarshal x.type (u ++ (b ++ w)) = some x := by
  obtain ⟨m, _, h2, h3, h4⟩ := marshal_spec hx hb hlen
  have h0 : restrict [] m = Msg.empty := by simp [restrict, Msg.empty, kindOf]
  have hs := steps_encode (ok := fun b => (decodeEvent b).isSome) x.type.schema [] b rfl (schema_nodup _) h2 hlen h3
  rw [h0] at hs
  obtain ⟨n, hn, hst⟩ := (steps_unknown hu Msg.empty).append (hs.append (steps_unknown hw _))
  have h1 := hst ((u ++ (b ++ w)).length - n) []
  rw [List.append_nil, Nat.sub_add_cancel hn] at h1
  unfold unmarshal decode
  simp only [List.nil_append] at h1
  rw [h1]
  have e : ∀ k, decodeLoop (fun b => (decodeEvent b).isSome) x.type.schema k [] (restrict x.type.schema m) =
      some (restrict x.type.schema m) := by
    intro k; cases k <;> rfl
  rw [e]
  exact h4

/-- The records that the server sends are those that the client receives, or the message is too large: the texts have
been checked (C66). -/
theorem C110_served (other : Err → Str) (trailing : Bool) (fuel : Nat) (it : RecordIterator) :
    ∀ r ∈ (Rem.serve other trailing fuel it).1, r.gsn < 2 ^ 64 → r.seq < 2 ^ 64 → r.ts < 2 ^ 64 →
      ∃ b, marshal (.record r) = some b ∧
        transmit (.record r) = if 4194304 < b.length then none else some (.record r) := by
  have hsend : ∀ r ∈ (Rem.serve other trailing fuel it).1, Rem.sendable r = true := by
    induction fuel generalizing it with
    | zero => intro r hr; simp [Rem.serve] at hr
    | succ fuel ih =>
      intro r hr
      unfold Rem.serve at hr
      cases hn : it.next with
      | mk it' more =>
        rw [hn] at hr
        cases more with
        | false => simp at hr
        | true =>
          simp only at hr
          cases he : it'.error with
          | some e => simp [he] at hr
          | none =>
            cases hrec : it'.record with
            | none => simp [he, hrec] at hr
            | some r0 =>
              cases hp : Rem.toPb r0 with
              | none => simp [he, hrec, hp] at hr
              | some p =>
                by_cases hs : Rem.sendable p = true
                · simp only [he, hrec, hp, hs, if_true, List.mem_cons] at hr
                  rcases hr with rfl | hr
                  · exact hs
                  · exact ih it' r hr
                · simp [he, hrec, hp, hs] at hr
  intro r hr h1 h2 h3
  have hv : (Message.record r).Utf8 := by
    have := hsend r hr
    simp only [Rem.sendable, Bool.and_eq_true, decide_eq_true_eq] at this
    obtain ⟨⟨⟨⟨⟨⟨a, b⟩, c⟩, d⟩, e⟩, f⟩, g⟩ := this
    exact ⟨a, b, c, d, e, f, g⟩
  obtain ⟨b, hb⟩ := Option.isSome_iff_exists.mp ((marshal_isSome _).mpr hv)
  refine ⟨b, hb, ?_⟩
  unfold transmit
  simp only [hb]
  by_cases hl : 4194304 < b.length
  · have hl' : maxSize < b.length := hl
    rw [if_pos hl, if_pos hl']
  · have hl' : ¬ maxSize < b.length := hl
    rw [if_neg hl, if_neg hl']
    exact unmarshal_marshal (x := .record r) ⟨h1, h2, h3⟩ hb (by omega)

/-- A message as bytes. -/
example : marshal (.saveResponse 2 300) = some [8, 2, 16, 172, 2] := by decide
example : marshal (.optimisticSaveRequest 1 (bytes "t!a") [⟨bytes "t", bytes "a", bytes "E", bytes "{}", []⟩]) =
    some ([8, 1, 18, 3] ++ bytes "t!a" ++ [26, 13, 10, 1, 116, 18, 1, 97, 26, 1, 69, 34, 2, 123, 125]) := by
  decide +kernel
example : transmit (.eventsByAggregateTypeRequest [bytes "a", [], bytes "b"] 7) =
    some (.eventsByAggregateTypeRequest [bytes "a", [], bytes "b"] 7) := by decide +kernel
/-- A number of ten bytes is read, one of eleven is not. -/
example : unmarshal .eventsRequest [8, 255, 255, 255, 255, 255, 255, 255, 255, 255, 1] =
    some (.eventsRequest (2 ^ 64 - 1)) := by decide +kernel
example : unmarshal .eventsRequest [8, 255, 255, 255, 255, 255, 255, 255, 255, 255, 255, 1] = none := by decide +kernel
/-- A text that is not UTF-8 is not sent, and not received. -/
example : marshal (.totalEventsInStreamRequest [200]) = none := by decide
example : unmarshal .totalEventsInStreamRequest [10, 1, 200] = none := by decide
/-- A field that the message does not have is skipped, here a text and a fixed number. -/
example : unmarshal .eventsRequest [90, 1, 65, 97, 1, 2, 3, 4, 5, 6, 7, 8, 8, 5] = some (.eventsRequest 5) := by
  decide +kernel
/-- A number for a field of type `uint32` is cut to 32 bits. -/
example : unmarshal .optimisticDeleteStreamResponse [8, 128, 128, 128, 128, 16] =
    some (.optimisticDeleteStreamResponse 0) := by decide +kernel

/-! ## C111: what was saved through the service can be read through it -/

/-- `r` is the record of the event `e`, saved in `stream`: numbers, time and ID are the store's. -/
structure RecordOf (stream : Str) (e : PbEvent) (r : Record) : Prop where
  stream_ : r.streamName = stream
  aggType : r.aggType = e.aggType
  aggId : r.aggId = e.aggId
  evType : r.evType = e.evType
  data : r.data = e.data
  metadata : r.metadata = e.metadata
  id : r.eventId.length ≤ 36 ∧ Valid r.eventId
  gsn : 0 < r.gsn ∧ r.gsn < 2 ^ 64
  seq : 0 < r.seq ∧ r.seq < 2 ^ 64
  ts : r.ts < 2 ^ 64

/-- The claim: if the request to save events arrives at the server, then the record of each of them arrives at a
client that reads it. -/
def C111_full : Prop :=
  ∀ stream es e r, transmit (.saveRequest stream es) ≠ none → e ∈ es → RecordOf stream e r →
    transmit (.record r) = some (.record r)

theorem record_utf8 {stream : Str} {es : List PbEvent} {e : PbEvent} {r : Record}
    (h : (Message.saveRequest stream es).Utf8) (he : e ∈ es) (hr : RecordOf stream e r) : (Message.record r).Utf8 := by
  obtain ⟨h1, h2⟩ := h
  obtain ⟨a, b, c, d, f⟩ := h2 e he
  refine ⟨hr.stream_ ▸ h1, hr.aggType ▸ a, hr.aggId ▸ b, hr.id.2, hr.evType ▸ c, hr.data ▸ d, hr.metadata ▸ f⟩

/-- It holds for requests that stay 80 bytes below the limit. -/
theorem C111_partial (stream : Str) (es : List PbEvent) (e : PbEvent) (r : Record) (b : Str)
    (hb : marshal (.saveRequest stream es) = some b) (hlen : b.length + 80 ≤ 4194304) (he : e ∈ es)
    (hr : RecordOf stream e r) : transmit (.record r) = some (.record r) := by
  have hu : (Message.saveRequest stream es).Utf8 := (marshal_isSome _).mp (by simp [hb])
  rw [C110_refused (.record r) ⟨hr.gsn.2, hr.seq.2, hr.ts⟩]
  refine ⟨record_utf8 hu he hr, fun c hc => ?_⟩
  obtain ⟨eb, h1, h2⟩ := save_length hb he
  have h3 := encodeEvent_length h1
  have h4 := record_length hc
  rw [hr.stream_, hr.aggType, hr.aggId, hr.evType, hr.data, hr.metadata] at h4
  have e1 := textSize_eq (f := 2) (g := 1) (by omega) (by omega) (by omega) (by omega) e.aggType
  have e2 := textSize_eq (f := 3) (g := 2) (by omega) (by omega) (by omega) (by omega) e.aggId
  have e3 := textSize_eq (f := 8) (g := 3) (by omega) (by omega) (by omega) (by omega) e.evType
  have e4 := textSize_eq (f := 9) (g := 4) (by omega) (by omega) (by omega) (by omega) e.data
  have e5 := textSize_eq (f := 10) (g := 5) (by omega) (by omega) (by omega) (by omega) e.metadata
  have n1 := numSize_le (f := 4) (by omega) r.gsn
  have n2 := numSize_le (f := 5) (by omega) r.seq
  have n3 := numSize_le (f := 6) (by omega) r.ts
  have t1 := textSize_le (f := 7) (by omega) r.eventId
  have := hr.id.1
  omega

/-- An event whose request has the largest size has a record that is too large: the server takes it, and from then on
no client can read the record, or any later one with `Events`. -/
theorem C111_witness (d : Str) (hd : d.length = 4194274) (hv : Valid d) :
    let e : PbEvent := ⟨bytes "t", bytes "a", bytes "E", d, bytes "null"⟩
    let r : Record := ⟨bytes "t!a", bytes "t", bytes "a", 1, 1, 0, List.replicate 32 48, bytes "E", d, bytes "null"⟩
    transmit (.saveRequest (bytes "t!a") [e]) ≠ none ∧ RecordOf (bytes "t!a") e r ∧
      transmit (.record r) = none := by
  intro e r
  have hne : d ≠ [] := by intro h; rw [h] at hd; simp at hd
  have hvl : (varint 4194274).length = 4 := by decide
  have ht : textSize 4 d = 4194279 := by
    unfold textSize lengthField
    rw [if_neg hne]
    simp only [List.length_append, varint_small (n := 8 * 4 + 2) (by omega), hd, hvl]
  have vt : Valid (bytes "t") := by decide
  have va : Valid (bytes "a") := by decide
  have vs : Valid (bytes "t!a") := by decide
  have vE : Valid (bytes "E") := by decide
  have vn : Valid (bytes "null") := by decide
  have vi : Valid (List.replicate 32 48) := by decide
  have heu : e.Utf8 := ⟨vt, va, vE, hv, vn⟩
  have hru : (Message.record r).Utf8 := ⟨vs, vt, va, vi, vE, hv, vn⟩
  refine ⟨?_, ⟨rfl, rfl, rfl, rfl, rfl, rfl, ⟨by simp [r], vi⟩, ⟨by simp [r], by simp [r]⟩,
    ⟨by simp [r], by simp [r]⟩, by simp [r]⟩, ?_⟩
  · have hsu : (Message.saveRequest (bytes "t!a") [e]).Utf8 := ⟨vs, by simpa using heu⟩
    rw [(C110_refused (.saveRequest _ _) trivial).mpr ⟨hsu, ?_⟩]
    · simp
    · intro b hb
      obtain ⟨eb, he⟩ := Option.isSome_iff_exists.mp ((encodeEvent_isSome e).mpr heu)
      have h1 := encodeEvent_length he
      have s1 : textSize 1 e.aggType = 3 := by show textSize 1 (bytes "t") = 3; decide
      have s2 : textSize 2 e.aggId = 3 := by show textSize 2 (bytes "a") = 3; decide
      have s3 : textSize 3 e.evType = 3 := by show textSize 3 (bytes "E") = 3; decide
      have s5 : textSize 5 e.metadata = 6 := by show textSize 5 (bytes "null") = 6; decide
      have s4 : textSize 4 e.data = 4194279 := ht
      rw [s1, s2, s3, s4, s5] at h1
      unfold marshal at hb
      simp only [Message.msg, Message.type, MType.schema, encodeEvents, he, Option.map_some, Option.bind_some] at hb
      obtain ⟨b1, c1, h3, h4, rfl⟩ := encode_cons hb
      obtain ⟨b2, c2, h5, h6, rfl⟩ := encode_cons h4
      simp only [encodeField, Option.some.injEq] at h5
      subst h5
      simp only [encode, Option.some.injEq] at h6
      subst h6
      have h8 := encodeField_text_length h3
      have h9 : textSize 1 (bytes "t!a") = 5 := by decide
      simp only [Msg.empty] at h8
      have hl : (varint 4194294).length = 4 := by decide
      simp only [List.flatMap_cons, List.flatMap_nil, List.append_nil, lengthField, List.length_append,
        varint_small (n := 8 * 2 + 2) (by omega), h1, h8, h9, hl]
      omega
  · obtain ⟨b, hb⟩ := Option.isSome_iff_exists.mp ((marshal_isSome _).mpr hru)
    have h4 := record_length hb
    have s1 : textSize 1 r.streamName = 5 := by show textSize 1 (bytes "t!a") = 5; decide
    have s2 : textSize 7 r.eventId = 34 := by show textSize 7 (List.replicate 32 48) = 34; decide
    have s9 : textSize 9 r.data = 4194279 := by
      show textSize 9 d = 4194279
      rw [textSize_eq (f := 9) (g := 4) (by omega) (by omega) (by omega) (by omega), ht]
    unfold transmit
    simp only [hb]
    have hm : maxSize < b.length := by
      show 4194304 < b.length
      omega
    rw [if_pos hm]

theorem C111_false : ¬ C111_full := by
  intro h
  have hl : (List.replicate 4194274 97).length = 4194274 := List.length_replicate
  have hv : Valid (List.replicate 4194274 97) :=
    Json.utf8_valid (Json.utf8_of_ascii _ (fun c hc => by rw [List.eq_of_mem_replicate hc]; omega))
  generalize List.replicate 4194274 97 = d at hl hv
  obtain ⟨h1, h2, h3⟩ := C111_witness d hl hv
  have := h _ _ _ _ h1 (by simp) h2
  rw [h3] at this
  simp at this

/-- The hypotheses of `C111_partial` hold for a small event. -/
example : ∃ b, marshal (.saveRequest (bytes "t!a") [⟨bytes "t", bytes "a", bytes "E", bytes "{}", bytes "null"⟩]) =
    some b ∧ b.length + 80 ≤ 4194304 := by
  refine ⟨_, rfl, ?_⟩
  decide +kernel

end RangeDB.Wire

import Verif.Proof.PgNotify
import Verif.Thm.Postgres

/-!
# PostgreSQL: what the listener receives (C115) and what a save may hold (C116)
-/

namespace RangeDB.Pgn

open RangeDB.Json

/-! ## Specification -/

/-- A row as PostgreSQL can hold it: texts in UTF-8 without the byte 0, numbers within `integer` and `bigint`. -/
structure Stored (r : Record) : Prop where
  text : ∀ s ∈ [r.streamName, r.aggType, r.aggId, r.eventId, r.evType, r.data, r.metadata], Valid s ∧ 0 ∉ s
  gsn : r.gsn < 2 ^ 31
  seq : r.seq < 2 ^ 63
  ts : r.ts < 2 ^ 63

/-- The bytes of the texts of a row. -/
def bytesOf (r : Record) : Nat :=
  r.streamName.length + r.aggType.length + r.aggId.length + r.eventId.length + r.evType.length + r.data.length +
    r.metadata.length

/-! ## C115: the notification carries the row -/

theorem columns_ok {r : Record} (h : Stored r) : ∀ c ∈ columns r, Valid c.1 ∧ c.2.Ok := by
  have ht := h.text
  simp only [List.mem_cons, List.not_mem_nil, or_false] at ht
  intro c hc
  simp only [columns, List.mem_cons, List.not_mem_nil, or_false] at hc
  rcases hc with rfl | rfl | rfl | rfl | rfl | rfl | rfl | rfl | rfl | rfl
  · exact ⟨show Valid cStreamName by decide, (ht r.streamName (by simp)).1⟩
  · exact ⟨show Valid cAggregateType by decide, (ht r.aggType (by simp)).1⟩
  · exact ⟨show Valid cAggregateID by decide, (ht r.aggId (by simp)).1⟩
  · exact ⟨show Valid cGlobalSequenceNumber by decide, trivial⟩
  · exact ⟨show Valid cStreamSequenceNumber by decide, trivial⟩
  · exact ⟨show Valid cInsertTimestamp by decide, trivial⟩
  · exact ⟨show Valid cEventID by decide, (ht r.eventId (by simp)).1⟩
  · exact ⟨show Valid cEventType by decide, (ht r.evType (by simp)).1⟩
  · exact ⟨show Valid cData by decide, (ht r.data (by simp)).1⟩
  · exact ⟨show Valid cMetadata by decide, (ht r.metadata (by simp)).1⟩

theorem setStr_str (st : Note) (s : Str) (f : Record → Str → Record) :
    st.setStr (.str s) f = ⟨f st.out s, st.bad⟩ := rfl

theorem setNum_num (st : Note) (n : Nat) (hn : n < 2 ^ 64) (f : Record → Nat → Record) :
    st.setNum (.num (Dec.natText n)) f = ⟨f st.out n, st.bad⟩ := by
  simp only [Note.setNum, Dec.parseUint_natText n hn]

theorem field_streamName (st : Note) (v : Json) :
    st.field (cStreamName, v) = st.setStr v (fun r s => { r with streamName := s }) := rfl
theorem field_aggType (st : Note) (v : Json) :
    st.field (cAggregateType, v) = st.setStr v (fun r s => { r with aggType := s }) := rfl
theorem field_aggId (st : Note) (v : Json) :
    st.field (cAggregateID, v) = st.setStr v (fun r s => { r with aggId := s }) := rfl
theorem field_gsn (st : Note) (v : Json) :
    st.field (cGlobalSequenceNumber, v) = st.setNum v (fun r n => { r with gsn := n }) := rfl
theorem field_seq (st : Note) (v : Json) :
    st.field (cStreamSequenceNumber, v) = st.setNum v (fun r n => { r with seq := n }) := rfl
theorem field_ts (st : Note) (v : Json) :
    st.field (cInsertTimestamp, v) = st.setNum v (fun r n => { r with ts := n }) := rfl
theorem field_eventId (st : Note) (v : Json) :
    st.field (cEventID, v) = st.setStr v (fun r s => { r with eventId := s }) := rfl
theorem field_evType (st : Note) (v : Json) :
    st.field (cEventType, v) = st.setStr v (fun r s => { r with evType := s }) := rfl
theorem field_data (st : Note) (v : Json) :
    st.field (cData, v) = st.setStr v (fun r s => { r with data := s }) := rfl
theorem field_metadata (st : Note) (v : Json) :
    st.field (cMetadata, v) = st.setStr v (fun r s => { r with metadata := s }) := rfl

/-- **C115**, the text of a row reads back as the row. -/
theorem C115_read (r : Record) (h : Stored r) : readNote (rowText r) = some r := by
  have hp := parse_obj (columns r) (by simp [columns]) (columns_ok h)
  have h1 := h.gsn
  have h2 := h.seq
  have h3 := h.ts
  unfold readNote rowText
  rw [hp]
  simp only [columns, List.map_cons, List.map_nil, Col.value, List.foldl_cons, List.foldl_nil,
    field_streamName, field_aggType, field_aggId, field_gsn, field_seq, field_ts, field_eventId, field_evType, field_data,
    field_metadata, setStr_str, setNum_num _ r.gsn (by omega), setNum_num _ r.seq (by omega), setNum_num _ r.ts (by omega)]
  simp [skipWs, Note.start]

theorem listenText_rows (ty : Types) (rs : List Record) (h : ∀ r ∈ rs, Stored r) :
    listenText ty (rs.map fun r => some (rowText r)) = PG.listen ty (rs.map some) := by
  induction rs with
  | nil => rfl
  | cons r rs ih =>
    have ih' := ih (fun x hx => h x (by simp [hx]))
    simp only [List.map_cons, listenText, C115_read r (h r (by simp)), PG.listen, PG.decodeRow, ih']
    cases Rem.decodeData ty r.evType r.data with
    | none => rfl
    | some d =>
      by_cases hm : r.metadata = nullText
      · simp [PG.metadataOk, hm]
      · simp [PG.metadataOk, hm]

/-- **C115**: with `WithPgNotify` subscribers are handed, record for record, what a read of the rows in the order of their
commits returns, up to the first row that cannot be read. -/
theorem C115 (ty : Types) (rs : List Record) (h : ∀ r ∈ rs, Stored r) :
    (listenText ty (rs.map fun r => some (rowText r))).1 = (PG.readRows ty rs).recs := by
  rw [listenText_rows ty rs h]
  induction rs with
  | nil => rfl
  | cons r rs ih =>
    simp only [List.map_cons, PG.listen, PG.readRows]
    cases PG.decodeRow ty r with
    | none => rfl
    | some x => simp only [ih (fun y hy => h y (by simp [hy]))]

/-- **C115**, for every schedule of calls of any number of processes. -/
theorem C115_schedule (cfg : PG.Config) (hn : cfg.notify = true) (ms : PG.Schedule)
    (h : ∀ b ∈ (PG.run cfg ms).hist, ∀ r ∈ b.2.2, Stored r) :
    (listenText cfg.ty ((PG.run cfg ms).notified.map fun r => some (rowText r))).1 =
      (PG.readRows cfg.ty ((PG.run cfg ms).hist.flatMap (·.2.2))).recs := by
  rw [PG.C70_notified cfg hn ms]
  refine C115 _ _ ?_
  intro r hr
  obtain ⟨b, hb, hrb⟩ := List.mem_flatMap.mp hr
  exact h b hb r hrb

/-- **C115**, PostgreSQL drops a notification whose text is that of another one of the same transaction; no two rows have
the same text. -/
theorem C115_distinct (a b : Record) (ha : Stored a) (hb : Stored b) (h : rowText a = rowText b) : a = b := by
  have h1 := C115_read a ha
  rw [h, C115_read b hb] at h1
  exact (Option.some.inj h1).symm

/-- The columns that hold texts, and those that hold numbers, as the trigger names them. -/
def textColumns : List Str :=
  [cStreamName, cAggregateType, cAggregateID, cEventID, cEventType, cData, cMetadata]
def numberColumns : List Str := [cGlobalSequenceNumber, cStreamSequenceNumber, cInsertTimestamp]

theorem setStr_bad (st : Note) (v : Json) (f : Record → Str → Record) (h : st.bad = true) : (st.setStr v f).bad = true := by
  unfold Note.setStr; split <;> simp [h]

theorem setNum_bad (st : Note) (v : Json) (f : Record → Nat → Record) (h : st.bad = true) : (st.setNum v f).bad = true := by
  unfold Note.setNum
  split
  · split <;> simp [h]
  · exact h
  · rfl

theorem setStr_typed {st : Note} {v : Json} {f : Record → Str → Record} (h : (st.setStr v f).bad = false) :
    v = .null ∨ ∃ t, v = .str t := by
  cases v <;> simp_all [Note.setStr]

theorem setNum_typed {st : Note} {v : Json} {f : Record → Nat → Record} (h : (st.setNum v f).bad = false) :
    v = .null ∨ ∃ t n, v = .num t ∧ Dec.parseUint t = some n := by
  cases v with
  | num t =>
    right
    simp only [Note.setNum] at h
    cases hp : Dec.parseUint t with
    | none => simp [hp] at h
    | some n => exact ⟨t, n, rfl, hp⟩
  | null => exact .inl rfl
  | _ => simp [Note.setNum] at h

theorem field_bad (st : Note) (kv : Str × Json) (h : st.bad = true) : (st.field kv).bad = true := by
  unfold Note.field
  repeat' split
  all_goals first | exact setStr_bad _ _ _ h | exact setNum_bad _ _ _ h | exact h

theorem fold_bad (l : List (Str × Json)) (st : Note) (h : st.bad = true) : (l.foldl Note.field st).bad = true := by
  induction l generalizing st with
  | nil => exact h
  | cons kv l ih => exact ih _ (field_bad st kv h)

theorem fold_typed (l : List (Str × Json)) (st : Note) (h : (l.foldl Note.field st).bad = false) :
    ∀ kv ∈ l, ∃ st : Note, (st.field kv).bad = false := by
  induction l generalizing st with
  | nil => simp
  | cons kv l ih =>
    intro x hx
    rcases List.mem_cons.mp hx with rfl | hx
    · refine ⟨st, ?_⟩
      cases hb : (st.field x).bad with
      | false => rfl
      | true =>
        rw [List.foldl_cons, fold_bad l _ hb] at h
        exact absurd h (by simp)
    · exact ih _ h x hx

/-- **C115**, of what other clients send on the channel, only an object whose columns have their types is read: every
member named after a text column is a text, every member named after a number column an unsigned number of at most 64
bits, unless it is null. -/
theorem C115_typed {s : Str} {l : List (Str × Json)} {rest : Str} {r : Record} (hp : parse s = some (.obj l, rest))
    (h : readNote s = some r) :
    (∀ c ∈ textColumns, ∀ v, (c, v) ∈ l → v = .null ∨ ∃ t, v = .str t) ∧
    (∀ c ∈ numberColumns, ∀ v, (c, v) ∈ l → v = .null ∨ ∃ t n, v = .num t ∧ Dec.parseUint t = some n) := by
  have hb : (l.foldl Note.field .start).bad = false := by
    unfold readNote at h
    rw [hp] at h
    cases hc : (l.foldl Note.field .start).bad with
    | false => rfl
    | true => simp [hc] at h
  have ht := fold_typed l _ hb
  constructor
  · intro c hc v hv
    obtain ⟨st, hst⟩ := ht _ hv
    simp only [textColumns, List.mem_cons, List.not_mem_nil, or_false] at hc
    rcases hc with rfl | rfl | rfl | rfl | rfl | rfl | rfl <;> exact setStr_typed hst
  · intro c hc v hv
    obtain ⟨st, hst⟩ := ht _ hv
    simp only [numberColumns, List.mem_cons, List.not_mem_nil, or_false] at hc
    rcases hc with rfl | rfl | rfl
    · rw [field_gsn] at hst; exact setNum_typed hst
    · rw [field_seq] at hst; exact setNum_typed hst
    · rw [field_ts] at hst; exact setNum_typed hst

/-- **C115**, and a notification that has a member of the wrong type ends the listener: it and everything after it is not
broadcast. -/
theorem C115_mistyped (ty : Types) (ns : List (Option Str)) {s : Str} {l : List (Str × Json)} {rest : Str} {c : Str}
    {v : Json} (hp : parse s = some (.obj l, rest)) (hv : (c, v) ∈ l) (hn : v ≠ .null)
    (hbad : (c ∈ textColumns ∧ ∀ t, v ≠ .str t) ∨ (c ∈ numberColumns ∧ ∀ t n, v = .num t → Dec.parseUint t ≠ some n)) :
    listenText ty (some s :: ns) = ([], .stopped) := by
  have : readNote s = none := by
    cases hr : readNote s with
    | none => rfl
    | some r =>
      obtain ⟨h1, h2⟩ := C115_typed hp hr
      rcases hbad with ⟨hc, hb⟩ | ⟨hc, hb⟩
      · rcases h1 c hc v hv with h | ⟨t, h⟩
        · exact absurd h hn
        · exact absurd h (hb t)
      · rcases h2 c hc v hv with h | ⟨t, n, h, hq⟩
        · exact absurd h hn
        · exact absurd hq (hb t n h)
  simp only [listenText, this]

/-- The bytes of a text. -/
def lit (s : String) : Str := s.toList.map Char.toNat

/-- A row with a quotation mark, a newline, a control character and an umlaut in it. -/
def sample : Record :=
  ⟨lit "thing!a", lit "thing", lit "a", 7, 3, 1700000000, lit "d2ba", lit "ThingWas\"Done",
    [123, 34, 120, 34, 58, 34, 0xC3, 0xA4, 127, 92, 110, 34, 125], nullText⟩

theorem sample_stored : Stored sample :=
  ⟨by decide, by decide, by decide, by decide⟩

example : rowText sample = lit
    "{\"streamname\":\"thing!a\",\"aggregatetype\":\"thing\",\"aggregateid\":\"a\",\"globalsequencenumber\":7,\"streamsequencenumber\":3,\"inserttimestamp\":1700000000,\"eventid\":\"d2ba\",\"eventtype\":\"ThingWas\\\"Done\",\"data\":\"{\\\"x\\\":\\\""
      ++ [0xC3, 0xA4, 127] ++ lit "\\\\n\\\"}\",\"metadata\":\"null\"}" := by decide +kernel

example : listenText unbound [some (rowText sample)] = ([sample], .listening) := by decide +kernel

/-- The listener goes on after a notification that it can read and stops at one that it cannot. -/
example : listenText unbound [some (rowText sample), some (lit "{\"gsn\":-1,\"data\":7}"), some (rowText sample)] =
    ([sample], .stopped) := by decide +kernel

/-- The hypotheses of `C115_mistyped` hold of an object whose number is a text. -/
def mistyped : List (Str × Col) :=
  [(cStreamName, .text (lit "thing!a")), (cGlobalSequenceNumber, .text (lit "7")), (cData, .text (lit "{}"))]

example : 123 :: fieldsText mistyped =
    lit "{\"streamname\":\"thing!a\",\"globalsequencenumber\":\"7\",\"data\":\"{}\"}" := by decide +kernel

example : listenText unbound [some (123 :: fieldsText mistyped), some (rowText sample)] = ([], .stopped) :=
  C115_mistyped unbound _ (c := cGlobalSequenceNumber) (v := .str (lit "7"))
    (parse_obj mistyped (by simp [mistyped]) (by
      intro c hc
      simp only [mistyped, List.mem_cons, List.not_mem_nil, or_false] at hc
      rcases hc with rfl | rfl | rfl <;> exact ⟨by decide, by simp only [Col.Ok]; decide⟩))
    (by simp [mistyped, Col.value]) (by simp) (.inr ⟨by decide, by simp⟩)

/-! ## C116: what a save may hold -/

/-- The full statement of **C116**: a save of events whose texts are UTF-8 without the byte 0 succeeds. -/
def C116_full : Prop :=
  ∀ (notify : Bool) (next : Nat) (rows : List Record), 0 < next → rows ≠ [] →
    (∀ r ∈ rows, ∀ s ∈ [r.streamName, r.aggType, r.aggId, r.eventId, r.evType, r.data, r.metadata], Valid s ∧ 0 ∉ s) →
    ∃ rs, (insert notify next rows).1 = .ok rs

theorem digitsRev_len (f : Nat) : ∀ (k n : Nat), 1 ≤ k → n < 10 ^ k → (Dec.digitsRev f n).length ≤ k := by
  induction f with
  | zero => intro k n _ _; simp [Dec.digitsRev]
  | succ f ih =>
    intro k n hk hn
    simp only [Dec.digitsRev]
    split
    · simpa using hk
    · rename_i h
      cases k with
      | zero => omega
      | succ k =>
        cases k with
        | zero => simp at hn; omega
        | succ k =>
          have := ih (k + 1) (n / 10) (by omega) (by rw [Nat.pow_succ] at hn; omega)
          simp only [List.length_cons]
          omega

theorem natText_len {k n : Nat} (hk : 1 ≤ k) (hn : n < 10 ^ k) :
    1 ≤ (Dec.natText n).length ∧ (Dec.natText n).length ≤ k := by
  refine ⟨?_, ?_⟩
  · obtain ⟨c, cs, h, _⟩ := Dec.natText_head n
    rw [h]; simp
  · unfold Dec.natText
    rw [List.length_reverse]
    exact digitsRev_len _ k n hk hn

theorem rowText_len (r : Record) :
    (rowText r).length = 172 + (Dec.natText r.gsn).length + (Dec.natText r.seq).length + (Dec.natText r.ts).length +
      (r.streamName.flatMap escByte).length + (r.aggType.flatMap escByte).length + (r.aggId.flatMap escByte).length +
      (r.eventId.flatMap escByte).length + (r.evType.flatMap escByte).length + (r.data.flatMap escByte).length +
      (r.metadata.flatMap escByte).length := by
  have e1 : (cStreamName.flatMap escByte).length = 10 := by decide
  have e2 : (cAggregateType.flatMap escByte).length = 13 := by decide
  have e3 : (cAggregateID.flatMap escByte).length = 11 := by decide
  have e4 : (cGlobalSequenceNumber.flatMap escByte).length = 20 := by decide
  have e5 : (cStreamSequenceNumber.flatMap escByte).length = 20 := by decide
  have e6 : (cInsertTimestamp.flatMap escByte).length = 15 := by decide
  have e7 : (cEventID.flatMap escByte).length = 7 := by decide
  have e8 : (cEventType.flatMap escByte).length = 9 := by decide
  have e9 : (cData.flatMap escByte).length = 4 := by decide
  have e10 : (cMetadata.flatMap escByte).length = 8 := by decide
  simp only [rowText, columns, fieldsText, quote, Col.json, List.length_cons, List.length_append, List.length_nil,
    e1, e2, e3, e4, e5, e6, e7, e8, e9, e10]
  omega

theorem C116_lower (r : Record) : bytesOf r + 175 ≤ (rowText r).length := by
  rw [rowText_len]
  have h1 := flatMap_len r.streamName
  have h2 := flatMap_len r.aggType
  have h3 := flatMap_len r.aggId
  have h4 := flatMap_len r.eventId
  have h5 := flatMap_len r.evType
  have h6 := flatMap_len r.data
  have h7 := flatMap_len r.metadata
  have g1 : 1 ≤ (Dec.natText r.gsn).length := by obtain ⟨c, cs, h, _⟩ := Dec.natText_head r.gsn; rw [h]; simp
  have g2 : 1 ≤ (Dec.natText r.seq).length := by obtain ⟨c, cs, h, _⟩ := Dec.natText_head r.seq; rw [h]; simp
  have g3 : 1 ≤ (Dec.natText r.ts).length := by obtain ⟨c, cs, h, _⟩ := Dec.natText_head r.ts; rw [h]; simp
  unfold bytesOf
  omega

/-- **C116**, how long the text of a row is: at least its bytes and 175 more, and at most six times its bytes and 220
more. -/
theorem C116_size (r : Record) (h1 : r.gsn < 2 ^ 31) (h2 : r.seq < 2 ^ 63) (h3 : r.ts < 2 ^ 63) :
    bytesOf r + 175 ≤ (rowText r).length ∧ (rowText r).length ≤ 6 * bytesOf r + 220 := by
  refine ⟨C116_lower r, ?_⟩
  rw [rowText_len]
  have a1 := flatMap_len r.streamName
  have a2 := flatMap_len r.aggType
  have a3 := flatMap_len r.aggId
  have a4 := flatMap_len r.eventId
  have a5 := flatMap_len r.evType
  have a6 := flatMap_len r.data
  have a7 := flatMap_len r.metadata
  have g1 := natText_len (k := 10) (n := r.gsn) (by omega) (by omega)
  have g2 := natText_len (k := 19) (n := r.seq) (by omega) (by omega)
  have g3 := natText_len (k := 19) (n := r.ts) (by omega) (by omega)
  unfold bytesOf
  omega

theorem number_get (rows : List Record) (n i : Nat) :
    (number n rows)[i]? = rows[i]?.map (fun r => { r with gsn := n + i }) := by
  induction rows generalizing n i with
  | nil => simp [number]
  | cons r rs ih =>
    cases i with
    | zero => simp [number]
    | succ i =>
      simp only [number, List.getElem?_cons_succ, ih]
      congr 1
      funext x
      rw [show n + 1 + i = n + (i + 1) by omega]

theorem textOk_iff (s : Str) : textOk s = true ↔ Valid s ∧ 0 ∉ s := by
  simp [textOk]

theorem textsOk_iff (r : Record) : (texts r).all textOk = true ↔
    ∀ s ∈ [r.streamName, r.aggType, r.aggId, r.eventId, r.evType, r.data, r.metadata], Valid s ∧ 0 ∉ s := by
  rw [List.all_eq_true]
  constructor
  · intro h s hs; exact (textOk_iff s).mp (h s hs)
  · intro h s hs; exact (textOk_iff s).mpr (h s hs)

/-- **C116**, partial, the exact set of batches that are accepted: at most 7281 events, texts in UTF-8 without the byte 0,
numbers left for all of them, and with `WithPgNotify` no row whose text has 8000 bytes. An accepted batch is stored with
consecutive numbers. Missing are all other batches, see `C116_false`. -/
theorem C116_partial (notify : Bool) (next : Nat) (rows : List Record) (hne : rows ≠ []) :
    ((∃ rs, (insert notify next rows).1 = .ok rs) ↔
      rows.length ≤ 7281 ∧
      (∀ r ∈ rows, ∀ s ∈ [r.streamName, r.aggType, r.aggId, r.eventId, r.evType, r.data, r.metadata], Valid s ∧ 0 ∉ s) ∧
      next + rows.length ≤ 2 ^ 31 ∧
      (notify = true → ∀ (i : Nat) (r : Record), rows[i]? = some r → (rowText { r with gsn := next + i }).length < 8000)) ∧
    (∀ rs, (insert notify next rows).1 = .ok rs →
      (∀ i : Nat, rs[i]? = rows[i]?.map (fun r : Record => { r with gsn := next + i })) ∧
      (insert notify next rows).2 = next + rows.length) := by
  have hpos : 0 < rows.length := List.length_pos_iff.mpr hne
  unfold insert serialMax
  split
  · rename_i h
    exact ⟨⟨fun ⟨_, h'⟩ => by simp at h', fun ⟨h', _⟩ => by omega⟩, fun _ h' => by simp at h'⟩
  rename_i h1
  split
  · rename_i h
    refine ⟨⟨fun ⟨_, h'⟩ => by simp at h', fun ⟨_, h', _⟩ => ?_⟩, fun _ h' => by simp at h'⟩
    rw [show (rows.all fun r => (texts r).all textOk) = true from
      List.all_eq_true.mpr (fun r hr => (textsOk_iff r).mpr (h' r hr))] at h
    simp at h
  rename_i h2
  split
  · rename_i h
    exact ⟨⟨fun ⟨_, h'⟩ => by simp at h', fun ⟨_, _, h', _⟩ => by omega⟩, fun _ h' => by simp at h'⟩
  rename_i h3
  have ht : ∀ r ∈ rows, ∀ s ∈ [r.streamName, r.aggType, r.aggId, r.eventId, r.evType, r.data, r.metadata],
      Valid s ∧ 0 ∉ s := by
    intro r hr
    have : (rows.all fun r => (texts r).all textOk) = true := by simpa using h2
    exact (textsOk_iff r).mp (List.all_eq_true.mp this r hr)
  have key : (number next rows).any (fun r => decide (8000 ≤ (rowText r).length)) = true ↔
      ∃ (i : Nat) (r : Record), rows[i]? = some r ∧ 8000 ≤ (rowText { r with gsn := next + i }).length := by
    rw [List.any_eq_true]
    constructor
    · rintro ⟨x, hx, hl⟩
      obtain ⟨i, hi⟩ := List.getElem?_of_mem hx
      rw [number_get] at hi
      obtain ⟨r, hr, rfl⟩ := Option.map_eq_some_iff.mp hi
      exact ⟨i, r, hr, of_decide_eq_true hl⟩
    · rintro ⟨i, r, hr, hl⟩
      have : (number next rows)[i]? = some { r with gsn := next + i } := by rw [number_get, hr]; rfl
      exact ⟨_, List.mem_of_getElem? this, decide_eq_true hl⟩
  split
  · rename_i h
    rw [Bool.and_eq_true] at h
    refine ⟨⟨fun ⟨_, h'⟩ => by simp at h', fun ⟨_, _, _, h'⟩ => ?_⟩, fun _ h' => by simp at h'⟩
    obtain ⟨i, r, hr, hl⟩ := key.mp h.2
    have := h' h.1 i r hr
    omega
  · rename_i h
    refine ⟨⟨fun _ => ⟨by omega, ht, by omega, ?_⟩, fun _ => ⟨_, rfl⟩⟩, ?_⟩
    · intro hn i r hr
      by_cases hl : 8000 ≤ (rowText { r with gsn := next + i }).length
      · exact absurd (by rw [Bool.and_eq_true]; exact ⟨hn, key.mpr ⟨i, r, hr, hl⟩⟩) h
      · omega
    · intro rs hrs
      simp only [Outcome.ok.injEq] at hrs
      subst hrs
      exact ⟨fun i => number_get rows next i, rfl⟩

/-- **C116**, enough for a batch to be accepted, in terms of the events: no row with more than 1296 bytes of text if the
store notifies, and any length otherwise. -/
theorem C116_enough (notify : Bool) (next : Nat) (rows : List Record) (hne : rows ≠ []) (hl : rows.length ≤ 7281)
    (ht : ∀ r ∈ rows, ∀ s ∈ [r.streamName, r.aggType, r.aggId, r.eventId, r.evType, r.data, r.metadata], Valid s ∧ 0 ∉ s)
    (hn : next + rows.length ≤ 2 ^ 31) (hq : ∀ r ∈ rows, r.seq < 2 ^ 63 ∧ r.ts < 2 ^ 63)
    (hb : notify = true → ∀ r ∈ rows, bytesOf r ≤ 1296) :
    ∃ rs, (insert notify next rows).1 = .ok rs := by
  refine (C116_partial notify next rows hne).1.mpr ⟨hl, ht, hn, ?_⟩
  intro hno i r hr
  have hm := List.mem_of_getElem? hr
  have hi : i < rows.length := (List.getElem?_eq_some_iff.mp hr).1
  have hs := (C116_size { r with gsn := next + i } (by show next + i < 2 ^ 31; omega) (hq r hm).1 (hq r hm).2).2
  have := hb hno r hm
  have e : bytesOf { r with gsn := next + i } = bytesOf r := rfl
  omega

/-- **C116**, more than 7281 events in a batch are refused, whatever they are. -/
theorem C116_parameters (notify : Bool) (next : Nat) (rows : List Record) (h : 7282 ≤ rows.length) :
    insert notify next rows = (.err .db, next) := by
  unfold insert
  rw [if_pos (by omega)]

/-- **C116**, with `WithPgNotify` an event of 7825 bytes can never be saved, alone or with others. -/
theorem C116_payload (next : Nat) (rows : List Record) (r : Record) (hr : r ∈ rows) (h : 7825 ≤ bytesOf r) :
    (insert true next rows).1 = .err .db := by
  obtain ⟨i, hi⟩ := List.getElem?_of_mem hr
  have hne : rows ≠ [] := by rintro rfl; simp at hr
  cases ho : (insert true next rows).1 with
  | ok rs =>
    have := ((C116_partial true next rows hne).1.mp ⟨rs, ho⟩).2.2.2 rfl i r hi
    have h2 := C116_lower { r with gsn := next + i }
    have e : bytesOf { r with gsn := next + i } = bytesOf r := rfl
    omega
  | err e =>
    unfold insert at ho
    repeat' split at ho
    all_goals simp_all
  | panic => unfold insert at ho; repeat' split at ho <;> simp_all
  | blocked => unfold insert at ho; repeat' split at ho <;> simp_all

/-- **C116**, when the last number is used no save succeeds any more. -/
theorem C116_numbers (notify : Bool) (next : Nat) (rows : List Record) (hne : rows ≠ []) (h : 2 ^ 31 ≤ next) :
    insert notify next rows = (.err .db, next) := by
  have hpos : 0 < rows.length := List.length_pos_iff.mpr hne
  unfold insert serialMax
  split
  · rfl
  split
  · rfl
  · rw [if_pos (by omega), Nat.max_eq_left (by omega)]

/-- **C116**, over its whole life a table takes at most 2³¹ − 1 events, in whatever batches. -/
theorem C116_total (notify : Bool) (bs : List (List Record)) (next : Nat) (h : next ≤ 2 ^ 31) :
    (inserts notify next bs).1.length + next ≤ 2 ^ 31 := by
  induction bs generalizing next with
  | nil => simpa [inserts] using h
  | cons b bs ih =>
    by_cases hb : b = []
    · subst hb
      have e : insert notify next [] = (.ok [], next) ∨ ∃ n, insert notify next [] = (.err .db, n) ∧ n ≤ 2 ^ 31 ∧ next ≤ n := by
        unfold insert serialMax
        simp only [List.length_nil, List.all_nil, number, List.any_nil, Bool.and_false]
        split
        · exact Or.inr ⟨_, rfl, h, Nat.le_refl _⟩
        · split
          · exact Or.inr ⟨_, rfl, h, Nat.le_refl _⟩
          · split
            · refine Or.inr ⟨_, rfl, ?_, ?_⟩
              · omega
              · omega
            · exact Or.inl rfl
      rcases e with e | ⟨n, e, h1, h2⟩
      · simp only [inserts, e, List.nil_append]
        exact ih next h
      · simp only [inserts, e]
        have := ih n h1
        omega
    · have hp := C116_partial notify next b hb
      cases ho : insert notify next b with
      | mk o n =>
        cases o with
        | ok rs =>
          have h1 : (insert notify next b).1 = .ok rs := by rw [ho]
          have h2 := hp.1.mp ⟨rs, h1⟩
          have h3 := hp.2 rs h1
          rw [ho] at h3
          have h4 : n = next + b.length := h3.2
          have hlen : rs.length = b.length := by
            have a1 := h3.1 rs.length
            have a2 := h3.1 b.length
            rw [List.getElem?_eq_none (Nat.le_refl _)] at a1
            rw [List.getElem?_eq_none (l := b) (Nat.le_refl _)] at a2
            have a1' : b.length ≤ rs.length := by
              rcases Nat.lt_or_ge rs.length b.length with h | h
              · rw [List.getElem?_eq_getElem h] at a1; simp at a1
              · exact h
            have a2' : rs.length ≤ b.length := by
              simp at a2; exact a2
            omega
          have := ih n (by omega)
          simp only [inserts, ho, List.length_append]
          omega
        | _ =>
          have hn : next ≤ n ∧ n ≤ 2 ^ 31 := by
            unfold insert serialMax at ho
            repeat' split at ho
            all_goals first
              | (simp only [Prod.mk.injEq] at ho; omega)
              | simp at ho
          have := ih n hn.2
          simp only [inserts, ho]
          omega

theorem valid_ascii {s : Str} (h : ∀ b ∈ s, b < 0x80) : Valid s := by
  unfold Valid
  induction s with
  | nil => rfl
  | cons b s ih =>
    rw [sanitize, if_pos (h b (by simp)), ih (fun c hc => h c (by simp [hc]))]

/-- An event whose data is a JSON string of `n` letters. -/
def letters (n : Nat) : Record :=
  ⟨lit "thing!a", lit "thing", lit "a", 0, 1, 1700000000, lit "d2ba", lit "ThingWasDone",
    34 :: (List.replicate n 97 ++ [34]), nullText⟩

theorem letters_texts (n : Nat) : ∀ s ∈ [(letters n).streamName, (letters n).aggType, (letters n).aggId,
    (letters n).eventId, (letters n).evType, (letters n).data, (letters n).metadata], Valid s ∧ 0 ∉ s := by
  have key : ∀ s : Str, (∀ b ∈ s, 0 < b ∧ b < 0x80) → Valid s ∧ 0 ∉ s := fun s h =>
    ⟨valid_ascii (fun b hb => (h b hb).2), fun h0 => by have := (h 0 h0).1; omega⟩
  intro s hs
  apply key
  simp only [List.mem_cons, List.not_mem_nil, or_false, letters] at hs
  rcases hs with rfl | rfl | rfl | rfl | rfl | rfl | rfl
  · decide
  · decide
  · decide
  · decide
  · decide
  · intro b hb
    simp only [List.mem_cons, List.mem_append, List.mem_replicate, List.not_mem_nil, or_false] at hb
    omega
  · decide

theorem letters_bytes (n : Nat) : bytesOf (letters n) = n + 35 := by
  simp only [bytesOf, letters, List.length_cons, List.length_append, List.length_replicate, List.length_nil,
    show (lit "thing!a").length = 7 from rfl, show (lit "thing").length = 5 from rfl, show (lit "a").length = 1 from rfl,
    show (lit "d2ba").length = 4 from rfl, show (lit "ThingWasDone").length = 12 from rfl,
    show nullText.length = 4 from rfl]
  omega

/-- **C116** is false: 7282 small events are refused; with `WithPgNotify` one event of 7790 bytes of data is, on a new
table; so is any event after the last number. -/
theorem C116_false : ¬ C116_full := by
  intro h
  obtain ⟨rs, hrs⟩ := h false 1 (List.replicate 7282 (letters 0)) (by omega)
    (fun e => by have := congrArg List.length e; rw [List.length_replicate, List.length_nil] at this; omega)
    (fun r hr => by rw [List.eq_of_mem_replicate hr]; exact letters_texts 0)
  rw [C116_parameters false 1 _ (by rw [List.length_replicate]; omega)] at hrs
  simp at hrs

theorem C116_false_notify : ∃ r : Record,
    (∀ s ∈ [r.streamName, r.aggType, r.aggId, r.eventId, r.evType, r.data, r.metadata], Valid s ∧ 0 ∉ s) ∧
    (∃ rs, (insert false 1 [r]).1 = .ok rs) ∧ (∀ next, (insert true next [r]).1 = .err .db) := by
  refine ⟨letters 7790, letters_texts _, ?_, ?_⟩
  · refine C116_enough false 1 _ (by simp) (by simp) ?_ (by simp) ?_ (by simp)
    · intro r hr; rw [List.mem_singleton.mp hr]; exact letters_texts _
    · intro r hr; rw [List.mem_singleton.mp hr]; exact ⟨show 1 < 2 ^ 63 by decide, show 1700000000 < 2 ^ 63 by decide⟩
  · intro next
    exact C116_payload next _ (letters 7790) (by simp) (by rw [letters_bytes]; omega)

theorem refused_wastes (next : Nat) (h : next < 2 ^ 31) : insert true next [letters 7790] = (.err .db, next + 1) := by
  unfold insert serialMax
  have h1 : ([letters 7790].all fun r => (texts r).all textOk) = true := by
    rw [List.all_eq_true]
    intro r hr
    rw [List.mem_singleton.mp hr]
    exact (textsOk_iff _).mpr (letters_texts _)
  have h2 : (number next [letters 7790]).any (fun r => decide (8000 ≤ (rowText r).length)) = true := by
    rw [List.any_eq_true]
    refine ⟨{ letters 7790 with gsn := next }, by simp [number], decide_eq_true ?_⟩
    have a := C116_lower { letters 7790 with gsn := next }
    have e : bytesOf { letters 7790 with gsn := next } = bytesOf (letters 7790) := rfl
    rw [e, letters_bytes] at a
    omega
  rw [if_neg (by simp), h1, h2, if_neg (by simp), if_neg (by simp only [List.length_singleton]; omega), if_pos (by rfl)]
  rfl

theorem refused_many (r : Record) (hr : ∀ n < 2 ^ 31, insert true n [r] = (.err .db, n + 1)) (k next : Nat)
    (h : next + k ≤ 2 ^ 31) : inserts true next (List.replicate k [r]) = ([], next + k) := by
  induction k generalizing next with
  | zero => rfl
  | succ k ih =>
    rw [List.replicate_succ]
    simp only [inserts, hr next (by omega)]
    rw [ih (next + 1) (by omega)]
    congr 1
    omega

/-- **C116**, refused saves use the numbers up as well: there is a history of refused saves after which the table is empty
and every save is refused. -/
theorem C116_exhausted : ∃ bs : List (List Record),
    (inserts true 1 bs).1 = [] ∧
    ∀ (rows : List Record), rows ≠ [] → (insert true (inserts true 1 bs).2 rows).1 = .err .db := by
  refine ⟨List.replicate (2 ^ 31 - 1) [letters 7790], ?_, ?_⟩
  · rw [refused_many _ refused_wastes _ 1 (by omega)]
  · intro rows hne
    rw [refused_many _ refused_wastes _ 1 (by omega), C116_numbers true _ rows hne (by show 2 ^ 31 ≤ 1 + (2 ^ 31 - 1); omega)]

/-- A batch of two events is stored with consecutive numbers, with and without notifications. -/
example : insert true 41 [sample, letters 3] = (.ok [{ sample with gsn := 41 }, { letters 3 with gsn := 42 }], 43) := by
  decide +kernel

/-- A name with the byte 0, or that is not UTF-8, is refused and uses no number. -/
example : insert false 5 [{ sample with streamName := [97, 0] }] = (.err .db, 5) ∧
    insert false 5 [{ sample with aggId := [0xC3] }] = (.err .db, 5) := by
  decide +kernel

end RangeDB.Pgn

import Verif.Thm.IoStream
import Verif.Thm.HttpBody
import Mathlib.Data.List.Forall2

/-!
# Files that were joined or edited: more about C44, and the names of fields
-/

namespace RangeDB.Json

variable {ty : Types}

theorem body_written (fm : Format) (rs : List Record) (hg : ∀ r ∈ rs, Good ty r) :
    (write fm serialize (Iter.mk rs none).results).1 = fm.opening ++ (bodyText fm serialize rs ++ fm.closing) := by
  rw [write_ok fm serialize rs none (fun r hr => good_serialize (hg r hr))]

/-- **C44**, what follows a JSON array: nothing behind the closing bracket is read, and none of it is reported. So two files of
JSON arrays written one behind the other read as the first, without an error. -/
theorem C44_json_joined (rs : List Record) (hg : ∀ r ∈ rs, Good ty r) (more : Str) :
    readJson ty ((write .json serialize (Iter.mk rs none).results).1 ++ more) = ⟨rs, none⟩ := by
  rw [body_written .json rs hg]
  have := readJson_body rs hg (93 :: more) ⟨[], none⟩ (by
    intro fuel hf
    cases fuel with
    | zero => simp at hf
    | succ fuel => simp [readArray, skipWs_of 93 more rfl])
  simpa [Format.opening, Format.closing] using this

/-- **C44**, files of newline-delimited JSON written one behind the other, with or without a newline between them: both are
read. -/
theorem C44_ndjson_joined (as bs : List Record) (ha : ∀ r ∈ as, Good ty r) (hb : ∀ r ∈ bs, Good ty r) (sep : Str)
    (hs : sep = [] ∨ sep = [10]) :
    readNd ty ((write .ndjson serialize (Iter.mk as none).results).1 ++ (sep ++
      (write .ndjson serialize (Iter.mk bs none).results).1)) = ⟨as ++ bs, none⟩ := by
  rw [body_written .ndjson as ha, body_written .ndjson bs hb]
  simp only [Format.opening, Format.closing, List.nil_append, List.append_nil]
  have hone : ∀ fuel, (bodyText .ndjson serialize bs).length < fuel →
      readTop ty fuel (bodyText .ndjson serialize bs) = ⟨bs, none⟩ := by
    intro fuel hf
    cases bs with
    | nil => exact readTop_nil ty fuel
    | cons r rs =>
      cases fuel with
      | zero => omega
      | succ fuel =>
        obtain ⟨b, hser, _⟩ := good_roundTrip (hb r (by simp))
        obtain ⟨t, ht⟩ := serialize_head hser
        have := readTop_tail rs (fun x hx => hb x (by simp [hx])) [] ⟨[], none⟩ (fun fuel _ => readTop_nil ty fuel) fuel (by
          simp only [bodyText, hser, ht] at hf
          simp at hf ⊢
          omega)
        simp only [List.append_nil] at this
        simp only [bodyText]
        rw [readTop_one r (hb r (by simp)), this]
        rfl
  refine readNd_body as ha _ ⟨bs, none⟩ ?_
  intro fuel hf
  rcases hs with rfl | rfl
  · exact hone fuel (by simpa using hf)
  · rw [show ([10] ++ bodyText .ndjson serialize bs) = 10 :: bodyText .ndjson serialize bs from rfl, readTop_sep]
    exact hone fuel (by simp at hf; omega)

/-- **C44**, an array with a fault in it: behind the records `rs` the file goes on either without the comma that must come next,
or with a comma and something that is no record. The records before the fault are read, and the fault is reported. -/
theorem C44_json_fault (rs : List Record) (hne : rs ≠ []) (hg : ∀ r ∈ rs, Good ty r) (c : Nat) (t : Str) (hsp : isSpace c = false)
    (h : (c ≠ 44 ∧ c ≠ 93 ∧ c ≠ 125) ∨ (c = 44 ∧ unmarshalRecord ty t = none)) :
    readJson ty (91 :: (bodyText .json serialize rs ++ c :: t)) = ⟨rs, some .deserialize⟩ := by
  have := readJson_body rs hg (c :: t) ⟨[], some .deserialize⟩ (by
    intro fuel hf
    cases fuel with
    | zero => simp at hf
    | succ fuel =>
      have he : rs.isEmpty = false := by cases rs <;> simp_all
      simp only [readArray, he]
      rw [skipWs_of _ _ hsp]
      rcases h with ⟨h1, h2, h3⟩ | ⟨rfl, h1⟩
      · simp [h1, h2, h3]
      · simp [h1])
  simpa using this

/-- A missing comma, a comma too many, and a value that is no record, each behind a record. -/
example : readJson unbound (91 :: (bodyText .json serialize [demoRec 1] ++ 123 :: [])) = ⟨[demoRec 1], some .deserialize⟩ ∧
    readJson unbound (91 :: (bodyText .json serialize [demoRec 1] ++ 44 :: [93])) = ⟨[demoRec 1], some .deserialize⟩ ∧
    readJson unbound (91 :: (bodyText .json serialize [demoRec 1] ++ 44 :: [116, 114, 117, 101, 93])) =
      ⟨[demoRec 1], some .deserialize⟩ := by
  have hg : ∀ r ∈ [demoRec 1], Good unbound r := by
    intro r hr; simp only [List.mem_singleton] at hr; subst hr; exact demoRec_good 1 (by decide)
  exact ⟨C44_json_fault _ (by simp) hg _ _ (by decide) (Or.inl (by decide)),
    C44_json_fault _ (by simp) hg _ _ (by decide) (Or.inr ⟨rfl, by decide +kernel⟩),
    C44_json_fault _ (by simp) hg _ _ (by decide) (Or.inr ⟨rfl, by decide +kernel⟩)⟩

theorem setStr_get {β : Type} (get : Record → β) (st : Decoding) (v : Json) (f : Record → Str → Record)
    (h : ∀ r s, get (f r s) = get r) : get (st.setStr v f).out = get st.out := by
  unfold Decoding.setStr
  split
  · exact h _ _
  · rfl
  · rfl

theorem setNum_get {β : Type} (get : Record → β) (st : Decoding) (v : Json) (f : Record → Nat → Record)
    (h : ∀ r n, get (f r n) = get r) : get (st.setNum v f).out = get st.out := by
  unfold Decoding.setNum
  split
  · split
    · exact h _ _
    · rfl
  · rfl
  · rfl

theorem setData_out (st : Decoding) (v : Json) : (st.setData v).out = st.out := by
  unfold Decoding.setData
  split
  · rfl
  · split <;> rfl

theorem field_get {β : Type} (get : Record → β) (st : Decoding) (kv : Str × Json)
    (h1 : sameName kv.1 kStreamName = false ∨ ∀ r s, get { r with streamName := s } = get r)
    (h2 : sameName kv.1 kAggregateType = false ∨ ∀ r s, get { r with aggType := s } = get r)
    (h3 : sameName kv.1 kAggregateID = false ∨ ∀ r s, get { r with aggId := s } = get r)
    (h4 : sameName kv.1 kGlobalSequenceNumber = false ∨ ∀ r s, get { r with gsn := s } = get r)
    (h5 : sameName kv.1 kStreamSequenceNumber = false ∨ ∀ r s, get { r with seq := s } = get r)
    (h6 : sameName kv.1 kInsertTimestamp = false ∨ ∀ r s, get { r with ts := s } = get r)
    (h7 : sameName kv.1 kEventID = false ∨ ∀ r s, get { r with eventId := s } = get r)
    (h8 : sameName kv.1 kEventType = false ∨ ∀ r s, get { r with evType := s } = get r)
    (h9 : sameName kv.1 kMetadata = false ∨ ∀ r s, get { r with metadata := s } = get r) :
    get (st.field kv).out = get st.out := by
  unfold Decoding.field
  split
  · rename_i e; exact setStr_get get _ _ _ (h1.resolve_left (by simp [e]))
  split
  · rename_i e; exact setStr_get get _ _ _ (h2.resolve_left (by simp [e]))
  split
  · rename_i e; exact setStr_get get _ _ _ (h3.resolve_left (by simp [e]))
  split
  · rename_i e; exact setNum_get get _ _ _ (h4.resolve_left (by simp [e]))
  split
  · rename_i e; exact setNum_get get _ _ _ (h5.resolve_left (by simp [e]))
  split
  · rename_i e; exact setNum_get get _ _ _ (h6.resolve_left (by simp [e]))
  split
  · rename_i e; exact setStr_get get _ _ _ (h7.resolve_left (by simp [e]))
  split
  · rename_i e; exact setStr_get get _ _ _ (h8.resolve_left (by simp [e]))
  split
  · rw [setData_out]
  split
  · rename_i e; exact (h9.resolve_left (by simp [e])) _ _
  · rfl

/-- A field of the record that the object does not name, under any spelling, has its zero value, whatever other fields the
object has. -/
theorem C44_missing (l : List (Str × Json)) (st : Decoding) (h : decodeRecord (.obj l) = some st) :
    ((∀ kv ∈ l, sameName kv.1 kStreamName = false) → st.out.streamName = []) ∧
    ((∀ kv ∈ l, sameName kv.1 kAggregateType = false) → st.out.aggType = []) ∧
    ((∀ kv ∈ l, sameName kv.1 kAggregateID = false) → st.out.aggId = []) ∧
    ((∀ kv ∈ l, sameName kv.1 kGlobalSequenceNumber = false) → st.out.gsn = 0) ∧
    ((∀ kv ∈ l, sameName kv.1 kStreamSequenceNumber = false) → st.out.seq = 0) ∧
    ((∀ kv ∈ l, sameName kv.1 kInsertTimestamp = false) → st.out.ts = 0) ∧
    ((∀ kv ∈ l, sameName kv.1 kEventID = false) → st.out.eventId = []) ∧
    ((∀ kv ∈ l, sameName kv.1 kEventType = false) → st.out.evType = []) ∧
    ((∀ kv ∈ l, sameName kv.1 kMetadata = false) → st.out.metadata = nullText) := by
  have hst : st = l.foldl Decoding.field .start := by
    simp only [decodeRecord] at h
    split at h
    · cases h
    · exact (Option.some.inj h).symm
  have key : ∀ {β : Type} (get : Record → β) (name : Str), (∀ (st : Decoding) kv, sameName kv.1 name = false →
      get (st.field kv).out = get st.out) → ∀ (l : List (Str × Json)) (st : Decoding),
      (∀ kv ∈ l, sameName kv.1 name = false) → get (l.foldl Decoding.field st).out = get st.out := by
    intro β get name hf l
    induction l with
    | nil => intro st _; rfl
    | cons kv l ih =>
      intro st hl
      rw [List.foldl_cons, ih _ (fun kv' h' => hl kv' (by simp [h'])), hf _ _ (hl kv (by simp))]
  subst hst
  refine ⟨?_, ?_, ?_, ?_, ?_, ?_, ?_, ?_, ?_⟩ <;> intro hl
  · refine (key (·.streamName) kStreamName ?_ l .start hl).trans rfl
    intro st kv hn
    exact field_get (·.streamName) st kv
      (Or.inl hn) (Or.inr fun _ _ => rfl) (Or.inr fun _ _ => rfl) (Or.inr fun _ _ => rfl) (Or.inr fun _ _ => rfl)
      (Or.inr fun _ _ => rfl) (Or.inr fun _ _ => rfl) (Or.inr fun _ _ => rfl) (Or.inr fun _ _ => rfl)
  · refine (key (·.aggType) kAggregateType ?_ l .start hl).trans rfl
    intro st kv hn
    exact field_get (·.aggType) st kv
      (Or.inr fun _ _ => rfl) (Or.inl hn) (Or.inr fun _ _ => rfl) (Or.inr fun _ _ => rfl) (Or.inr fun _ _ => rfl)
      (Or.inr fun _ _ => rfl) (Or.inr fun _ _ => rfl) (Or.inr fun _ _ => rfl) (Or.inr fun _ _ => rfl)
  · refine (key (·.aggId) kAggregateID ?_ l .start hl).trans rfl
    intro st kv hn
    exact field_get (·.aggId) st kv
      (Or.inr fun _ _ => rfl) (Or.inr fun _ _ => rfl) (Or.inl hn) (Or.inr fun _ _ => rfl) (Or.inr fun _ _ => rfl)
      (Or.inr fun _ _ => rfl) (Or.inr fun _ _ => rfl) (Or.inr fun _ _ => rfl) (Or.inr fun _ _ => rfl)
  · refine (key (·.gsn) kGlobalSequenceNumber ?_ l .start hl).trans rfl
    intro st kv hn
    exact field_get (·.gsn) st kv
      (Or.inr fun _ _ => rfl) (Or.inr fun _ _ => rfl) (Or.inr fun _ _ => rfl) (Or.inl hn) (Or.inr fun _ _ => rfl)
      (Or.inr fun _ _ => rfl) (Or.inr fun _ _ => rfl) (Or.inr fun _ _ => rfl) (Or.inr fun _ _ => rfl)
  · refine (key (·.seq) kStreamSequenceNumber ?_ l .start hl).trans rfl
    intro st kv hn
    exact field_get (·.seq) st kv
      (Or.inr fun _ _ => rfl) (Or.inr fun _ _ => rfl) (Or.inr fun _ _ => rfl) (Or.inr fun _ _ => rfl) (Or.inl hn)
      (Or.inr fun _ _ => rfl) (Or.inr fun _ _ => rfl) (Or.inr fun _ _ => rfl) (Or.inr fun _ _ => rfl)
  · refine (key (·.ts) kInsertTimestamp ?_ l .start hl).trans rfl
    intro st kv hn
    exact field_get (·.ts) st kv
      (Or.inr fun _ _ => rfl) (Or.inr fun _ _ => rfl) (Or.inr fun _ _ => rfl) (Or.inr fun _ _ => rfl) (Or.inr fun _ _ => rfl)
      (Or.inl hn) (Or.inr fun _ _ => rfl) (Or.inr fun _ _ => rfl) (Or.inr fun _ _ => rfl)
  · refine (key (·.eventId) kEventID ?_ l .start hl).trans rfl
    intro st kv hn
    exact field_get (·.eventId) st kv
      (Or.inr fun _ _ => rfl) (Or.inr fun _ _ => rfl) (Or.inr fun _ _ => rfl) (Or.inr fun _ _ => rfl) (Or.inr fun _ _ => rfl)
      (Or.inr fun _ _ => rfl) (Or.inl hn) (Or.inr fun _ _ => rfl) (Or.inr fun _ _ => rfl)
  · refine (key (·.evType) kEventType ?_ l .start hl).trans rfl
    intro st kv hn
    exact field_get (·.evType) st kv
      (Or.inr fun _ _ => rfl) (Or.inr fun _ _ => rfl) (Or.inr fun _ _ => rfl) (Or.inr fun _ _ => rfl) (Or.inr fun _ _ => rfl)
      (Or.inr fun _ _ => rfl) (Or.inr fun _ _ => rfl) (Or.inl hn) (Or.inr fun _ _ => rfl)
  · refine (key (·.metadata) kMetadata ?_ l .start hl).trans rfl
    intro st kv hn
    exact field_get (·.metadata) st kv
      (Or.inr fun _ _ => rfl) (Or.inr fun _ _ => rfl) (Or.inr fun _ _ => rfl) (Or.inr fun _ _ => rfl) (Or.inr fun _ _ => rfl)
      (Or.inr fun _ _ => rfl) (Or.inr fun _ _ => rfl) (Or.inr fun _ _ => rfl) (Or.inl hn)

/-- An object with nothing but data. -/
example : (decodeRecord (.obj [(kData, .str [72, 105])])).map (·.out) = some ⟨[], [], [], 0, 0, 0, [], [], nullText, nullText⟩ := by
  decide

/-- A member of the object that cannot be the field of a record it is named after: a text field takes a text, a number
field a decimal number below 2^64, and both take `null`. -/
def WrongType (kv : Str × Json) : Prop :=
  ((∃ n ∈ [kStreamName, kAggregateType, kAggregateID, kEventID, kEventType], sameName kv.1 n = true) ∧
    kv.2 ≠ .null ∧ ∀ s, kv.2 ≠ .str s) ∨
  ((∃ n ∈ [kGlobalSequenceNumber, kStreamSequenceNumber, kInsertTimestamp], sameName kv.1 n = true) ∧
    kv.2 ≠ .null ∧ ∀ t, kv.2 = .num t → ∀ n, n < 2 ^ 64 → Dec.parseUint t ≠ some n)

theorem parseUint_lt {t : Str} {n : Nat} (h : Dec.parseUint t = some n) : n < 2 ^ 64 := by
  unfold Dec.parseUint at h
  repeat' split at h
  all_goals first | omega | (cases h; omega) | (simp at h; omega) | cases h

theorem setStr_badflag (st : Decoding) (v : Json) (f : Record → Str → Record) :
    (st.setStr v f).bad = true ↔ st.bad = true ∨ (v ≠ .null ∧ ∀ s, v ≠ .str s) := by
  unfold Decoding.setStr
  split
  · simp
  · simp
  · rename_i h1 h2
    simp only [true_iff]
    exact Or.inr ⟨fun h => h2 h, fun s h => h1 s h⟩

theorem setNum_badflag (st : Decoding) (v : Json) (f : Record → Nat → Record) :
    (st.setNum v f).bad = true ↔ st.bad = true ∨
      (v ≠ .null ∧ ∀ t, v = .num t → ∀ n, n < 2 ^ 64 → Dec.parseUint t ≠ some n) := by
  unfold Decoding.setNum
  split
  · rename_i t
    split
    · rename_i n hn
      constructor
      · exact Or.inl
      · rintro (h | h)
        · exact h
        · exact absurd hn (h.2 t rfl n (parseUint_lt hn))
    · rename_i hn
      simp only [true_iff]
      exact Or.inr ⟨by simp, fun t' ht n _ => by cases ht; simp [hn]⟩
  · simp
  · rename_i h1 h2
    simp only [true_iff]
    exact Or.inr ⟨fun h => h2 h, fun t h => absurd h (h1 t)⟩

theorem sameName_other {k a b : Str} (h : sameName k a = true) (hab : sameName a b = false) : sameName k b = false := by
  unfold sameName at *
  rw [beq_iff_eq] at h
  rw [h]
  exact hab

theorem field_badflag (st : Decoding) (kv : Str × Json) :
    (st.field kv).bad = true ↔ st.bad = true ∨ WrongType kv := by
  have hsd : ∀ v, (st.setData v).bad = st.bad := by
    intro v
    unfold Decoding.setData
    split
    · rfl
    · split <;> rfl
  have other : ∀ {a b : Str}, sameName kv.1 a = true → sameName a b = false → sameName kv.1 b = false :=
    fun h h' => sameName_other h h'
  unfold Decoding.field WrongType
  split
  · rename_i e
    rw [setStr_badflag]
    simp [e, other e (show sameName kStreamName kGlobalSequenceNumber = false by decide),
      other e (show sameName kStreamName kStreamSequenceNumber = false by decide),
      other e (show sameName kStreamName kInsertTimestamp = false by decide)]
  rename_i e1
  split
  · rename_i e
    rw [setStr_badflag]
    simp [e, other e (show sameName kAggregateType kGlobalSequenceNumber = false by decide),
      other e (show sameName kAggregateType kStreamSequenceNumber = false by decide),
      other e (show sameName kAggregateType kInsertTimestamp = false by decide)]
  rename_i e2
  split
  · rename_i e
    rw [setStr_badflag]
    simp [e, other e (show sameName kAggregateID kGlobalSequenceNumber = false by decide),
      other e (show sameName kAggregateID kStreamSequenceNumber = false by decide),
      other e (show sameName kAggregateID kInsertTimestamp = false by decide)]
  rename_i e3
  split
  · rename_i e
    rw [setNum_badflag]
    simp [e, e1, e2, e3, other e (show sameName kGlobalSequenceNumber kEventID = false by decide),
      other e (show sameName kGlobalSequenceNumber kEventType = false by decide)]
  rename_i e4
  split
  · rename_i e
    rw [setNum_badflag]
    simp [e, e1, e2, e3, other e (show sameName kStreamSequenceNumber kEventID = false by decide),
      other e (show sameName kStreamSequenceNumber kEventType = false by decide)]
  rename_i e5
  split
  · rename_i e
    rw [setNum_badflag]
    simp [e, e1, e2, e3, other e (show sameName kInsertTimestamp kEventID = false by decide),
      other e (show sameName kInsertTimestamp kEventType = false by decide)]
  rename_i e6
  split
  · rename_i e
    rw [setStr_badflag]
    simp [e, e4, e5, e6]
  rename_i e7
  split
  · rename_i e
    rw [setStr_badflag]
    simp [e, e4, e5, e6]
  rename_i e8
  split
  · rw [hsd]; simp [e1, e2, e3, e4, e5, e6, e7, e8]
  split
  · simp [e1, e2, e3, e4, e5, e6, e7, e8]
  · simp [e1, e2, e3, e4, e5, e6, e7, e8]

/-- An object is refused exactly when one of its members has the wrong type for the field it is named after. In particular
the members that name no field of a record, the data and the metadata may hold anything. -/
theorem C44_types (l : List (Str × Json)) : decodeRecord (.obj l) = none ↔ ∃ kv ∈ l, WrongType kv := by
  have key : ∀ (l : List (Str × Json)) (st : Decoding),
      (l.foldl Decoding.field st).bad = true ↔ st.bad = true ∨ ∃ kv ∈ l, WrongType kv := by
    intro l
    induction l with
    | nil => intro st; simp
    | cons kv l ih =>
      intro st
      rw [List.foldl_cons, ih, field_badflag]
      simp [or_assoc]
  have h := key l .start
  simp only [decodeRecord]
  by_cases hb : (l.foldl Decoding.field .start).bad = true
  · rw [if_pos hb]
    simpa [Decoding.start] using h.mp hb
  · rw [if_neg hb]
    simp only [reduceCtorEq, false_iff]
    exact fun x => hb (h.mpr (Or.inr x))

/-- A stream name that is a number, a negative sequence number and one that is a text are refused; `null` is not. -/
example : WrongType (kStreamName, .num [49]) ∧ WrongType (kStreamSequenceNumber, .num [45, 49]) ∧
    WrongType (kInsertTimestamp, .str [49]) ∧ ¬ WrongType (kStreamName, .null) ∧
    ¬ WrongType (kGlobalSequenceNumber, .num [49]) := by
  have hw : ∀ kv, WrongType kv ↔ decodeRecord (.obj [kv]) = none := fun kv => by rw [C44_types]; simp
  simp only [hw]
  exact ⟨rfl, rfl, rfl, by decide +kernel, by decide +kernel⟩

/-- Two bytes that are equal, or the two forms of one letter of the English alphabet. -/
def SameLetter (x y : Nat) : Prop := x = y ∨ (65 ≤ x ∧ x ≤ 90 ∧ y = x + 32) ∨ (65 ≤ y ∧ y ≤ 90 ∧ x = y + 32)

/-- The names of fields, in records and in request bodies, are compared without regard to the case of letters, and in no other
way (part of C41). -/
theorem C41_names (a b : Str) : sameName a b = true ↔ List.Forall₂ SameLetter a b := by
  have hl : ∀ x y, lower x = lower y ↔ SameLetter x y := by
    intro x y
    unfold lower SameLetter btw
    split <;> split <;> simp_all <;> omega
  unfold sameName
  rw [beq_iff_eq]
  induction a generalizing b with
  | nil => cases b <;> simp
  | cons x a ih =>
    cases b with
    | nil => simp
    | cons y b => simp [List.cons.injEq, hl, ih]

/-- A field written `DATA` is the data. -/
example : sameName [68, 65, 84, 65] kData = true := by decide

end RangeDB.Json

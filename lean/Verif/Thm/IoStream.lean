import Verif.Proof.IoStream

/-!
# Theorems: record I/O streams (C44, C45)
-/

namespace RangeDB.Json

/-- A record to try things on. -/
def demoRec (n : Nat) : Record :=
  ⟨[65, 33, 49], [65], [49], n, n, 7, [117], [69], (Json.obj [([107], .str [226, 130, 172, 34])]).text, nullText⟩

theorem demoRec_good (n : Nat) (h : n < 2 ^ 64) : Good unbound (demoRec n) where
  streamName := show Valid [65, 33, 49] by decide
  aggType := show Valid [65] by decide
  aggId := show Valid [49] by decide
  eventId := show Valid [117] by decide
  evType := show Valid [69] by decide
  fits := ⟨h, h, show 7 < 2 ^ 64 by decide⟩
  data := ⟨.obj [([107], .str [226, 130, 172, 34])], by simp only [Json.WF, Json.WFf]; decide, by simp, rfl, rfl⟩
  metadata := ⟨.null, by simp [Json.WF], rfl, rfl⟩

/-! ## C44 -/

/-- **C44**, JSON arrays: whatever records are written, none of them is reported as an error, and reading gives
exactly these records in this order. -/
theorem C44_json_partial (ty : Types) (rs : List Record) (hg : ∀ r ∈ rs, Good ty r) :
    (write .json serialize (Iter.mk rs none).results).2 = none ∧
    readJson ty (write .json serialize (Iter.mk rs none).results).1 = ⟨rs, none⟩ := by
  rw [write_ok .json serialize rs none (fun r hr => good_serialize (hg r hr))]
  refine ⟨rfl, ?_⟩
  have := readJson_body rs hg [93] ⟨[], none⟩ (by
    intro fuel hf
    cases fuel with
    | zero => simp at hf
    | succ fuel => simp [readArray, skipWs_of 93 [] rfl])
  simpa [Format.opening, Format.closing] using this

/-- **C44**, newline-delimited JSON. -/
theorem C44_ndjson_partial (ty : Types) (rs : List Record) (hg : ∀ r ∈ rs, Good ty r) :
    (write .ndjson serialize (Iter.mk rs none).results).2 = none ∧
    readNd ty (write .ndjson serialize (Iter.mk rs none).results).1 = ⟨rs, none⟩ := by
  rw [write_ok .ndjson serialize rs none (fun r hr => good_serialize (hg r hr))]
  refine ⟨rfl, ?_⟩
  have := readNd_body rs hg [] ⟨[], none⟩ (fun fuel _ => readTop_nil ty fuel)
  simpa [Format.opening, Format.closing] using this

/-- **C44**, msgpack: given a library that reads back the records it writes, the stream does. -/
theorem C44_msgpack_partial (c : Msgpack) (good : Record → Prop) (hc : c.Lawful good) (rs : List Record)
    (hg : ∀ r ∈ rs, good r ∧ c.enc r ≠ none) :
    (write .msgpack c.enc (Iter.mk rs none).results).2 = none ∧
    readMsgpack c ((write .msgpack c.enc (Iter.mk rs none).results).1.length + 1)
      (write .msgpack c.enc (Iter.mk rs none).results).1 = ⟨rs, none⟩ := by
  rw [write_ok .msgpack c.enc rs none (fun r hr => (hg r hr).2)]
  refine ⟨rfl, ?_⟩
  simp only [Format.opening, Format.closing, List.nil_append, List.append_nil, bodyText_msgpack]
  exact readMsgpack_all c hc rs hg _ (by have := tailText_length c hc rs hg; omega)

theorem readMsgpack_fault (c : Msgpack) {good : Record → Prop} (hc : c.Lawful good) (t : Str) (ht : c.dec t = .error false)
    (rs : List Record) (hg : ∀ r ∈ rs, good r ∧ c.enc r ≠ none) (fuel : Nat) (hf : rs.length < fuel) :
    readMsgpack c fuel (tailText .msgpack c.enc rs ++ t) = ⟨rs, some .deserialize⟩ := by
  induction rs generalizing fuel with
  | nil =>
    cases fuel with
    | zero => omega
    | succ fuel => simp [readMsgpack, tailText, ht]
  | cons r rs ih =>
    cases fuel with
    | zero => omega
    | succ fuel =>
      obtain ⟨h1, h2⟩ := hg r (by simp)
      cases hb : c.enc r with
      | none => exact absurd hb h2
      | some b =>
        simp only [tailText, Format.between, List.nil_append, hb, Option.getD_some, readMsgpack, List.append_assoc,
          hc.roundTrip r b _ h1 hb]
        rw [ih (fun r hr => hg r (by simp [hr])) fuel (by simp at hf; omega)]
        rfl

/-- **C44**, msgpack: what follows the records and is no record is reported, after all the records. -/
theorem C44_msgpack_fault (c : Msgpack) (good : Record → Prop) (hc : c.Lawful good) (rs : List Record)
    (hg : ∀ r ∈ rs, good r ∧ c.enc r ≠ none) (t : Str) (ht : c.dec t = .error false) :
    readMsgpack c (((write .msgpack c.enc (Iter.mk rs none).results).1 ++ t).length + 1)
      ((write .msgpack c.enc (Iter.mk rs none).results).1 ++ t) = ⟨rs, some .deserialize⟩ := by
  rw [write_ok .msgpack c.enc rs none (fun r hr => (hg r hr).2)]
  simp only [Format.opening, Format.closing, List.nil_append, List.append_nil, bodyText_msgpack]
  refine readMsgpack_fault c hc t ht rs hg _ ?_
  have := tailText_length c hc rs hg
  simp only [List.length_append]
  omega

/-- The text is one JSON value and nothing more. -/
def IsJson (t : Str) : Prop := ∃ v, parse t = some (v, [])

/-- **C44**, what can be exported as JSON (and stored by the stores that store JSON): exactly the records whose data and metadata are
each one JSON value, with nothing behind it. -/
theorem C44_accepts (ty : Types) (r : Record) :
    (((serializer ty).ser r).isSome ↔ IsJson r.data ∧ IsJson r.metadata) ∧
    ∀ fm : Format, fm ≠ .msgpack → ((write fm serialize (Iter.mk [r] none).results).2 = none ↔ IsJson r.data ∧ IsJson r.metadata) := by
  have key : ∀ t, (marshalValue t).isSome ↔ IsJson t := by
    intro t
    unfold marshalValue IsJson
    split
    · rename_i v h; simp [h]
    · rename_i h
      simp only [Option.isSome_none, Bool.false_eq_true, false_iff, not_exists]
      exact h
  have hs : (serialize r).isSome ↔ IsJson r.data ∧ IsJson r.metadata := by
    rw [← key, ← key]
    unfold serialize
    cases marshalValue r.data <;> cases marshalValue r.metadata <;> simp
  refine ⟨hs, fun fm _ => ?_⟩
  rw [← hs]
  cases h : serialize r with
  | none => simp [write, Iter.results, writeLoop, RecordIterator.new, RecordIterator.next, RecordIterator.record,
      RecordIterator.error, ResultRecord.zero, h]
  | some b =>
    rw [write_ok fm serialize [r] none (by simp [h])]
    simp

example : ∀ r ∈ [demoRec 1, demoRec 2, demoRec 3], Good unbound r := by
  intro r hr
  simp only [List.mem_cons, List.not_mem_nil, or_false] at hr
  rcases hr with rfl | rfl | rfl <;> exact demoRec_good _ (by decide)

/-- Data followed by something else is refused: `{}` and `{} 1`. -/
example : IsJson [123, 125] ∧ ¬ IsJson [123, 125, 32, 49] := by
  have h1 : ((parse [123, 125]).any (fun x => x.2 == [])) = true := by decide +kernel
  refine ⟨?_, fun ⟨v, h⟩ => ?_⟩
  · cases hp : parse [123, 125] with
    | none => rw [hp] at h1; simp at h1
    | some x => rw [hp] at h1; exact ⟨x.1, by rw [hp]; simp at h1; rw [← h1]⟩
  have h2 : ((parse [123, 125, 32, 49]).all (fun x => x.2 != [])) = true := by decide +kernel
  rw [h] at h2
  simp at h2

/-- The full claim about truncated files. -/
def C44_truncation_full (fm : Format) (read : Str → Iter) : Prop :=
  ∀ (rs : List Record), (∀ r ∈ rs, Good unbound r) →
    ∀ p q, q ≠ [] → (write fm serialize (Iter.mk rs none).results).1 = p ++ q → (read p).err ≠ none

/-- It is false of both JSON formats. -/
theorem C44_truncation_false :
    ¬ C44_truncation_full .json (readJson unbound) ∧ ¬ C44_truncation_full .ndjson (readNd unbound) := by
  constructor
  · intro h
    exact h [] (by simp) [] [91, 93] (by simp) rfl rfl
  · intro h
    have hg : ∀ r ∈ [demoRec 1], Good unbound r := by
      intro r hr; simp only [List.mem_singleton] at hr; subst hr; exact demoRec_good 1 (by decide)
    refine h [demoRec 1] hg [] (write .ndjson serialize (Iter.mk [demoRec 1] none).results).1 ?_ rfl rfl
    rw [write_ok .ndjson serialize _ none (fun r hr => good_serialize (hg r hr))]
    obtain ⟨b, hb, _⟩ := good_roundTrip (hg (demoRec 1) (by simp))
    obtain ⟨t, ht⟩ := serialize_head hb
    simp [bodyText, hb, ht]

/-- **C44**, a JSON array file cut anywhere: the records read are always the first ones of the file, unchanged;
and the cut goes unnoticed exactly if the file is empty or ends behind a complete record (or behind the opening
bracket). -/
theorem C44_json_truncated (ty : Types) (rs : List Record) (hg : ∀ r ∈ rs, Good ty r) (p q : Str) (hq : q ≠ [])
    (hp : (write .json serialize (Iter.mk rs none).results).1 = p ++ q) :
    (∃ k, (readJson ty p).recs = rs.take k) ∧
    ((readJson ty p).err = none ↔ p = [] ∨ ∃ k, k ≤ rs.length ∧ p = 91 :: bodyText .json serialize (rs.take k)) := by
  rw [write_ok .json serialize rs none (fun r hr => good_serialize (hg r hr))] at hp
  cases p with
  | nil => exact ⟨⟨0, rfl⟩, by simp [readJson, skipWs]⟩
  | cons c p =>
    simp only [Format.opening, Format.closing, List.cons_append, List.nil_append, List.cons.injEq] at hp
    obtain ⟨rfl, hp⟩ := hp
    have quiet : ∀ k, readJson ty (91 :: bodyText .json serialize (rs.take k)) = ⟨rs.take k, none⟩ := by
      intro k
      have := readJson_body (rs.take k) (fun r hr => hg r (List.mem_of_mem_take hr)) [] ⟨[], none⟩
        (fun fuel _ => readArray_nil ty _ fuel)
      simpa using this
    rcases body_cut .json serialize 44 rfl [93] (by simp) rs (fun r hr => good_serialize (hg r hr)) p q hq hp with
      ⟨k, hk, rfl⟩ | ⟨pre, r, post, b, x, y, e1, e2, e3, e4, e5⟩
    · rw [quiet k]
      exact ⟨⟨k, rfl⟩, by simp only [true_iff]; exact Or.inr ⟨k, hk, rfl⟩⟩
    · have hr : Good ty r := hg r (by simp [e1])
      have htorn := good_torn hr e2 e4 e3
      have hread : readJson ty (91 :: p) = ⟨pre, some .deserialize⟩ := by
        rcases e5 with ⟨rfl, hx, rfl⟩ | ⟨hne, rfl⟩
        · obtain ⟨t, rfl⟩ := torn_head hr e2 e3 hx
          simp only [readJson]
          rw [skipWs_of _ _ rfl]
          simp only [if_true, readArray]
          rw [skipWs_of _ _ rfl]
          simp [htorn]
        · have := readJson_body pre (fun r' hr' => hg r' (by simp [e1, hr'])) (44 :: x) ⟨[], some .deserialize⟩ (by
            intro fuel hf
            cases fuel with
            | zero => simp at hf
            | succ fuel =>
              have : pre.isEmpty = false := by cases pre <;> simp_all
              simp only [readArray, this]
              rw [skipWs_of _ _ rfl]
              simp [htorn])
          simpa using this
      rw [hread]
      refine ⟨⟨pre.length, by simp [e1]⟩, ?_⟩
      simp only [reduceCtorEq, false_iff, not_or, not_exists, not_and, List.cons_ne_nil, not_false_eq_true, true_and]
      intro k _ hk
      rw [hk, quiet k] at hread
      simp at hread

/-- **C44**, a newline-delimited file cut anywhere: the same; the cut goes unnoticed exactly behind a complete
record or the newline after it. -/
theorem C44_ndjson_truncated (ty : Types) (rs : List Record) (hg : ∀ r ∈ rs, Good ty r) (p q : Str) (hq : q ≠ [])
    (hp : (write .ndjson serialize (Iter.mk rs none).results).1 = p ++ q) :
    (∃ k, (readNd ty p).recs = rs.take k) ∧
    ((readNd ty p).err = none ↔
      ∃ k, k ≤ rs.length ∧ (p = bodyText .ndjson serialize (rs.take k) ∨
        0 < k ∧ p = bodyText .ndjson serialize (rs.take k) ++ [10])) := by
  rw [write_ok .ndjson serialize rs none (fun r hr => good_serialize (hg r hr))] at hp
  simp only [Format.opening, Format.closing, List.nil_append] at hp
  have quiet : ∀ k, readNd ty (bodyText .ndjson serialize (rs.take k)) = ⟨rs.take k, none⟩ := by
    intro k
    have := readNd_body (rs.take k) (fun r hr => hg r (List.mem_of_mem_take hr)) [] ⟨[], none⟩
      (fun fuel _ => readTop_nil ty fuel)
    simpa using this
  have quiet' : ∀ k, readNd ty (bodyText .ndjson serialize (rs.take k) ++ [10]) = ⟨rs.take k, none⟩ := by
    intro k
    have := readNd_body (rs.take k) (fun r hr => hg r (List.mem_of_mem_take hr)) [10] ⟨[], none⟩
      (fun fuel _ => by rw [readTop_sep, readTop_nil])
    simpa using this
  rcases body_cut .ndjson serialize 10 rfl [] (by simp) rs (fun r hr => good_serialize (hg r hr)) p q hq hp with
    ⟨k, hk, rfl⟩ | ⟨pre, r, post, b, x, y, e1, e2, e3, e4, e5⟩
  · rw [quiet k]
    exact ⟨⟨k, rfl⟩, by simp only [true_iff]; exact ⟨k, hk, Or.inl rfl⟩⟩
  · have hr : Good ty r := hg r (by simp [e1])
    have htorn := good_torn hr e2 e4 e3
    have hpre : rs.take pre.length = pre := by simp [e1]
    by_cases hx : x = []
    · subst hx
      rcases e5 with ⟨_, hx, _⟩ | ⟨hne, rfl⟩
      · exact absurd rfl hx
      · have := quiet' pre.length
        rw [hpre] at this
        rw [this]
        refine ⟨⟨pre.length, by rw [hpre]⟩, ?_⟩
        simp only [true_iff]
        exact ⟨pre.length, by simp [e1], Or.inr ⟨List.length_pos_iff.mpr hne, by rw [hpre]⟩⟩
    · obtain ⟨t, rfl⟩ := torn_head hr e2 e3 hx
      have htop : ∀ fuel, 0 < fuel → readTop ty fuel (123 :: t) = ⟨[], some .deserialize⟩ := by
        intro fuel hf
        cases fuel with
        | zero => omega
        | succ fuel =>
          simp only [readTop]
          rw [skipWs_of _ _ rfl]
          simp [htorn]
      have hread : readNd ty p = ⟨pre, some .deserialize⟩ := by
        rcases e5 with ⟨rfl, _, rfl⟩ | ⟨hne, rfl⟩
        · exact htop _ (by omega)
        · have := readNd_body pre (fun r' hr' => hg r' (by simp [e1, hr'])) (10 :: 123 :: t)
            ⟨[], some .deserialize⟩ (by
              intro fuel hf
              rw [readTop_sep]
              exact htop fuel (by omega))
          simpa using this
      rw [hread]
      refine ⟨⟨pre.length, hpre.symm⟩, ?_⟩
      simp only [reduceCtorEq, false_iff, not_exists, not_and, not_or]
      intro k _
      refine ⟨fun hk => ?_, fun _ hk => ?_⟩
      · rw [hk, quiet k] at hread; simp at hread
      · rw [hk, quiet' k] at hread; simp at hread

/-- A cut that goes unnoticed: of three records the file holds two. -/
example : readJson unbound (91 :: bodyText .json serialize [demoRec 1, demoRec 2]) = ⟨[demoRec 1, demoRec 2], none⟩ := by
  decide +kernel

/-! ## C45 -/

/-- The full claim: if the store's iterator ends with an error, `Write` reports one. -/
def C45_full (fm : Format) : Prop :=
  ∀ (marshal : Record → Option Str) (it : Iter), it.err ≠ none → (write fm marshal it.results).2 ≠ none

/-- **C45 is false**, for every format and at every position: an export that lost its tail to an error of the
iterator is, byte for byte, the export of a store that holds only the records before it; no error is reported. -/
theorem C45_error_lost (fm : Format) (marshal : Record → Option Str) (rs : List Record)
    (hm : ∀ r ∈ rs, marshal r ≠ none) (e : Err) :
    write fm marshal (Iter.mk rs (some e)).results = write fm marshal (Iter.mk rs none).results ∧
    (write fm marshal (Iter.mk rs (some e)).results).2 = none := by
  rw [write_ok fm marshal rs (some e) hm, write_ok fm marshal rs none hm]
  exact ⟨rfl, rfl⟩

theorem C45_false (fm : Format) : ¬ C45_full fm := by
  intro h
  exact h serialize ⟨[], some .deserialize⟩ (by simp) (C45_error_lost fm serialize [] (by simp) .deserialize).2

/-- Such an export even reads back without an error. -/
theorem C45_reads_back (ty : Types) (rs : List Record) (hg : ∀ r ∈ rs, Good ty r) (e : Err) :
    readJson ty (write .json serialize (Iter.mk rs (some e)).results).1 = ⟨rs, none⟩ := by
  rw [(C45_error_lost .json serialize rs (fun r hr => good_serialize (hg r hr)) e).1]
  exact (C44_json_partial ty rs hg).2

/-- **C45, what holds**: a record that cannot be marshalled is reported, whatever comes before and after it.
Missing: errors of the iterator. -/
theorem C45_marshal_partial (fm : Format) (marshal : Record → Option Str) (pre post : List Record) (r : Record)
    (e : Option Err) (h : ∀ r ∈ pre, marshal r ≠ none) (hr : marshal r = none) :
    (write fm marshal (Iter.mk (pre ++ r :: post) e).results).2 = some .serialize :=
  write_bad fm marshal pre post r e h hr

example : serialize { demoRec 1 with data := [91] } = none ∧ serialize (demoRec 1) ≠ none := by decide +kernel

end RangeDB.Json

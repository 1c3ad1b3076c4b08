import Verif.Proof.JsonRecord

/-! # Lemmas about the record I/O streams -/

namespace RangeDB.Json

theorem writeLoop_ok (fm : Format) (marshal : Record → Option Str) (rs : List Record)
    (h : ∀ r ∈ rs, marshal r ≠ none) (tail : List ResultRecord)
    (ht : tail = [] ∨ ∃ e, tail = [⟨none, some e⟩]) (cur : ResultRecord) (hc : cur.err = none) (saved : Bool) (fuel : Nat)
    (hf : rs.length + tail.length < fuel) :
    writeLoop fm marshal fuel saved ⟨rs.map (fun r => ⟨some r, none⟩) ++ tail, cur⟩ =
      ((if saved then tailText fm marshal rs else bodyText fm marshal rs) ++ fm.closing, none) := by
  induction rs generalizing cur saved fuel with
  | nil =>
    cases fuel with
    | zero => omega
    | succ fuel =>
      rcases ht with rfl | ⟨e, rfl⟩
      · simp [writeLoop, RecordIterator.next, hc, tailText, bodyText]
      · simp [writeLoop, RecordIterator.next, hc, tailText, bodyText]
  | cons r rs ih =>
    cases fuel with
    | zero => omega
    | succ fuel =>
      cases hm : marshal r with
      | none => exact absurd hm (h r (by simp))
      | some b =>
        simp only [List.map_cons, List.cons_append, writeLoop, RecordIterator.next, hc, ne_eq, not_true, if_false,
          Option.isSome_some, RecordIterator.error, RecordIterator.record, hm]
        rw [ih (fun r hr => h r (by simp [hr])) _ rfl true fuel (by simp at hf; omega)]
        cases saved <;> simp [tailText, bodyText, hm]

theorem iter_results (rs : List Record) (e : Option Err) :
    ∃ tail, (Iter.mk rs e).results = rs.map (fun r => ⟨some r, none⟩) ++ tail ∧
      (tail = [] ∨ ∃ e, tail = [⟨none, some e⟩]) := by
  cases e with
  | none => exact ⟨[], rfl, Or.inl rfl⟩
  | some e => exact ⟨[⟨none, some e⟩], rfl, Or.inr ⟨e, rfl⟩⟩

/-- The file that `Write` makes of the records, if all of them marshal: complete or not. -/
theorem write_ok (fm : Format) (marshal : Record → Option Str) (rs : List Record) (e : Option Err)
    (h : ∀ r ∈ rs, marshal r ≠ none) :
    write fm marshal (Iter.mk rs e).results = (fm.opening ++ (bodyText fm marshal rs ++ fm.closing), none) := by
  obtain ⟨tail, h1, h2⟩ := iter_results rs e
  rw [h1, write]
  have := writeLoop_ok fm marshal rs h tail h2 .zero rfl false
    ((rs.map (fun r => (⟨some r, none⟩ : ResultRecord)) ++ tail).length + 1) (by simp)
  simp only [RecordIterator.new, this]
  rfl

/-- A record that does not marshal is reported. -/
theorem write_bad (fm : Format) (marshal : Record → Option Str) (pre post : List Record) (r : Record) (e : Option Err)
    (h : ∀ r ∈ pre, marshal r ≠ none) (hr : marshal r = none) :
    (write fm marshal (Iter.mk (pre ++ r :: post) e).results).2 = some .serialize := by
  have key : ∀ (pre : List Record), (∀ r ∈ pre, marshal r ≠ none) → ∀ (tail : List ResultRecord) (cur : ResultRecord),
      cur.err = none → ∀ (saved : Bool) (fuel : Nat), pre.length < fuel →
      (writeLoop fm marshal fuel saved
        ⟨pre.map (fun r => ⟨some r, none⟩) ++ ⟨some r, none⟩ :: tail, cur⟩).2 = some .serialize := by
    intro pre
    induction pre with
    | nil =>
      intro _ tail cur hc saved fuel hf
      cases fuel with
      | zero => omega
      | succ fuel => simp [writeLoop, RecordIterator.next, hc, RecordIterator.error, RecordIterator.record, hr]
    | cons x pre ih =>
      intro h tail cur hc saved fuel hf
      cases fuel with
      | zero => omega
      | succ fuel =>
        cases hm : marshal x with
        | none => exact absurd hm (h x (by simp))
        | some b =>
          simp only [List.map_cons, List.cons_append, writeLoop, RecordIterator.next, hc, ne_eq, not_true, if_false,
            Option.isSome_some, RecordIterator.error, RecordIterator.record, hm]
          exact ih (fun r hr => h r (by simp [hr])) tail _ rfl true fuel (by simp at hf; omega)
  obtain ⟨tail, h1, _⟩ := iter_results (pre ++ r :: post) e
  rw [h1, write]
  simp only [List.map_append, List.map_cons, List.append_assoc, List.cons_append, RecordIterator.new]
  exact key pre h _ .zero rfl false _ (by simp; omega)

/-! ## Reading -/

section
variable {ty : Types}

theorem sep_not_space (c : Nat) (t : Str) (h : c = 44 ∨ c = 93 ∨ c = 123) : skipWs (c :: t) = c :: t := by
  apply skipWs_of
  rcases h with rfl | rfl | rfl <;> decide

/-- What a tail of separated records reads as. -/
theorem readArray_tail (rs : List Record) (hg : ∀ r ∈ rs, Good ty r) (p : Str) (out : Iter)
    (hp : ∀ fuel, p.length < fuel → readArray ty fuel false p = out) (fuel : Nat)
    (hf : (tailText .json serialize rs ++ p).length < fuel) :
    readArray ty fuel false (tailText .json serialize rs ++ p) = ⟨rs ++ out.recs, out.err⟩ := by
  induction rs generalizing fuel with
  | nil => simp only [tailText, List.nil_append] at hf ⊢; rw [hp fuel hf]
  | cons r rs ih =>
    cases fuel with
    | zero => omega
    | succ fuel =>
      obtain ⟨b, hb, hu⟩ := good_roundTrip (hg r (by simp))
      simp only [tailText, hb, Option.getD_some, Format.between, List.append_assoc, List.length_append,
        List.length_cons, List.length_nil] at hf
      simp only [tailText, hb, Option.getD_some, Format.between, List.append_assoc, List.cons_append,
        List.nil_append, readArray]
      rw [skipWs_of _ _ rfl]
      simp only [show ¬ (44 = 93 ∨ 44 = 125) by decide, if_false, if_true, Bool.false_eq_true]
      rw [hu]
      simp only [Iter.cons]
      rw [ih (fun r hr => hg r (by simp [hr])) fuel (by simp; omega)]

theorem readArray_body (r : Record) (rs : List Record) (hg : ∀ x ∈ r :: rs, Good ty x) (p : Str) (out : Iter)
    (hp : ∀ fuel, p.length < fuel → readArray ty fuel false p = out) (fuel : Nat)
    (hf : (bodyText .json serialize (r :: rs) ++ p).length < fuel) :
    readArray ty fuel true (bodyText .json serialize (r :: rs) ++ p) = ⟨(r :: rs) ++ out.recs, out.err⟩ := by
  cases fuel with
  | zero => omega
  | succ fuel =>
    obtain ⟨b, hb, hu⟩ := good_roundTrip (hg r (by simp))
    obtain ⟨t, ht⟩ := serialize_head hb
    simp only [bodyText, hb, Option.getD_some, List.append_assoc, List.length_append] at hf
    simp only [bodyText, hb, Option.getD_some, List.append_assoc, readArray]
    have hu' := hu (tailText .json serialize rs ++ p)
    rw [ht] at hu' ⊢
    simp only [List.cons_append] at hu' ⊢
    rw [skipWs_of _ _ rfl]
    simp only [show ¬ (123 = 93 ∨ 123 = 125) by decide, if_false, if_true]
    rw [hu']
    simp only [Iter.cons]
    rw [readArray_tail rs (fun x hx => hg x (by simp [hx])) p out hp fuel
      (by rw [ht] at hf; simp at hf ⊢; omega)]

/-- Reading a file of which all but the last part is known. -/
theorem readJson_body (rs : List Record) (hg : ∀ r ∈ rs, Good ty r) (p : Str) (out : Iter)
    (hp : ∀ fuel, p.length < fuel → readArray ty fuel (rs.isEmpty) p = out) :
    readJson ty (91 :: (bodyText .json serialize rs ++ p)) = ⟨rs ++ out.recs, out.err⟩ := by
  simp only [readJson]
  rw [skipWs_of _ _ rfl]
  simp only [if_true]
  cases rs with
  | nil => simp only [bodyText, List.nil_append]; exact hp _ (by omega)
  | cons r rs => exact readArray_body r rs hg p out hp _ (by omega)

theorem readTop_sep (s : Str) (fuel : Nat) : readTop ty fuel (10 :: s) = readTop ty fuel s := by
  cases fuel with
  | zero => rfl
  | succ fuel => simp only [readTop, show skipWs (10 :: s) = skipWs s from rfl]

theorem readTop_one (r : Record) (hg : Good ty r) (p : Str) (fuel : Nat) :
    readTop ty (fuel + 1) ((serialize r).getD [] ++ p) = Iter.cons r (readTop ty fuel p) := by
  obtain ⟨b, hb, hu⟩ := good_roundTrip hg
  obtain ⟨t, ht⟩ := serialize_head hb
  have hu' := hu p
  rw [hb, Option.getD_some]
  rw [ht] at hu' ⊢
  simp only [List.cons_append, readTop] at hu' ⊢
  rw [skipWs_of _ _ rfl]
  simp only [show ¬ (123 = 93 ∨ 123 = 125) by decide, if_false]
  rw [hu']

theorem readTop_tail (rs : List Record) (hg : ∀ r ∈ rs, Good ty r) (p : Str) (out : Iter)
    (hp : ∀ fuel, p.length < fuel → readTop ty fuel p = out) (fuel : Nat)
    (hf : (tailText .ndjson serialize rs ++ p).length < fuel) :
    readTop ty fuel (tailText .ndjson serialize rs ++ p) = ⟨rs ++ out.recs, out.err⟩ := by
  induction rs generalizing fuel with
  | nil => simp only [tailText, List.nil_append] at hf ⊢; rw [hp fuel hf]
  | cons r rs ih =>
    cases fuel with
    | zero => omega
    | succ fuel =>
      simp only [tailText, Format.between, List.append_assoc, List.cons_append, List.nil_append, List.length_append,
        List.length_cons] at hf ⊢
      rw [readTop_sep, readTop_one r (hg r (by simp)), ih (fun r hr => hg r (by simp [hr])) fuel (by simp; omega)]
      rfl

theorem readNd_body (rs : List Record) (hg : ∀ r ∈ rs, Good ty r) (p : Str) (out : Iter)
    (hp : ∀ fuel, p.length < fuel → readTop ty fuel p = out) :
    readNd ty (bodyText .ndjson serialize rs ++ p) = ⟨rs ++ out.recs, out.err⟩ := by
  unfold readNd
  cases rs with
  | nil => simp only [bodyText, List.nil_append]; exact hp _ (by omega)
  | cons r rs =>
    obtain ⟨b, hb, hu⟩ := good_roundTrip (hg r (by simp))
    obtain ⟨t, ht⟩ := serialize_head hb
    simp only [bodyText, List.append_assoc]
    rw [readTop_one r (hg r (by simp)), readTop_tail rs (fun x hx => hg x (by simp [hx])) p out hp _ ?_]
    · rfl
    · simp [hb, ht]; omega

end

theorem good_serialize {ty : Types} {r : Record} (h : Good ty r) : serialize r ≠ none := by
  obtain ⟨b, hb, _⟩ := good_roundTrip h
  simp [hb]

theorem readMsgpack_all (c : Msgpack) {good : Record → Prop} (hc : c.Lawful good) (rs : List Record)
    (hg : ∀ r ∈ rs, good r ∧ c.enc r ≠ none) (fuel : Nat) (hf : rs.length < fuel) :
    readMsgpack c fuel (tailText .msgpack c.enc rs) = ⟨rs, none⟩ := by
  induction rs generalizing fuel with
  | nil =>
    cases fuel with
    | zero => omega
    | succ fuel => simp [readMsgpack, tailText, hc.eof]
  | cons r rs ih =>
    cases fuel with
    | zero => omega
    | succ fuel =>
      obtain ⟨h1, h2⟩ := hg r (by simp)
      cases hb : c.enc r with
      | none => exact absurd hb h2
      | some b =>
        simp only [tailText, Format.between, List.nil_append, hb, Option.getD_some, readMsgpack,
          hc.roundTrip r b _ h1 hb]
        rw [ih (fun r hr => hg r (by simp [hr])) fuel (by simp at hf; omega)]
        rfl

theorem bodyText_msgpack (c : Msgpack) (rs : List Record) : bodyText .msgpack c.enc rs = tailText .msgpack c.enc rs := by
  cases rs <;> simp [bodyText, tailText, Format.between]

theorem tailText_length (c : Msgpack) {good : Record → Prop} (hc : c.Lawful good) (rs : List Record)
    (hg : ∀ r ∈ rs, good r ∧ c.enc r ≠ none) : rs.length ≤ (tailText .msgpack c.enc rs).length := by
  induction rs with
  | nil => simp
  | cons r rs ih =>
    obtain ⟨h1, h2⟩ := hg r (by simp)
    cases hb : c.enc r with
    | none => exact absurd hb h2
    | some b =>
      have := List.length_pos_iff.mpr (hc.nonempty r b hb)
      have := ih (fun r hr => hg r (by simp [hr]))
      simp [tailText, hb, Format.between]
      omega

/-! ## Files that are cut short -/

/-- Where a file of records can be cut: between two records, or in one. -/
theorem tail_cut (fm : Format) (marshal : Record → Option Str) (c : Nat) (hb : fm.between = [c]) (fin : Str)
    (hfin : fin.length ≤ 1) (rs : List Record) (h : ∀ r ∈ rs, marshal r ≠ none) :
    ∀ (p q : Str), q ≠ [] → tailText fm marshal rs ++ fin = p ++ q →
      (∃ k, k ≤ rs.length ∧ p = tailText fm marshal (rs.take k)) ∨
      (∃ pre r post b x y, rs = pre ++ r :: post ∧ marshal r = some b ∧ b = x ++ y ∧ y ≠ [] ∧
        p = tailText fm marshal pre ++ c :: x) := by
  induction rs with
  | nil =>
    intro p q hq he
    refine Or.inl ⟨0, Nat.le_refl _, ?_⟩
    have := congrArg List.length he
    simp only [tailText, List.nil_append, List.length_append] at this
    have hql := List.length_pos_iff.mpr hq
    exact List.eq_nil_of_length_eq_zero (by omega)
  | cons r rs ih =>
    intro p q hq he
    cases hm : marshal r with
    | none => exact absurd hm (h r (by simp))
    | some b =>
      cases p with
      | nil => exact Or.inl ⟨0, Nat.zero_le _, by simp [tailText]⟩
      | cons d p =>
        simp only [tailText, hb, hm, Option.getD_some, List.cons_append, List.nil_append, List.append_assoc,
          List.cons.injEq] at he
        obtain ⟨rfl, he⟩ := he
        rcases List.append_eq_append_iff.mp he with ⟨a, h1, h2⟩ | ⟨a, h1, h2⟩
        · rcases ih (fun r hr => h r (by simp [hr])) a q hq h2 with ⟨k, hk, rfl⟩ | ⟨pre, r', post, b', x, y, e1, e2, e3, e4, rfl⟩
          · exact Or.inl ⟨k + 1, by simp; omega, by simp [tailText, hb, hm, h1]⟩
          · refine Or.inr ⟨r :: pre, r', post, b', x, y, by simp [e1], e2, e3, e4, ?_⟩
            simp [tailText, hb, hm, h1]
        · cases a with
          | nil =>
            simp only [List.append_nil, List.nil_append] at h1 h2
            refine Or.inl ⟨1, by simp, by simp [tailText, hb, hm, h1]⟩
          | cons a0 a =>
            exact Or.inr ⟨[], r, rs, b, p, a0 :: a, rfl, hm, h1, by simp, by simp [tailText]⟩

theorem body_cut (fm : Format) (marshal : Record → Option Str) (c : Nat) (hb : fm.between = [c]) (fin : Str)
    (hfin : fin.length ≤ 1) (rs : List Record) (h : ∀ r ∈ rs, marshal r ≠ none) (p q : Str) (hq : q ≠ [])
    (he : bodyText fm marshal rs ++ fin = p ++ q) :
    (∃ k, k ≤ rs.length ∧ p = bodyText fm marshal (rs.take k)) ∨
    (∃ pre r post b x y, rs = pre ++ r :: post ∧ marshal r = some b ∧ b = x ++ y ∧ y ≠ [] ∧
      ((pre = [] ∧ x ≠ [] ∧ p = x) ∨ (pre ≠ [] ∧ p = bodyText fm marshal pre ++ c :: x))) := by
  cases rs with
  | nil =>
    refine Or.inl ⟨0, Nat.le_refl _, ?_⟩
    have := congrArg List.length he
    simp only [bodyText, List.nil_append, List.length_append] at this
    have hql := List.length_pos_iff.mpr hq
    exact List.eq_nil_of_length_eq_zero (by omega)
  | cons r rs =>
    cases hm : marshal r with
    | none => exact absurd hm (h r (by simp))
    | some b =>
      simp only [bodyText, hm, Option.getD_some, List.append_assoc] at he
      rcases List.append_eq_append_iff.mp he with ⟨a, h1, h2⟩ | ⟨a, h1, h2⟩
      · rcases tail_cut fm marshal c hb fin hfin rs (fun r hr => h r (by simp [hr])) a q hq h2 with
          ⟨k, hk, rfl⟩ | ⟨pre, r', post, b', x, y, e1, e2, e3, e4, rfl⟩
        · exact Or.inl ⟨k + 1, by simp; omega, by simp [bodyText, hm, h1]⟩
        · refine Or.inr ⟨r :: pre, r', post, b', x, y, by simp [e1], e2, e3, e4, Or.inr ⟨by simp, ?_⟩⟩
          simp [bodyText, hm, h1]
      · cases a with
        | nil =>
          simp only [List.append_nil] at h1
          exact Or.inl ⟨1, by simp, by simp [bodyText, tailText, hm, h1]⟩
        | cons a0 a =>
          cases p with
          | nil => exact Or.inl ⟨0, Nat.zero_le _, by simp [bodyText]⟩
          | cons p0 p =>
            exact Or.inr ⟨[], r, rs, b, p0 :: p, a0 :: a, rfl, hm, h1, by simp, Or.inl ⟨rfl, by simp, rfl⟩⟩

theorem readArray_nil (ty : Types) (first : Bool) (fuel : Nat) : readArray ty fuel first [] = ⟨[], none⟩ := by
  cases fuel <;> rfl

theorem readTop_nil (ty : Types) (fuel : Nat) : readTop ty fuel [] = ⟨[], none⟩ := by
  cases fuel <;> rfl

theorem torn_head {ty : Types} {r : Record} (hg : Good ty r) {b x y : Str} (hb : serialize r = some b) (he : b = x ++ y)
    (hx : x ≠ []) : ∃ t, x = 123 :: t := by
  obtain ⟨t, ht⟩ := serialize_head hb
  cases x with
  | nil => exact absurd rfl hx
  | cons c x => rw [he, List.cons_append, List.cons.injEq] at ht; exact ⟨x, by rw [ht.1]⟩

end RangeDB.Json

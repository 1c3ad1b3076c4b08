import Verif.Spec.Remote
import Verif.Proof.Http
import Verif.Proof.JsonGood
import Verif.Thm.Text

/-! # Lemmas about the remote store -/

namespace RangeDB.Json

/-! ## JSON texts are UTF-8 -/

theorem utf8_nil : Utf8 [] := ⟨[], by simp, rfl⟩

theorem utf8_cons {c : Nat} {s : Str} (h : c < 0x80) (hs : Utf8 s) : Utf8 (c :: s) :=
  utf8_append (a := [c]) (utf8_ascii h) hs

theorem utf8_of_ascii (s : Str) (h : ∀ c ∈ s, c < 0x80) : Utf8 s := by
  induction s with
  | nil => exact utf8_nil
  | cons c s ih => exact utf8_cons (h c (by simp)) (ih (fun x hx => h x (List.mem_cons_of_mem _ hx)))

theorem hexDigit_lt {n : Nat} (h : n < 16) : hexDigit n < 0x80 := by
  unfold hexDigit; split <;> omega

theorem escByte_ascii {b : Nat} (h : b < 0x80) : ∀ c ∈ escByte b, c < 0x80 := by
  intro c hc
  unfold escByte at hc
  have h1 := hexDigit_lt (n := b / 16) (by omega)
  have h2 := hexDigit_lt (n := b % 16) (by omega)
  split at hc
  · simp only [List.mem_cons, List.not_mem_nil, or_false] at hc; omega
  split at hc
  · simp only [List.mem_cons, List.not_mem_nil, or_false] at hc; omega
  split at hc
  · simp only [List.mem_cons, List.not_mem_nil, or_false] at hc; omega
  split at hc
  · simp only [List.mem_cons, List.not_mem_nil, or_false] at hc; omega
  split at hc
  · simp only [List.mem_cons, List.not_mem_nil, or_false] at hc
    rcases hc with h | h | h | h | h | h <;> first | omega | (rw [h]; assumption)
  · simp only [List.mem_cons, List.not_mem_nil, or_false] at hc; omega

theorem encS_utf8 (n : Nat) : ∀ s : Str, s.length ≤ n → Utf8 (encS true 0 s) := by
  induction n with
  | zero => intro s h; cases s with
    | nil => exact utf8_nil
    | cons => simp at h
  | succ n ih =>
    intro s h
    cases s with
    | nil => exact utf8_nil
    | cons b t =>
      simp only [List.length_cons] at h
      simp only [encS]
      by_cases hb : b < 0x80
      · rw [if_pos hb]
        exact utf8_append (utf8_of_ascii _ (escByte_ascii hb)) (ih t (by omega))
      rw [if_neg hb]
      by_cases hs : isSep b t = true
      · rw [if_pos hs]
        have hl : 2 ≤ t.length := by
          match t, hs with
          | _ :: _ :: _, _ => simp
        rw [encS_skip 2 t hl]
        refine utf8_append (utf8_of_ascii _ ?_) (ih _ (by simp; omega))
        intro c hc
        have := hexDigit_lt (n := sepLast t % 16) (by omega)
        simp only [List.mem_cons, List.not_mem_nil, or_false] at hc
        rcases hc with h | h | h | h | h | h <;> first | omega | (rw [h]; assumption)
      rw [if_neg hs]
      have hbad : Utf8 ([92, 117, 102, 102, 102, 100] ++ encS true 0 t) :=
        utf8_append (utf8_of_ascii _ (by decide)) (ih t (by omega))
      cases hr : runeLen b t with
      | none => exact hbad
      | some k =>
        cases k with
        | zero => exact hbad
        | succ k =>
          obtain ⟨h1, c, h2, h3⟩ := runeLen_scalar hr
          show Utf8 (b :: encS true k t)
          rw [encS_copy k t h1, ← List.cons_append, h3]
          exact utf8_append (utf8_rune h2) (ih _ (by simp; omega))

theorem quote_utf8 (s : Str) : Utf8 (quote s) :=
  utf8_cons (by decide) (utf8_append (encS_utf8 _ s (Nat.le_refl _)) (utf8_ascii (by decide)))

theorem digits_ascii {s : Str} : ∀ c ∈ digits s, c < 0x80 := by
  intro c hc
  have : Dec.isDigit c = true := by
    unfold digits at hc
    induction s with
    | nil => simp at hc
    | cons x s ih =>
      rw [List.takeWhile_cons] at hc
      split at hc
      · rcases List.mem_cons.mp hc with h | h
        · rw [h]; assumption
        · exact ih h
      · simp at hc
  simp [Dec.isDigit] at this
  omega

theorem scanNum_ascii {s t r : Str} (h : scanNum s = some (t, r)) : ∀ c ∈ t, c < 0x80 := by
  unfold scanNum at h
  simp only at h
  cases hi : scanInt (scanSign s).2 with
  | none => simp [hi] at h
  | some p =>
    obtain ⟨i, r1⟩ := p
    simp only [hi] at h
    cases hf : scanFrac r1 with
    | none => simp [hf] at h
    | some p =>
      obtain ⟨f, r2⟩ := p
      simp only [hf] at h
      cases he : scanExp r2 with
      | none => simp [he] at h
      | some p =>
        obtain ⟨e, r3⟩ := p
        simp only [he, Option.some.injEq, Prod.mk.injEq] at h
        obtain ⟨rfl, rfl⟩ := h
        intro c hc
        simp only [List.mem_append] at hc
        rcases hc with hc | hc | hc | hc
        · unfold scanSign at hc
          split at hc
          · simp at hc
          · split at hc
            · simp at hc; omega
            · simp at hc
        · unfold scanInt at hi
          split at hi
          · simp at hi
          · rename_i x y _
            split at hi
            · simp only [Option.some.injEq, Prod.mk.injEq] at hi
              rw [← hi.1] at hc; simp at hc; omega
            · split at hi
              · rename_i hd
                simp only [Option.some.injEq, Prod.mk.injEq] at hi
                rw [← hi.1] at hc
                rcases List.mem_cons.mp hc with hc | hc
                · rw [hc]; simp [Dec.isDigit] at hd; omega
                · exact digits_ascii c hc
              · simp at hi
        · unfold scanFrac at hf
          split at hf
          · simp only [Option.some.injEq, Prod.mk.injEq] at hf
            rw [← hf.1] at hc; simp at hc
          · split at hf
            · split at hf
              · simp at hf
              · simp only [Option.some.injEq, Prod.mk.injEq] at hf
                rw [← hf.1] at hc
                rcases List.mem_cons.mp hc with hc | hc
                · omega
                · exact digits_ascii c hc
            · simp only [Option.some.injEq, Prod.mk.injEq] at hf
              rw [← hf.1] at hc; simp at hc
        · unfold scanExp at he
          split at he
          · simp only [Option.some.injEq, Prod.mk.injEq] at he
            rw [← he.1] at hc; simp at hc
          · rename_i x y
            split at he
            · rename_i hx
              simp only at he
              split at he
              · simp at he
              · simp only [Option.some.injEq, Prod.mk.injEq] at he
                rw [← he.1] at hc
                rcases List.mem_cons.mp hc with hc | hc
                · omega
                · rcases List.mem_append.mp hc with hc | hc
                  · unfold scanExpSign at hc
                    split at hc
                    · simp at hc
                    · split at hc
                      · simp at hc; omega
                      · simp at hc
                  · exact digits_ascii c hc
            · simp only [Option.some.injEq, Prod.mk.injEq] at he
              rw [← he.1] at hc; simp at hc

mutual
theorem text_utf8 : ∀ v : Json, v.WF → Utf8 v.text
  | .null, _ => by simp only [Json.text]; exact utf8_of_ascii _ (by decide)
  | .bool true, _ => by simp only [Json.text]; exact utf8_of_ascii _ (by decide)
  | .bool false, _ => by simp only [Json.text]; exact utf8_of_ascii _ (by decide)
  | .num t, h => by
    simp only [Json.text]
    simp only [Json.WF] at h
    exact utf8_of_ascii _ (scanNum_ascii h)
  | .str s, _ => by simp only [Json.text]; exact quote_utf8 s
  | .arr [], _ => by simp only [Json.text]; exact utf8_of_ascii _ (by decide)
  | .arr (v :: vs), h => by
    simp only [Json.text]
    simp only [Json.WF, WFs] at h
    exact utf8_cons (by decide) (utf8_append (text_utf8 v h.1) (elems_utf8 vs h.2))
  | .obj [], _ => by simp only [Json.text]; exact utf8_of_ascii _ (by decide)
  | .obj (f :: fs), h => by
    simp only [Json.text]
    simp only [Json.WF, WFf] at h
    exact utf8_cons (by decide) (utf8_append (quote_utf8 _) (utf8_cons (by decide)
      (utf8_append (text_utf8 f.2 h.2.1) (fields_utf8 fs h.2.2))))
theorem elems_utf8 : ∀ l : List Json, WFs l → Utf8 (elems l)
  | [], _ => by simp only [elems]; exact utf8_of_ascii _ (by decide)
  | v :: vs, h => by
    simp only [elems]
    simp only [WFs] at h
    exact utf8_cons (by decide) (utf8_append (text_utf8 v h.1) (elems_utf8 vs h.2))
theorem fields_utf8 : ∀ l : List (Str × Json), WFf l → Utf8 (fields l)
  | [], _ => by simp only [fields]; exact utf8_of_ascii _ (by decide)
  | f :: fs, h => by
    simp only [fields]
    simp only [WFf] at h
    exact utf8_cons (by decide) (utf8_append (quote_utf8 _) (utf8_cons (by decide)
      (utf8_append (text_utf8 f.2 h.2.1) (fields_utf8 fs h.2.2))))
end

theorem text_valid {v : Json} (h : v.WF) : Valid v.text := utf8_valid (text_utf8 v h)

end RangeDB.Json

namespace RangeDB.Rem

open RangeDB.Json RangeDB.Http

/-! ## Recognising error texts -/

/-- No occurrence of `part` can begin in `a`. -/
def clean (part : Str) : Str → Bool
  | [] => true
  | c :: a => !((c :: a).isPrefixOf part || part.isPrefixOf (c :: a)) && clean part a

theorem prefix_append {part a b : Str} (h : part.isPrefixOf (a ++ b) = true) :
    a.isPrefixOf part = true ∨ part.isPrefixOf a = true := by
  induction part generalizing a with
  | nil => right; cases a <;> rfl
  | cons p part ih =>
    cases a with
    | nil => left; rfl
    | cons c a =>
      simp only [List.cons_append, List.isPrefixOf, Bool.and_eq_true, beq_iff_eq] at h ⊢
      rcases ih h.2 with h' | h'
      · exact Or.inl ⟨h.1.symm, h'⟩
      · exact Or.inr ⟨h.1, h'⟩

theorem contains_cons {part : Str} {c : Nat} {s : Str} (h : part.isPrefixOf (c :: s) = false) :
    contains (c :: s) part = contains s part := by
  unfold contains
  simp only [Txt.cut, h, Bool.false_eq_true, if_false, Option.isSome_map]

theorem contains_skip {part : Str} (a b : Str) (h : clean part a = true) : contains (a ++ b) part = contains b part := by
  induction a with
  | nil => rfl
  | cons c a ih =>
    simp only [clean, Bool.and_eq_true, Bool.not_eq_true', Bool.or_eq_false_iff] at h
    rw [List.cons_append, contains_cons, ih h.2]
    cases hp : part.isPrefixOf (c :: (a ++ b)) with
    | false => rfl
    | true =>
      rcases prefix_append (a := c :: a) hp with h' | h'
      · rw [h.1.1] at h'; simp at h'
      · rw [h.1.2] at h'; simp at h'

theorem contains_prefix {part s : Str} (h : part.isPrefixOf s = true) : contains s part = true := by
  unfold contains
  cases s with
  | nil => cases part with
    | nil => rfl
    | cons => simp at h
  | cons c s => simp [Txt.cut, h]

theorem contains_iff {s part : Str} : contains s part = true ↔ ∃ a b, s = a ++ part ++ b := by
  unfold contains
  cases h : Txt.cut part s with
  | none =>
    simp only [Option.isSome_none, Bool.false_eq_true, false_iff, not_exists]
    exact Txt.cut_none.mp h
  | some p =>
    obtain ⟨a, b⟩ := p
    simp only [Option.isSome_some, true_iff]
    exact ⟨a, b, Txt.cut_some h⟩

theorem contains_mem {s part : Str} {c : Nat} (hc : c ∈ part) (h : c ∉ s) : contains s part = false := by
  cases hh : contains s part with
  | false => rfl
  | true =>
    obtain ⟨a, b, rfl⟩ := contains_iff.mp hh
    exact absurd (by simp [hc]) h

/-- A text that contains `a ++ b` contains `b`. -/
theorem contains_suffix {s a b : Str} (h : contains s b = false) : contains s (a ++ b) = false := by
  cases hh : contains s (a ++ b) with
  | false => rfl
  | true =>
    obtain ⟨x, y, rfl⟩ := contains_iff.mp hh
    have : contains (x ++ (a ++ b) ++ y) b = true := contains_iff.mpr ⟨x ++ a, y, by simp⟩
    rw [h] at this; simp at this

theorem unexpected_mem {e a c : Nat} (h : c ∈ Txt.unexpectedText e a) : c ≠ 67 ∧ c ≠ 102 := by
  unfold Txt.unexpectedText at h
  simp only [List.mem_append] at h
  rcases h with (((((h | h) | h) | h) | h) | h) | h
  · revert c; decide
  · revert c; decide
  · have := Txt.natText_all h; omega
  · revert c; decide
  · revert c; decide
  · revert c; decide
  · have := Txt.natText_all h; omega

theorem unexpected_contains (e a : Nat) : contains (Txt.unexpectedText e a) tErrUnexpected = true := by
  refine contains_iff.mpr ⟨[], [58] ++ [32] ++ Dec.natText e ++ [44, 32] ++ Txt.actualText ++ [32] ++ Dec.natText a, ?_⟩
  simp [Txt.unexpectedText, Txt.marker, tErrUnexpected]

theorem errText_canceled {other : Err → Str} (hq : Quiet other) (e : Err) :
    contains (errText other e) tErrCanceled = false := by
  cases e with
  | unexpected e a => exact contains_mem (c := 67) (by decide) (fun h => (unexpected_mem h).1 rfl)
  | missingEvents => show contains tMissingEvents tErrCanceled = false; decide
  | unmatchedType => show contains tUnmatchedType tErrCanceled = false; decide
  | unmatchedId => show contains tUnmatchedId tErrCanceled = false; decide
  | canceled => show contains tContextCanceled tErrCanceled = false; decide
  | notFound => show contains Http.tNotFound tErrCanceled = false; decide
  | _ => exact (hq _).2.1

theorem errText_unexpected {other : Err → Str} (hq : Quiet other) (e : Err) :
    contains (errText other e) tErrUnexpected = true ↔ ∃ x y, e = .unexpected x y := by
  cases e with
  | unexpected e a => simp only [errText, unexpected_contains, true_iff]; exact ⟨e, a, rfl⟩
  | missingEvents => show contains tMissingEvents tErrUnexpected = true ↔ _; simp; decide
  | unmatchedType => show contains tUnmatchedType tErrUnexpected = true ↔ _; simp; decide
  | unmatchedId => show contains tUnmatchedId tErrUnexpected = true ↔ _; simp; decide
  | canceled => show contains tContextCanceled tErrUnexpected = true ↔ _; simp; decide
  | notFound => show contains Http.tNotFound tErrUnexpected = true ↔ _; simp; decide
  | serialize => have := (hq .serialize).1; simp only [errText, this]; simp
  | deserialize => have := (hq .deserialize).1; simp only [errText, this]; simp
  | recordMissing => have := (hq .recordMissing).1; simp only [errText, this]; simp
  | db => have := (hq .db).1; simp only [errText, this]; simp

theorem errText_notFound {other : Err → Str} (hq : Quiet other) (e : Err) :
    contains (errText other e) Http.tNotFound = true ↔ e = .notFound := by
  cases e with
  | unexpected e a =>
    have : contains (errText other (.unexpected e a)) Http.tNotFound = false :=
      contains_mem (c := 102) (by decide) (fun h => (unexpected_mem h).2 rfl)
    simp [this]
  | missingEvents => show contains tMissingEvents Http.tNotFound = true ↔ _; simp; decide
  | unmatchedType => show contains tUnmatchedType Http.tNotFound = true ↔ _; simp; decide
  | unmatchedId => show contains tUnmatchedId Http.tNotFound = true ↔ _; simp; decide
  | canceled => show contains tContextCanceled Http.tNotFound = true ↔ _; simp; decide
  | notFound => show contains Http.tNotFound Http.tNotFound = true ↔ _; simp; decide
  | serialize => have := (hq .serialize).2.2; simp only [errText, this]; simp
  | deserialize => have := (hq .deserialize).2.2; simp only [errText, this]; simp
  | recordMissing => have := (hq .recordMissing).2.2; simp only [errText, this]; simp
  | db => have := (hq .db).2.2; simp only [errText, this]; simp

/-- The status of an error that the server returns as it is. -/
theorem unknown_canceled {other : Err → Str} (hq : Quiet other) (e : Err) :
    contains (tCode ++ (tUnknownDesc ++ errText other e)) tErrCanceled = false := by
  rw [contains_skip _ _ (by decide), contains_skip _ _ (by decide), errText_canceled hq]

theorem unknown_unexpected {other : Err → Str} (e : Err) :
    contains (tCode ++ (tUnknownDesc ++ errText other e)) tErrUnexpected = contains (errText other e) tErrUnexpected := by
  rw [contains_skip _ _ (by decide), contains_skip _ _ (by decide)]

theorem unknown_notFound {other : Err → Str} (hq : Quiet other) (e : Err) :
    contains (tCode ++ (tUnknownDesc ++ errText other e)) tErrNotFound = true ↔ e = .notFound := by
  rw [contains_skip _ _ (by decide)]
  have hsplit : tErrNotFound = tUnknownDesc ++ Http.tNotFound := by decide
  constructor
  · intro h
    rw [hsplit] at h
    rw [← errText_notFound hq]
    cases hc : contains (errText other e) Http.tNotFound with
    | true => rfl
    | false =>
      have h2 : contains (tUnknownDesc ++ errText other e) Http.tNotFound = false := by
        rw [contains_skip _ _ (by decide), hc]
      rw [contains_suffix h2] at h
      simp at h
  · rintro rfl
    exact contains_iff.mpr ⟨[], [], by simp [errText, hsplit]⟩

theorem no_marker {pre : Str} (h : 113 ∉ pre) : ¬ Txt.marker <:+: pre := by
  rintro ⟨a, b, rfl⟩
  exact h (by simp [Txt.marker])

theorem unknown_parse {other : Err → Str} (x y : Nat) (hx : x < 2 ^ 64) (hy : y < 2 ^ 64) :
    Txt.parseUnexpected (tCode ++ (tUnknownDesc ++ errText other (.unexpected x y))) = (x, y) := by
  rw [← List.append_assoc]
  exact Txt.C36_error_text x y hx hy _ (no_marker (by decide))

theorem internal_parse {other : Err → Str} (x y : Nat) (hx : x < 2 ^ 64) (hy : y < 2 ^ 64) :
    Txt.parseUnexpected (tCode ++ (tInternalDesc ++ (tUnableSave ++ errText other (.unexpected x y)))) = (x, y) := by
  rw [← List.append_assoc, ← List.append_assoc]
  exact Txt.C36_error_text x y hx hy _ (no_marker (by decide))

theorem internal_canceled {other : Err → Str} (hq : Quiet other) (e : Err) :
    contains (tCode ++ (tInternalDesc ++ (tUnableSave ++ errText other e))) tErrCanceled = false := by
  rw [contains_skip _ _ (by decide), contains_skip _ _ (by decide), contains_skip _ _ (by decide), errText_canceled hq]

theorem internal_unexpected {other : Err → Str} (e : Err) :
    contains (tCode ++ (tInternalDesc ++ (tUnableSave ++ errText other e))) tErrUnexpected =
      contains (errText other e) tErrUnexpected := by
  rw [contains_skip _ _ (by decide), contains_skip _ _ (by decide), contains_skip _ _ (by decide)]

/-! ## Sending events -/

theorem parse_wf_text {d : Json} (h : d.WF) : parse d.text = some (d, []) := by
  have := parse_text d h [] (fun _ => Or.inl rfl)
  rwa [List.append_nil] at this

theorem inOrder_text {d : Json} (h : d.WF) : inOrder d.text = d.canon.text := by
  simp [inOrder, parse_wf_text h]

theorem unmarshal_text {fl : Str → Option Str} {d : Json} (h : d.WF) (he : Exact fl d) :
    unmarshal fl d.text = some d.canon.text := by
  simp [unmarshal, parse_wf_text h, skipWs, decodeAny_exact he]

/-- The messages of such a batch. -/
def messages (ers : List EventRecord) : List PbEvent :=
  ers.map (fun er => ⟨er.event.aggType, er.event.aggId, er.event.evType, er.event.data, er.metadata, er.uuid, er.now⟩)

theorem clientEvents_ok {fl : Str → Option Str} (t i : Str) (ers : List EventRecord)
    (ht : ∀ er ∈ ers, t = [] ∨ t = er.event.aggType) (hi : ∀ er ∈ ers, i = [] ∨ i = er.event.aggId)
    (hs : OneAggregate ers) (h : ∀ er ∈ ers, Sendable fl er) : clientEvents t i ers = .ok (messages ers) := by
  induction ers generalizing t i with
  | nil => rfl
  | cons er ers ih =>
    simp only [clientEvents]
    rw [if_neg (by rcases ht er (by simp) with h | h <;> simp [h]),
      if_neg (by rcases hi er (by simp) with h | h <;> simp [h])]
    obtain ⟨d, hd, _, ed⟩ := (h er (by simp)).data
    obtain ⟨m, hm, _, _, em⟩ := (h er (by simp)).metadata
    rw [ed, em, marshalValue_text d hd, marshalValue_text m hm]
    simp only
    rw [ih _ _ (fun x hx => Or.inr (hs er (by simp) x (by simp [hx])).1)
      (fun x hx => Or.inr (hs er (by simp) x (by simp [hx])).2)
      (fun a ha b hb => hs a (by simp [ha]) b (by simp [hb])) (fun x hx => h x (by simp [hx]))]
    simp [messages, ed, em]

theorem messages_sendable {fl : Str → Option Str} (ers : List EventRecord) (h : ∀ er ∈ ers, Sendable fl er) :
    (messages ers).all PbEvent.sendable = true := by
  rw [List.all_eq_true]
  intro x hx
  simp only [messages, List.mem_map] at hx
  obtain ⟨er, her, rfl⟩ := hx
  obtain ⟨d, hd, _, ed⟩ := (h er her).data
  obtain ⟨m, hm, _, _, em⟩ := (h er her).metadata
  simp only [PbEvent.sendable, Bool.and_eq_true, decide_eq_true_eq]
  exact ⟨⟨⟨⟨(h er her).aggType, (h er her).aggId⟩, (h er her).evType⟩, ed ▸ text_valid hd⟩, em ▸ text_valid hm⟩

theorem text_ne_nil {v : Json} (h : v.WF) : v.text ≠ [] := by
  intro e
  have := parse_wf_text h
  rw [e] at this
  have h2 : parse [] = none := by decide
  rw [h2] at this
  simp at this

theorem serverEvents_ok {fl : Str → Option Str} (ers : List EventRecord) (h : ∀ er ∈ ers, Sendable fl er) :
    serverEvents fl (messages ers) = .ok (ers.map arrives) := by
  induction ers with
  | nil => rfl
  | cons er ers ih =>
    obtain ⟨d, hd, xd, ed⟩ := (h er (by simp)).data
    obtain ⟨m, hm, xm, cm, em⟩ := (h er (by simp)).metadata
    simp only [messages, List.map_cons, serverEvents]
    rw [ed, unmarshal_text hd xd, em, if_neg (text_ne_nil hm), unmarshal_text hm xm, cm]
    simp only
    rw [show List.map _ ers = messages ers from rfl, ih (fun x hx => h x (by simp [hx]))]
    simp only [arrives, ed, inOrder_text hd, em]

/-! ## Reading -/

theorem toPb_ok {r : Record} {d m : Json} (hd : d.WF) (hm : m.WF) (ed : r.data = d.text) (em : r.metadata = m.text) :
    toPb r = some r := by
  simp [toPb, ed, em, marshalValue_text, hd, hm]
  cases r; simp_all

/-- A record that the server can send. -/
structure Servable (r : Record) : Prop where
  streamName : Valid r.streamName
  aggType : Valid r.aggType
  aggId : Valid r.aggId
  eventId : Valid r.eventId
  evType : Valid r.evType
  data : ∃ d : Json, d.WF ∧ r.data = d.text
  metadata : ∃ m : Json, m.WF ∧ r.metadata = m.text

theorem Readable.servable {ty : Types} {fl : Str → Option Str} {r : Record} (h : Readable ty fl r) : Servable r := by
  obtain ⟨d, hd, ed, _⟩ := h.data
  obtain ⟨m, hm, _, _, em⟩ := h.metadata
  exact ⟨h.streamName, h.aggType, h.aggId, h.eventId, h.evType, ⟨d, hd, ed⟩, ⟨m, hm, em⟩⟩

theorem good_servable {ty : Types} {r : Record} (h : Good ty r) : Servable r := by
  obtain ⟨d, hd, _, ed, _⟩ := h.data
  obtain ⟨m, hm, _, em⟩ := h.metadata
  exact ⟨h.streamName, h.aggType, h.aggId, h.eventId, h.evType, ⟨d, hd, ed⟩, ⟨m, hm, em⟩⟩

theorem Servable.sendable {r : Record} (h : Servable r) : Rem.sendable r = true := by
  obtain ⟨d, hd, ed⟩ := h.data
  obtain ⟨m, hm, em⟩ := h.metadata
  simp only [Rem.sendable, Bool.and_eq_true, decide_eq_true_eq]
  exact ⟨⟨⟨⟨⟨⟨h.streamName, h.aggType⟩, h.aggId⟩, h.eventId⟩, h.evType⟩, ed ▸ text_valid hd⟩, em ▸ text_valid hm⟩

theorem serve_ok (other : Err → Str) (trailing : Bool) (err : Option Err) (recs : List Record)
    (h : ∀ r ∈ recs, Servable r) (cur : ResultRecord) (hcur : cur.err = none) :
    serve other trailing ((Iter.results ⟨recs, err⟩).length + 1) ⟨Iter.results ⟨recs, err⟩, cur⟩ =
      (recs, if trailing then err.map (fun e => tUnknownDesc ++ errText other e) else none) := by
  induction recs generalizing cur with
  | nil =>
    cases err with
    | none => simp [Iter.results, serve, RecordIterator.next, hcur, RecordIterator.error, ResultRecord.zero]
    | some e => simp [Iter.results, serve, RecordIterator.next, hcur, RecordIterator.error]
  | cons r recs ih =>
    obtain ⟨d, hd, ed⟩ := (h r (by simp)).data
    obtain ⟨m, hm, em⟩ := (h r (by simp)).metadata
    have hih := ih (fun x hx => h x (by simp [hx])) ⟨some r, none⟩ rfl
    have hres : Iter.results ⟨r :: recs, err⟩ = ⟨some r, none⟩ :: Iter.results ⟨recs, err⟩ := by
      simp [Iter.results]
    rw [hres, List.length_cons, serve]
    simp only [RecordIterator.next, hcur, ne_eq, not_true_eq_false, if_false, Option.isSome_some,
      RecordIterator.error, RecordIterator.record, toPb_ok hd hm ed em, (h r (by simp)).sendable, if_true]
    rw [hih]

theorem decodeData_text {ty : Types} {d : Json} (h : d.WF) (t : Str) : decodeData ty t d.text = ty t d := by
  simp [decodeData, parse_wf_text h]

theorem metadata_text {fl : Str → Option Str} {m : Json} (h : m.WF) (hx : Exact fl m) (hc : m.canon = m) :
    (if m.text ≠ nullText then unmarshal fl m.text else some nullText) = some m.text := by
  by_cases hn : m.text = nullText
  · rw [if_neg (by simp [hn]), hn]
  · rw [if_pos hn, unmarshal_text h hx, hc]

theorem toRecord_ok {ty : Types} {fl : Str → Option Str} {r : Record} (h : Readable ty fl r) :
    toRecord ty fl r = some r := by
  obtain ⟨d, hd, ed, hty⟩ := h.data
  obtain ⟨m, hm, xm, cm, em⟩ := h.metadata
  unfold toRecord
  rw [em, metadata_text hm xm cm, ed, decodeData_text hd, hty, ed]
  simp only
  cases r; simp_all

/-- What the client makes of a read error. -/
def statusError (status : Option Str) : Option CErr := (receive unbound (fun _ => none) status []).err

theorem receive_nil (ty : Types) (fl : Str → Option Str) (status : Option Str) :
    receive ty fl status [] = ⟨[], statusError status⟩ := rfl

/-- What the client reads does not depend on what comes later. -/
theorem receive_append {ty : Types} {fl : Str → Option Str} (status : Option Str) (a b : List Record)
    (h : (receive ty fl none a).err = none) :
    receive ty fl status (a ++ b) =
      ⟨(receive ty fl none a).recs ++ (receive ty fl status b).recs, (receive ty fl status b).err⟩ := by
  induction a with
  | nil => simp [receive]
  | cons r a ih =>
    simp only [receive] at h
    cases hr : toRecord ty fl r with
    | none => rw [hr] at h; simp at h
    | some x =>
      rw [hr] at h
      simp only [List.cons_append, receive, hr]
      rw [ih h]

theorem receive_map {ty : Types} {fl : Str → Option Str} (status : Option Str) (a b : List Record)
    (h : a.map (toRecord ty fl) = b.map some) : receive ty fl status a = ⟨b, statusError status⟩ := by
  induction a generalizing b with
  | nil =>
    cases b with
    | nil => exact receive_nil _ _ _
    | cons => simp at h
  | cons r a ih =>
    cases b with
    | nil => simp at h
    | cons x b =>
      simp only [List.map_cons, List.cons.injEq] at h
      simp only [receive, h.1, ih b h.2]

theorem receive_ok {ty : Types} {fl : Str → Option Str} (status : Option Str) (a : List Record)
    (h : ∀ r ∈ a, Readable ty fl r) : receive ty fl status a = ⟨a, statusError status⟩ := by
  refine receive_map status a a (List.map_congr_left ?_)
  intro r hr
  exact toRecord_ok (h r hr)

/-- What the server stores for a batch is read by the client as the batch. -/
theorem numbered_map {ty : Types} {fl : Str → Option Str} (st : Str) (ers : List EventRecord)
    (h : ∀ er ∈ ers, RoundTrips ty fl er) (g n : Nat) :
    (numbered st g n (ers.map arrives)).map (toRecord ty fl) = (numbered st g n ers).map some := by
  induction ers generalizing g n with
  | nil => rfl
  | cons er ers ih =>
    simp only [List.map_cons, numbered, List.cons.injEq]
    refine ⟨?_, ih (fun x hx => h x (by simp [hx])) _ _⟩
    obtain ⟨d, hd, _, _, ed, hty⟩ := (h er (by simp)).data
    obtain ⟨m, hm, xm, cm, em⟩ := (h er (by simp)).metadata
    have hwf : d.canon.WF := Json.any_wf (num := id) (fun t ht => ht) hd
    simp only [mkRecord, arrives, ed, inOrder_text hd, toRecord, decodeData_text hwf, hty, em, metadata_text hm xm cm]

theorem RoundTrips.sendable {ty : Types} {fl : Str → Option Str} {er : EventRecord} (h : RoundTrips ty fl er) :
    Sendable fl er := by
  obtain ⟨d, hd, _, xd, ed, _⟩ := h.data
  exact ⟨h.aggType, h.aggId, h.evType, ⟨d, hd, xd, ed⟩, h.metadata⟩

theorem RoundTrips.good {ty : Types} {fl : Str → Option Str} {er : EventRecord} (h : RoundTrips ty fl er) :
    GoodEvent unbound (arrives er) := by
  obtain ⟨d, hd, nd, xd, ed, _⟩ := h.data
  obtain ⟨m, hm, xm, cm, em⟩ := h.metadata
  have hwf : d.canon.WF := Json.any_wf (num := id) (fun t ht => ht) hd
  refine ⟨h.aggType, h.aggId, h.evType, h.uuid, h.now, ⟨d.canon, hwf, fun e => nd (Json.any_null.mp e), ?_, ?_⟩,
    ⟨m, hm, cm, em⟩⟩
  · simp [arrives, ed, inOrder_text hd]
  · simp [arrives, ed, inOrder_text hd, unbound, Json.canon_canon]

end RangeDB.Rem

import Verif.Spec.Http
import Verif.Proof.JsonAny
import Verif.Proof.JsonRecord
import Verif.Proof.JsonStore
import Verif.Proof.Decimal

/-! # Lemmas about the HTTP API -/

namespace RangeDB.Http

open RangeDB.Json

/-! ## Bodies of responses -/

/-- A byte that `json.Marshal` writes as it is. -/
def Plain (c : Nat) : Bool := 32 ≤ c && c < 0x80 && c ≠ 34 && c ≠ 92 && c ≠ 60 && c ≠ 62 && c ≠ 38

theorem encS_plain (s : Str) (h : s.all Plain = true) : encS true 0 s = s := by
  induction s with
  | nil => rfl
  | cons c s ih =>
    rw [List.all_cons, Bool.and_eq_true] at h
    have hc := h.1
    simp only [Plain, Bool.and_eq_true, decide_eq_true_eq, ne_eq] at hc
    have he : escByte c = [c] := by
      unfold escByte
      rw [if_neg (by omega), if_neg (by omega), if_neg (by omega), if_neg (by omega), if_neg (by omega)]
    simp only [encS]
    rw [if_pos (by omega), he, ih h.2]
    rfl

theorem sanitize_plain (s : Str) (h : s.all Plain = true) : Valid s := by
  induction s with
  | nil => rfl
  | cons c s ih =>
    rw [List.all_cons, Bool.and_eq_true] at h
    have hc := h.1
    simp only [Plain, Bool.and_eq_true, decide_eq_true_eq, ne_eq] at hc
    unfold Valid at ih ⊢
    simp only [sanitize]
    rw [if_pos (by omega), ih h.2]

theorem plain_digits (s : Str) (h : s.all Dec.isDigit = true) : s.all Plain = true := by
  rw [List.all_eq_true] at h ⊢
  intro c hc
  have := h c hc
  simp only [Dec.isDigit, Bool.and_eq_true, decide_eq_true_eq] at this
  simp only [Plain, Bool.and_eq_true, decide_eq_true_eq, ne_eq]
  omega

theorem plain_unexpected (e a : Nat) : (Txt.unexpectedText e a).all Plain = true := by
  have h1 := plain_digits _ (Dec.natText_digits e)
  have h2 := plain_digits _ (Dec.natText_digits a)
  simp only [Txt.unexpectedText, List.all_append, h1, h2, Bool.and_true, Bool.true_and]
  decide

theorem failed_is (status : Nat) (m : Str) (h : m.all Plain = true) : (failed status m).Is (notOk m) := by
  have hb : (failed status m).body = (notOk m).text := by
    have : quote m = 34 :: (m ++ [34]) := by rw [quote, encS_plain m h]
    simp only [failed, notOk, Json.text, fields, this]
    have h1 : quote kStatus = 34 :: (kStatus ++ [34]) := by decide
    have h2 : quote tFailed = 34 :: (tFailed ++ [34]) := by decide
    have h3 : quote kMessage = 34 :: (kMessage ++ [34]) := by decide
    rw [h1, h2, h3]
    simp [tFailedHead, tFailedTail, kStatus, tFailed, kMessage]
  have hw : (notOk m).WF := by
    simp only [notOk, Json.WF, WFf]
    exact ⟨by decide, by decide, by decide, sanitize_plain m h, trivial⟩
  have := parse_text (notOk m) hw [] (by simp [Follows, notOk, Json.isNum])
  rw [List.append_nil] at this
  rw [Response.Is, hb, this]

theorem saved_is (n : Nat) : Response.Is ⟨201, tSavedHead ++ (Dec.natText n ++ [125])⟩ (okSaved n) := by
  have hb : tSavedHead ++ (Dec.natText n ++ [125]) = (okSaved n).text := by
    simp only [okSaved, Json.text, fields]
    have h1 : quote kStatus = 34 :: (kStatus ++ [34]) := by decide
    have h2 : quote tOK = 34 :: (tOK ++ [34]) := by decide
    have h3 : quote kStreamSequenceNumber = 34 :: (kStreamSequenceNumber ++ [34]) := by decide
    rw [h1, h2, h3]
    simp [tSavedHead, kStatus, tOK, kStreamSequenceNumber]
  have hw : (okSaved n).WF := by
    simp only [okSaved, Json.WF, WFf]
    exact ⟨by decide, by decide, by decide, scanNum_natText n, trivial⟩
  have := parse_text (okSaved n) hw [] (by simp [Follows, okSaved, Json.isNum])
  rw [List.append_nil] at this
  rw [Response.Is, hb, this]

theorem deleted_is (n : Nat) : Response.Is ⟨200, tDeletedHead ++ (Dec.natText n ++ [125])⟩ (okDeleted n) := by
  have hb : tDeletedHead ++ (Dec.natText n ++ [125]) = (okDeleted n).text := by
    simp only [okDeleted, Json.text, fields]
    have h1 : quote kStatus = 34 :: (kStatus ++ [34]) := by decide
    have h2 : quote tOK = 34 :: (tOK ++ [34]) := by decide
    have h3 : quote kEventsDeleted = 34 :: (kEventsDeleted ++ [34]) := by decide
    rw [h1, h2, h3]
    simp [tDeletedHead, kStatus, tOK, kEventsDeleted]
  have hw : (okDeleted n).WF := by
    simp only [okDeleted, Json.WF, WFf]
    exact ⟨by decide, by decide, by decide, scanNum_natText n, trivial⟩
  have := parse_text (okDeleted n) hw [] (by simp [Follows, okDeleted, Json.isNum])
  rw [List.append_nil] at this
  rw [Response.Is, hb, this]

/-! ## Decoding the request -/

/-- The number literals as `float64` prints them. -/
def num (fl : Str → Option Str) (t : Str) : Str := (fl t).getD t

theorem num_literal {fl : Str → Option Str} (h : ∀ t u, fl t = some u → scanNum u = some (u, [])) (t : Str)
    (ht : scanNum t = some (t, [])) : scanNum (num fl t) = some (num fl t, []) := by
  unfold num
  cases he : fl t with
  | none => simpa using ht
  | some u => simpa using h t u he

theorem decodeAny_some {fl : Str → Option Str} {v d : Json} (h : decodeAny fl v = some d) : d = v.any (num fl) := by
  unfold decodeAny at h
  split at h
  · exact (Option.some.inj h).symm
  · simp at h

mutual
theorem allNums_imp {p q : Str → Bool} (h : ∀ t, p t = true → q t = true) :
    ∀ {v : Json}, allNums p v = true → allNums q v = true
  | .null, _ => rfl
  | .bool _, _ => rfl
  | .str _, _ => rfl
  | .num t, hv => by simp only [allNums] at hv ⊢; exact h t hv
  | .arr l, hv => by simp only [allNums] at hv ⊢; exact allNumss_imp h hv
  | .obj l, hv => by simp only [allNums] at hv ⊢; exact allNumsf_imp h hv
theorem allNumss_imp {p q : Str → Bool} (h : ∀ t, p t = true → q t = true) :
    ∀ {l : List Json}, allNumss p l = true → allNumss q l = true
  | [], _ => rfl
  | v :: vs, hv => by
    simp only [allNumss, Bool.and_eq_true] at hv ⊢
    exact ⟨allNums_imp h hv.1, allNumss_imp h hv.2⟩
theorem allNumsf_imp {p q : Str → Bool} (h : ∀ t, p t = true → q t = true) :
    ∀ {l : List (Str × Json)}, allNumsf p l = true → allNumsf q l = true
  | [], _ => rfl
  | f :: fs, hv => by
    simp only [allNumsf, Bool.and_eq_true] at hv ⊢
    exact ⟨allNums_imp h hv.1, allNumsf_imp h hv.2⟩
end

mutual
theorem any_congr {p : Str → Bool} {f g : Str → Str} (h : ∀ t, p t = true → f t = g t) :
    ∀ {v : Json}, allNums p v = true → v.any f = v.any g
  | .null, _ => rfl
  | .bool _, _ => rfl
  | .str _, _ => rfl
  | .num t, hv => by simp only [allNums] at hv; simp only [Json.any, h t hv]
  | .arr l, hv => by simp only [allNums] at hv; simp only [Json.any, anys_congr h hv]
  | .obj l, hv => by simp only [allNums] at hv; simp only [Json.any, anyf_congr h hv]
theorem anys_congr {p : Str → Bool} {f g : Str → Str} (h : ∀ t, p t = true → f t = g t) :
    ∀ {l : List Json}, allNumss p l = true → anys f l = anys g l
  | [], _ => rfl
  | v :: vs, hv => by
    simp only [allNumss, Bool.and_eq_true] at hv
    simp only [anys, any_congr h hv.1, anys_congr h hv.2]
theorem anyf_congr {p : Str → Bool} {f g : Str → Str} (h : ∀ t, p t = true → f t = g t) :
    ∀ {l acc : List (Str × Json)}, allNumsf p l = true → anyf f l acc = anyf g l acc
  | [], _, _ => rfl
  | x :: fs, acc, hv => by
    simp only [allNumsf, Bool.and_eq_true] at hv
    simp only [anyf, any_congr h hv.1]
    exact anyf_congr h hv.2
end

theorem decodeAny_exact {fl : Str → Option Str} {v : Json} (h : Exact fl v) : decodeAny fl v = some v.canon := by
  unfold decodeAny
  have h1 : allNums (fun t => (fl t).isSome) v = true :=
    allNums_imp (fun t ht => by rw [beq_iff_eq] at ht; rw [ht]; rfl) h
  rw [if_pos h1]
  exact congrArg some (any_congr (p := fun t => fl t == some t)
    (fun t ht => by rw [beq_iff_eq] at ht; rw [ht]; rfl) h)

/-- What decoding keeps: the strings are UTF-8, the values are well formed and as a Go map prints them. -/
structure EventIn.Ok (e : EventIn) : Prop where
  aggType : Valid e.aggType
  aggId : Valid e.aggId
  evType : Valid e.evType
  data : e.data.WF ∧ e.data.canon = e.data
  metadata : e.metadata.WF ∧ e.metadata.canon = e.metadata

theorem EventIn.zero_ok : EventIn.zero.Ok :=
  ⟨rfl, rfl, rfl, ⟨by simp [EventIn.zero, Json.WF], rfl⟩, ⟨by simp [EventIn.zero, Json.WF], rfl⟩⟩

theorem EventIn.setStr_ok {e : EventIn} (h : e.Ok) {v : Json} (hv : v.WF) {f : EventIn → Str → EventIn}
    (hf : ∀ s, Valid s → (f e s).Ok) : (e.setStr v f).Ok := by
  cases v with
  | str s => exact hf s (by simpa [Json.WF] using hv)
  | null => exact h
  | _ => exact ⟨h.aggType, h.aggId, h.evType, h.data, h.metadata⟩

theorem EventIn.setAny_ok {fl : Str → Option Str} (hl : ∀ t u, fl t = some u → scanNum u = some (u, [])) {e : EventIn}
    (h : e.Ok) {v : Json} (hv : v.WF) {f : EventIn → Json → EventIn}
    (hf : ∀ d, d.WF ∧ d.canon = d → (f e d).Ok) : (e.setAny fl v f).Ok := by
  unfold EventIn.setAny
  cases hd : decodeAny fl v with
  | none => exact ⟨h.aggType, h.aggId, h.evType, h.data, h.metadata⟩
  | some d =>
    have := decodeAny_some hd
    subst this
    exact hf _ ⟨Json.any_wf (num_literal hl) hv, Json.any_canon _ _⟩

theorem EventIn.field_ok {fl : Str → Option Str} (hl : ∀ t u, fl t = some u → scanNum u = some (u, [])) {e : EventIn}
    (h : e.Ok) (kv : Str × Json) (hv : kv.2.WF) : (e.field fl kv).Ok := by
  unfold EventIn.field
  repeat' split
  · exact EventIn.setStr_ok h hv (fun s hs => ⟨hs, h.aggId, h.evType, h.data, h.metadata⟩)
  · exact EventIn.setStr_ok h hv (fun s hs => ⟨h.aggType, hs, h.evType, h.data, h.metadata⟩)
  · exact EventIn.setStr_ok h hv (fun s hs => ⟨h.aggType, h.aggId, hs, h.data, h.metadata⟩)
  · exact EventIn.setAny_ok hl h hv (fun d hd => ⟨h.aggType, h.aggId, h.evType, hd, h.metadata⟩)
  · exact EventIn.setAny_ok hl h hv (fun d hd => ⟨h.aggType, h.aggId, h.evType, h.data, hd⟩)
  · exact h

theorem foldl_ok {fl : Str → Option Str} (hl : ∀ t u, fl t = some u → scanNum u = some (u, []))
    (l : List (Str × Json)) : ∀ {e : EventIn}, e.Ok → WFf l → (l.foldl (EventIn.field fl) e).Ok := by
  induction l with
  | nil => intro e h _; exact h
  | cons f fs ih =>
    intro e h hw
    exact ih (e.field_ok hl h f hw.2.1) hw.2.2

theorem decodeEvent_ok {fl : Str → Option Str} (hl : ∀ t u, fl t = some u → scanNum u = some (u, [])) {v : Json}
    (hv : v.WF) {e : EventIn} (h : decodeEvent fl v = some e) : e.Ok := by
  cases v with
  | obj l =>
    simp only [decodeEvent] at h
    split at h
    · simp at h
    · rw [← Option.some.inj h]
      exact foldl_ok hl l EventIn.zero_ok (by simpa [Json.WF] using hv)
  | null => simp only [decodeEvent, Option.some.injEq] at h; rw [← h]; exact EventIn.zero_ok
  | _ => simp [decodeEvent] at h

theorem decodeEvents_ok {fl : Str → Option Str} (hl : ∀ t u, fl t = some u → scanNum u = some (u, []))
    (l : List Json) : ∀ {es : List EventIn}, WFs l → decodeEvents fl l = some es → ∀ e ∈ es, e.Ok := by
  induction l with
  | nil => intro es _ h; simp only [decodeEvents, Option.some.injEq] at h; subst h; simp
  | cons v vs ih =>
    intro es hw h
    simp only [decodeEvents] at h
    cases h1 : decodeEvent fl v with
    | none => simp [h1] at h
    | some e =>
      cases h2 : decodeEvents fl vs with
      | none => simp [h1, h2] at h
      | some es' =>
        simp only [h1, h2, Option.some.injEq] at h
        subst h
        intro x hx
        rcases List.mem_cons.mp hx with hx | hx
        · subst hx; exact decodeEvent_ok hl hw.1 h1
        · exact ih hw.2 h2 x hx

theorem decodeBody_ok {fl : Str → Option Str} (hl : ∀ t u, fl t = some u → scanNum u = some (u, [])) {body : Str}
    {es : List EventIn} (h : decodeBody fl body = some es) : ∀ e ∈ es, e.Ok := by
  unfold decodeBody at h
  cases hp : parse body with
  | none => simp [hp] at h
  | some p =>
    obtain ⟨v, r⟩ := p
    have hw := parse_wf hp
    cases v with
    | arr l => simp only [hp] at h; exact decodeEvents_ok hl l (by simpa [Json.WF] using hw) h
    | null => simp only [hp, Option.some.injEq] at h; subst h; simp
    | _ => simp [hp] at h

theorem toEventRecords_good {env : Nat → Str × Nat} (henv : ∀ i, Valid (env i).1 ∧ (env i).2 < 2 ^ 64)
    (es : List EventIn) (h : ∀ e ∈ es, e.Ok ∧ e.data ≠ .null) :
    ∀ i, ∀ er ∈ toEventRecords env i es, GoodEvent unbound er := by
  induction es with
  | nil => intro i er her; simp [toEventRecords] at her
  | cons e es ih =>
    intro i er her
    simp only [toEventRecords, List.mem_cons] at her
    rcases her with her | her
    · obtain ⟨ho, hn⟩ := h e (by simp)
      subst her
      exact ⟨ho.aggType, ho.aggId, ho.evType, (henv i).1, (henv i).2,
        ⟨e.data, ho.data.1, hn, rfl, by simp only [unbound]; rw [ho.data.2]⟩, ⟨e.metadata, ho.metadata.1, ho.metadata.2, rfl⟩⟩
    · exact ih (fun x hx => h x (List.mem_cons_of_mem _ hx)) (i + 1) er her

theorem toEventRecords_length (env : Nat → Str × Nat) (es : List EventIn) :
    ∀ i, (toEventRecords env i es).length = es.length := by
  induction es with
  | nil => intro i; rfl
  | cons e es ih => intro i; simp [toEventRecords, ih]

/-! ## Bodies built by a client -/

/-- What the server decodes. -/
def Sent.decoded (e : Sent) : EventIn := ⟨e.aggType, e.aggId, e.evType, e.data.canon, e.metadata.canon, false⟩

theorem decodeEvent_sent {fl : Str → Option Str} {e : Sent} (h : e.Good fl) :
    decodeEvent fl e.json = some e.decoded := by
  have h1 := decodeAny_exact h.exactData
  have h2 := decodeAny_exact h.exactMetadata
  have k1 : sameName kAggregateType kAggregateType = true := by decide
  have k2 : sameName kAggregateID kAggregateType = false := by decide
  have k3 : sameName kAggregateID kAggregateID = true := by decide
  have k4 : sameName kEventType kAggregateType = false := by decide
  have k5 : sameName kEventType kAggregateID = false := by decide
  have k6 : sameName kEventType kEventType = true := by decide
  have k7 : sameName kData kAggregateType = false := by decide
  have k8 : sameName kData kAggregateID = false := by decide
  have k9 : sameName kData kEventType = false := by decide
  have k10 : sameName kData kData = true := by decide
  have k11 : sameName kMetadata kAggregateType = false := by decide
  have k12 : sameName kMetadata kAggregateID = false := by decide
  have k13 : sameName kMetadata kEventType = false := by decide
  have k14 : sameName kMetadata kData = false := by decide
  have k15 : sameName kMetadata kMetadata = true := by decide
  simp only [decodeEvent, Sent.json, List.foldl, EventIn.field, k1, k2, k3, k4, k5, k6, k7, k8, k9, k10, k11, k12, k13,
    k14, k15, if_true, Bool.false_eq_true, if_false, EventIn.setStr, EventIn.setAny, h1, h2, EventIn.zero, Sent.decoded]

theorem decodeEvents_sent {fl : Str → Option Str} (es : List Sent) (h : ∀ e ∈ es, e.Good fl) :
    decodeEvents fl (es.map Sent.json) = some (es.map Sent.decoded) := by
  induction es with
  | nil => rfl
  | cons e es ih =>
    simp only [List.map_cons, decodeEvents, decodeEvent_sent (h e (by simp)),
      ih (fun x hx => h x (List.mem_cons_of_mem _ hx))]

theorem Sent.json_wf {fl : Str → Option Str} {e : Sent} (h : e.Good fl) : e.json.WF := by
  simp only [Sent.json, Json.WF, WFf]
  exact ⟨by decide, h.aggType, by decide, h.aggId, by decide, h.evType, by decide, h.data, by decide, h.metadata, trivial⟩

theorem decodeBody_sent {fl : Str → Option Str} (es : List Sent) (h : ∀ e ∈ es, e.Good fl) (rest : Str) :
    decodeBody fl (bodyOf es ++ rest) = some (es.map Sent.decoded) := by
  have hw : (Json.arr (es.map Sent.json)).WF := by
    simp only [Json.WF, WFs_iff, List.mem_map]
    rintro v ⟨e, he, rfl⟩
    exact Sent.json_wf (h e he)
  unfold decodeBody bodyOf
  rw [parse_text _ hw rest (by simp [Follows, Json.isNum])]
  exact decodeEvents_sent es h

theorem toEventRecords_sent (env : Nat → Str × Nat) (es : List Sent) :
    ∀ i, toEventRecords env i (es.map Sent.decoded) = sentRecords env i es := by
  induction es with
  | nil => intro i; rfl
  | cons e es ih => intro i; simp only [List.map_cons, toEventRecords, sentRecords, Sent.decoded, ih]

end RangeDB.Http

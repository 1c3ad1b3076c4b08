import Verif.Thm.Http

/-!
# C41: which bodies are malformed

`Malformed` refers to the decoder of the handler. Here its verdict is described in terms of the JSON value that was sent.
-/

namespace RangeDB.Http

open RangeDB.Json

/-- A field whose value must be a string. -/
def IsText (k : Str) : Prop := sameName k kAggregateType ∨ sameName k kAggregateID ∨ sameName k kEventType

/-- A field that may hold any value. -/
def IsAny (k : Str) : Prop := sameName k kData ∨ sameName k kMetadata

/-- A field of an event is well typed: a text is a string or `null`, and no number in the data or the metadata is out of
the range of `float64`. -/
def WellTypedField (fl : Str → Option Str) (kv : Str × Json) : Prop :=
  (IsText kv.1 → kv.2 = .null ∨ ∃ s, kv.2 = .str s) ∧
    (¬ IsText kv.1 → IsAny kv.1 → allNums (fun t => (fl t).isSome) kv.2 = true)

/-- An element of the array is `null` or an object with well-typed fields. -/
def WellTypedEvent (fl : Str → Option Str) (v : Json) : Prop :=
  v = .null ∨ ∃ l, v = .obj l ∧ ∀ kv ∈ l, WellTypedField fl kv

/-- A body is well typed: it begins with `null` or an array of events. -/
def WellTypedBody (fl : Str → Option Str) (body : Str) : Prop :=
  (∃ rest, parse body = some (.null, rest)) ∨
    ∃ l rest, parse body = some (.arr l, rest) ∧ ∀ v ∈ l, WellTypedEvent fl v

theorem setStr_bad (e : EventIn) (v : Json) (f : EventIn → Str → EventIn) (hf : ∀ e s, (f e s).bad = e.bad) :
    (e.setStr v f).bad = false ↔ e.bad = false ∧ (v = .null ∨ ∃ s, v = .str s) := by
  cases v <;> simp [EventIn.setStr, hf]

theorem setAny_bad (fl : Str → Option Str) (e : EventIn) (v : Json) (f : EventIn → Json → EventIn)
    (hf : ∀ e d, (f e d).bad = e.bad) :
    (e.setAny fl v f).bad = false ↔ e.bad = false ∧ allNums (fun t => (fl t).isSome) v = true := by
  unfold EventIn.setAny decodeAny
  by_cases h : allNums (fun t => (fl t).isSome) v = true
  · rw [if_pos h]; simp [hf, h]
  · rw [if_neg h]; simp [h]

theorem field_bad (fl : Str → Option Str) (e : EventIn) (kv : Str × Json) :
    (EventIn.field fl e kv).bad = false ↔ e.bad = false ∧ WellTypedField fl kv := by
  unfold EventIn.field WellTypedField IsText IsAny
  by_cases h1 : sameName kv.1 kAggregateType = true
  · rw [if_pos h1, setStr_bad _ _ _ (by intros; rfl)]; simp [h1]
  · by_cases h2 : sameName kv.1 kAggregateID = true
    · rw [if_neg h1, if_pos h2, setStr_bad _ _ _ (by intros; rfl)]; simp [h2]
    · by_cases h3 : sameName kv.1 kEventType = true
      · rw [if_neg h1, if_neg h2, if_pos h3, setStr_bad _ _ _ (by intros; rfl)]; simp [h3]
      · rw [if_neg h1, if_neg h2, if_neg h3]
        by_cases h4 : sameName kv.1 kData = true
        · rw [if_pos h4, setAny_bad _ _ _ _ (by intros; rfl)]; simp [h1, h2, h3, h4]
        · by_cases h5 : sameName kv.1 kMetadata = true
          · rw [if_neg h4, if_pos h5, setAny_bad _ _ _ _ (by intros; rfl)]; simp [h1, h2, h3, h5]
          · rw [if_neg h4, if_neg h5]; simp [h1, h2, h3, h4, h5]

theorem fields_bad (fl : Str → Option Str) : ∀ (l : List (Str × Json)) (e : EventIn),
    (l.foldl (EventIn.field fl) e).bad = false ↔ e.bad = false ∧ ∀ kv ∈ l, WellTypedField fl kv
  | [], e => by simp
  | kv :: l, e => by
    rw [List.foldl_cons, fields_bad fl l, field_bad]
    simp only [List.mem_cons, forall_eq_or_imp]
    exact and_assoc

theorem decodeEvent_some (fl : Str → Option Str) (v : Json) : (∃ e, decodeEvent fl v = some e) ↔ WellTypedEvent fl v := by
  unfold WellTypedEvent
  cases v with
  | obj l =>
    have := fields_bad fl l .zero
    simp only [decodeEvent]
    cases hb : (l.foldl (EventIn.field fl) .zero).bad with
    | true =>
      rw [hb] at this
      have hn : ¬ ∀ kv ∈ l, WellTypedField fl kv := fun h => absurd (this.mpr ⟨rfl, h⟩) (by simp)
      constructor
      · rintro ⟨e, h⟩; simp at h
      · rintro (h | ⟨l', h, h2⟩)
        · cases h
        · cases h; exact absurd h2 hn
    | false =>
      have hy := (this.mp hb).2
      constructor
      · intro _; exact .inr ⟨l, rfl, hy⟩
      · intro _; exact ⟨_, if_neg (by simp)⟩
  | null => simp [decodeEvent]
  | _ => simp [decodeEvent]

theorem decodeEvents_some (fl : Str → Option Str) : ∀ l : List Json,
    (∃ es, decodeEvents fl l = some es) ↔ ∀ v ∈ l, WellTypedEvent fl v
  | [] => by simp [decodeEvents]
  | v :: l => by
    have ih := decodeEvents_some fl l
    have hv := decodeEvent_some fl v
    simp only [List.mem_cons, forall_eq_or_imp, ← ih, ← hv, decodeEvents]
    cases decodeEvent fl v with
    | none => simp
    | some e => cases decodeEvents fl l <;> simp

/-- **C41**, which bodies are accepted: exactly those that begin with `null` or an array of events, in which every text is a
string or `null` and every number of the data and the metadata is in range. What follows the first value is not looked at. -/
theorem C41_body (fl : Str → Option Str) (body : Str) : (∃ es, decodeBody fl body = some es) ↔ WellTypedBody fl body := by
  unfold decodeBody WellTypedBody
  cases hp : parse body with
  | none => simp
  | some p =>
    obtain ⟨v, rest⟩ := p
    cases v with
    | arr l =>
      have := decodeEvents_some fl l
      simp only [this]
      constructor
      · intro h; exact .inr ⟨l, rest, rfl, h⟩
      · rintro (⟨_, h⟩ | ⟨l', _, h, h2⟩)
        · simp at h
        · simp only [Option.some.injEq, Prod.mk.injEq, Json.arr.injEq] at h
          rw [h.1]; exact h2
    | null => exact ⟨fun _ => .inl ⟨rest, rfl⟩, fun _ => ⟨[], rfl⟩⟩
    | _ => simp

/-- **C41**, a body that is not well typed is answered with 400, whatever the rest of the request, and nothing is saved. -/
theorem C41_mistyped {σ : Type} (save : σ → Str → Option Nat → List EventRecord → σ × Outcome Nat)
    (fl : Str → Option Str) (env : Nat → Str × Nat) (s : σ) (r : SaveRequest) (h : ¬ WellTypedBody fl r.body) :
    ∃ resp, handleSave save fl env s r = (s, some resp) ∧ resp.status = 400 := by
  have hn : decodeBody fl r.body = none := by
    cases hd : decodeBody fl r.body with
    | none => rfl
    | some es => exact absurd ((C41_body fl r.body).mp ⟨es, hd⟩) h
  unfold handleSave prepareSave
  by_cases hc : r.contentType ≠ tContentType
  · rw [if_pos hc]; exact ⟨_, rfl, rfl⟩
  · rw [if_neg hc, hn]; exact ⟨_, rfl, rfl⟩

/-- `[{"aggregateType":1}]`: a number where a text is due; `[{"Data":1e999}]` is out of range for a `float64`. -/
example : decodeBody demoFl (Json.arr [.obj [(kAggregateType, .num [49])]]).text = none ∧
    (decodeBody demoFl (Json.arr [.obj [(kAggregateType, .str [49])], .null]).text).map List.length = some 2 := by
  decide +kernel

end RangeDB.Http

import Verif.Model.ShortUuid
import Verif.Thm.Constants
import Mathlib.Data.List.Basic

/-!
# Event IDs: C100
-/

namespace RangeDB.Uuid

/-- A UUID: sixteen bytes. -/
def IsUuid (u : Str) : Prop := u.length = 16 ∧ ∀ b ∈ u, b < 256

/-- The digits as they are meant. -/
def IsHex (c : Nat) : Prop := c ∈ bytes "0123456789abcdef"

theorem hexDigit_hex (n : Nat) (h : n < 16) : IsHex (hexDigit n) := by
  have : ∀ m < 16, hexDigit m ∈ bytes "0123456789abcdef" := by decide
  exact this n h

theorem hexDigit_inj {a b : Nat} (ha : a < 16) (hb : b < 16) (h : hexDigit a = hexDigit b) : a = b := by
  unfold hexDigit at h
  split at h <;> split at h <;> omega

theorem hexEncode_length (bs : Str) : (hexEncode bs).length = 2 * bs.length := by
  induction bs with
  | nil => rfl
  | cons b bs ih =>
    simp only [hexEncode, List.flatMap_cons, List.length_append, List.length_cons, List.length_nil] at ih ⊢
    omega

theorem hexEncode_inj {a b : Str} (ha : ∀ x ∈ a, x < 256) (hb : ∀ x ∈ b, x < 256)
    (h : hexEncode a = hexEncode b) : a = b := by
  induction a generalizing b with
  | nil =>
    have := congrArg List.length h
    rw [hexEncode_length, hexEncode_length] at this
    simp only [List.length_nil] at this
    symm
    apply List.eq_nil_of_length_eq_zero
    omega
  | cons x a ih =>
    cases b with
    | nil => have := congrArg List.length h; rw [hexEncode_length, hexEncode_length] at this; simp at this
    | cons y b =>
      simp only [hexEncode, List.flatMap_cons, List.cons_append, List.nil_append, List.cons.injEq] at h
      obtain ⟨h1, h2, h3⟩ := h
      have hx := ha x (by simp)
      have hy := hb y (by simp)
      have e1 := hexDigit_inj (by omega) (by omega) h1
      have e2 := hexDigit_inj (by omega) (by omega) h2
      have e3 := ih (b := b) (fun z hz => ha z (by simp [hz])) (fun z hz => hb z (by simp [hz])) h3
      have : x = y := by omega
      rw [this, e3]

theorem toText_eq {u : Str} (h : IsUuid u) : toText u = hexEncode u := by
  have := hexEncode_length u
  rw [h.1] at this
  simp [toText, this]

theorem mask_uuid {r : Str} (h : IsUuid r) : IsUuid (mask r) := by
  refine ⟨by simp [mask, h.1], ?_⟩
  intro b hb
  simp only [mask, List.mem_mapIdx] at hb
  obtain ⟨i, hi, rfl⟩ := hb
  have := h.2 _ (List.getElem_mem hi)
  split
  · omega
  · split
    · omega
    · exact this

/-- **C100, form.** The text of a UUID is 32 digits `0`–`9` and `a`–`f`. -/
theorem C100_form (u : Str) (h : IsUuid u) : (toText u).length = 32 ∧ ∀ c ∈ toText u, IsHex c := by
  rw [toText_eq h]
  refine ⟨by rw [hexEncode_length, h.1], ?_⟩
  intro c hc
  simp only [hexEncode, List.mem_flatMap, List.mem_cons, List.not_mem_nil, or_false] at hc
  obtain ⟨b, hb, rfl | rfl⟩ := hc
  · exact hexDigit_hex _ (by have := h.2 b hb; omega)
  · exact hexDigit_hex _ (by omega)

/-- **C100, different.** Different UUIDs have different texts, so that event IDs repeat only if the UUIDs of
the library do. -/
theorem C100_distinct (u v : Str) (hu : IsUuid u) (hv : IsUuid v) (h : u ≠ v) : toText u ≠ toText v := by
  rw [toText_eq hu, toText_eq hv]
  exact fun e => h (hexEncode_inj hu.2 hv.2 e)

theorem hexEncode_get (u : Str) (i : Nat) : (hexEncode u)[2 * i]? = u[i]?.map (fun b => hexDigit (b / 16)) := by
  induction u generalizing i with
  | nil => rfl
  | cons b u ih =>
    cases i with
    | zero => rfl
    | succ i => exact ih i

/-- **C100, generated.** The texts that `New` returns are 32 digits, the 13th is `4` and the 17th one of `8`,
`9`, `a`, `b`. -/
theorem C100_new (r : Str) (h : IsUuid r) : (newText r).length = 32 ∧ (∀ c ∈ newText r, IsHex c) ∧
    (newText r)[12]? = some 52 ∧ ∃ c, (newText r)[16]? = some c ∧ c ∈ bytes "89ab" := by
  obtain ⟨h1, h2⟩ := C100_form _ (mask_uuid h)
  refine ⟨h1, h2, ?_⟩
  obtain ⟨hl, hb⟩ := h
  have he : newText r = hexEncode (mask r) := toText_eq (mask_uuid ⟨hl, hb⟩)
  rw [he]
  rw [hexEncode_get (mask r) 6, hexEncode_get (mask r) 8]
  have g6 : (mask r)[6]? = some (r[6] % 16 + 64) := by
    rw [List.getElem?_eq_getElem (by simp [mask, hl])]; simp [mask]
  have g8 : (mask r)[8]? = some (r[8] % 64 + 128) := by
    rw [List.getElem?_eq_getElem (by simp [mask, hl])]; simp [mask]
  rw [g6, g8]
  have h6 : (r[6] % 16 + 64) / 16 = 4 := by omega
  have h8 : (r[8] % 64 + 128) / 16 = 8 + r[8] % 64 / 16 := by omega
  refine ⟨by simp [h6, hexDigit], _, rfl, ?_⟩
  simp only [h8]
  have : ∀ m < 4, hexDigit (8 + m) ∈ bytes "89ab" := by decide
  exact this _ (by omega)

/-- The UUID of the test in short_uuid_test.go. -/
example : toText [0xd2, 0xba, 0x8e, 0x70, 0x07, 0x29, 0x43, 0x38, 0x82, 0x03, 0xc4, 0x38, 0xd4, 0xe9, 0x4b, 0xf3] =
    bytes "d2ba8e70072943388203c438d4e94bf3" := by decide

example : IsUuid [0xd2, 0xba, 0x8e, 0x70, 0x07, 0x29, 0x43, 0x38, 0x82, 0x03, 0xc4, 0x38, 0xd4, 0xe9, 0x4b, 0xf3] :=
  ⟨by decide, by decide⟩

end RangeDB.Uuid

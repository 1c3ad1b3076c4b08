import Verif.Thm.Display
import Verif.Thm.Msgpack

/-!
# Corners of C106 and C108 that wrong programs had slipped through
-/

namespace RangeDB.Ui

theorem foldl_digits (s : Str) (h : s.all Dec.isDigit = true) (a : Nat) :
    s.foldl (fun a c => a * 10 + (c - 48)) a < (a + 1) * 10 ^ s.length := by
  induction s generalizing a with
  | nil => simp
  | cons c s ih =>
    simp only [List.all_cons, Bool.and_eq_true] at h
    have hc := h.1
    simp only [Dec.isDigit, Bool.and_eq_true, decide_eq_true_eq] at hc
    refine Nat.lt_of_lt_of_le (ih h.2 (a * 10 + (c - 48))) ?_
    rw [List.length_cons, Nat.pow_succ, Nat.mul_comm (10 ^ s.length) 10, ← Nat.mul_assoc]
    exact Nat.mul_le_mul_right _ (by omega)

theorem natText_lt (n : Nat) : n < 10 ^ (Dec.natText n).length := by
  have := foldl_digits (Dec.natText n) (Dec.natText_digits n) 0
  have e : (Dec.natText n).foldl (fun a c => a * 10 + (c - 48)) 0 = n := Dec.natText_val n
  rw [e] at this
  simpa using this

theorem natText_long (n k : Nat) (h : 10 ^ k ≤ n) : k < (Dec.natText n).length := by
  have := natText_lt n
  rcases Nat.lt_or_ge k (Dec.natText n).length with h' | h'
  · exact h'
  · have := Nat.pow_le_pow_right (show 0 < 10 by omega) h'
    omega

/-- **C108**: a year is written with its sign and at least four digits, zeros in front, and the digits are the year. -/
theorem C108_year (y : Nat) : 4 ≤ (year4 y).length ∧ (year4 y).all Dec.isDigit = true ∧ Dec.digitsVal (year4 y) = y ∧
    (1000 ≤ y → year4 y = Dec.natText y) := by
  have hd := Dec.natText_digits y
  have hv := Dec.natText_val y
  have h0 : 0 < (Dec.natText y).length := List.length_pos_iff.2 (Dec.natText_ne y)
  unfold year4
  split
  · exact ⟨by simp; omega, by simp [hd, Dec.isDigit], by simpa [Dec.digitsVal] using hv, fun h => by omega⟩
  · split
    · have := natText_long y 1 (by omega)
      exact ⟨by simp; omega, by simp [hd, Dec.isDigit], by simpa [Dec.digitsVal] using hv, fun h => by omega⟩
    · split
      · have := natText_long y 2 (by omega)
        exact ⟨by simp; omega, by simp [hd, Dec.isDigit], by simpa [Dec.digitsVal] using hv, fun h => by omega⟩
      · have := natText_long y 3 (by omega)
        exact ⟨by omega, hd, hv, fun _ => rfl⟩

example : year4 7 = bytes "0007" ∧ year4 1970 = bytes "1970" := by decide +kernel

end RangeDB.Ui

namespace RangeDB.Mp

/-- **C106**, reading numbers of other writers: a number in a signed width, in two's complement, is read as itself; a negative one as Go's
conversion to `uint64` makes it. -/
theorem C106_signed (k : Kind) (hk : k = .i8 ∨ k = .i16 ∨ k = .i32 ∨ k = .i64) (z : Int)
    (h1 : -(2 ^ (8 * k.width - 1) : Int) ≤ z) (h2 : z < (2 ^ (8 * k.width - 1) : Int)) :
    asUint (.num k (z % (256 ^ k.width : Int)).toNat) = some (z % (2 ^ 64 : Int)).toNat := by
  have pick : ∀ (n m b c : Nat), (n < b → n = m) → (b ≤ n → c + n = m) → (if n < b then n else c + n) = m := by
    intro n m b c g1 g2
    by_cases h : n < b
    · rw [if_pos h]; exact g1 h
    · rw [if_neg h]; exact g2 (by omega)
  rcases hk with rfl | rfl | rfl | rfl <;>
    simp only [Kind.width, asUint, Nat.reduceMul, Nat.reduceSub, Int.reducePow, Nat.reducePow, Option.some.injEq] at * <;>
    apply pick <;> omega

/-- **C106**, and what is not a number is refused in the place of one, as is a number in the place of a text: the record is not read. -/
theorem C106_refused (limit n : Nat) (r : Rec) (s s1 s2 : Str) (key : Str) (v : Val) (hk : decKey s = .ok (key, s1))
    (hv : decV limit s1 = .ok (v, s2))
    (h : (key ∈ [[103], [115], [117]] ∧ asUint v = none) ∨ (key ∈ [[110], [97], [105], [101], [116]] ∧ asStr v = none)) :
    decFields limit (n + 1) r s = .error .bad := by
  have hs : r.set key v = none := by
    rcases h with ⟨h, e⟩ | ⟨h, e⟩
    · simp only [List.mem_cons, List.not_mem_nil, or_false] at h
      rcases h with rfl | rfl | rfl <;> simp [Rec.set, e]
    · simp only [List.mem_cons, List.not_mem_nil, or_false] at h
      rcases h with rfl | rfl | rfl | rfl | rfl <;> simp [Rec.set, e]
  simp [decFields, andThen, hk, hv, hs, fail]

/-- A text in the place of the global number. -/
example : decFields 5 1 Rec.zero [161, 103, 161, 65] = .error .bad :=
  C106_refused 5 0 Rec.zero _ [161, 65] [] [103] (.str [65]) rfl rfl (.inl ⟨by decide, rfl⟩)

example : asUint (.num .i8 255) = some (2 ^ 64 - 1) ∧ asUint (.num .i16 5) = some 5 :=
  ⟨by simpa [Kind.width] using C106_signed .i8 (.inl rfl) (-1) (by decide) (by decide), by simpa [Kind.width] using C106_signed .i16 (.inr (.inl rfl)) 5 (by decide) (by decide)⟩

end RangeDB.Mp

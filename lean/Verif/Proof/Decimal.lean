import Verif.Model.Decimal

/-!
# Lemmas about decimal numbers in text
-/

namespace RangeDB.Dec

theorem digitsVal_append (a b : Str) (d : Nat) (hb : b = [d]) :
    digitsVal (a ++ b) = digitsVal a * 10 + (d - 48) := by
  subst hb; simp [digitsVal]

theorem digitsRev_spec (fuel n : Nat) (h : n < fuel) :
    digitsRev fuel n ≠ [] ∧ (digitsRev fuel n).all isDigit ∧
    digitsVal (digitsRev fuel n).reverse = n := by
  induction fuel generalizing n with
  | zero => omega
  | succ fuel ih =>
    simp only [digitsRev]
    by_cases h10 : n < 10
    · rw [if_pos h10]
      refine ⟨by simp, ?_, ?_⟩
      · simp [isDigit]; omega
      · simp [digitsVal]
    · rw [if_neg h10]
      obtain ⟨_, h2, h3⟩ := ih (n / 10) (by omega)
      refine ⟨by simp, ?_, ?_⟩
      · rw [List.all_cons, h2]; simp [isDigit]; omega
      · rw [List.reverse_cons, digitsVal_append _ _ _ rfl, h3]; omega

theorem natText_ne (n : Nat) : natText n ≠ [] := by
  have := (digitsRev_spec (n + 1) n (by omega)).1
  simpa [natText] using this

theorem natText_digits (n : Nat) : (natText n).all isDigit := by
  have := (digitsRev_spec (n + 1) n (by omega)).2.1
  simpa [natText] using this

theorem natText_val (n : Nat) : digitsVal (natText n) = n :=
  (digitsRev_spec (n + 1) n (by omega)).2.2

theorem natText_head (n : Nat) : ∃ c cs, natText n = c :: cs ∧ 48 ≤ c ∧ c ≤ 57 := by
  cases h : natText n with
  | nil => exact absurd h (natText_ne n)
  | cons c cs =>
    have := natText_digits n
    rw [h, List.all_cons] at this
    simp [isDigit] at this
    exact ⟨c, cs, rfl, this.1⟩

theorem natText_inj {a b : Nat} (h : natText a = natText b) : a = b := by
  rw [← natText_val a, ← natText_val b, h]

theorem parseUint_natText (n : Nat) (h : n < 2 ^ 64) : parseUint (natText n) = some n := by
  simp only [parseUint, natText_val, natText_digits]
  simp [natText_ne, h]

theorem atoi_itoa (i : Int) (h1 : -(2 ^ 63) ≤ i) (h2 : i < 2 ^ 63) : atoi (itoa i) = some i := by
  cases i with
  | ofNat n =>
    obtain ⟨c, cs, hc, hc1, hc2⟩ := natText_head n
    have hd := natText_digits n
    have hv := natText_val n
    simp only [itoa]
    rw [hc] at hd hv ⊢
    have e1 : c ≠ 45 := by omega
    have e2 : c ≠ 43 := by omega
    unfold atoi
    split
    · rename_i ds heq; simp at heq; exact absurd heq.1 e1
    · rename_i ds heq; simp at heq; exact absurd heq.1 e2
    · have : digitsVal (c :: cs) < 2 ^ 63 := by rw [hv]; simp at h2; omega
      rw [if_pos ⟨by simp, hd, this⟩, hv]; rfl
  | negSucc n =>
    have hn := natText_ne (n + 1)
    have hd := natText_digits (n + 1)
    have hv := natText_val (n + 1)
    simp only [itoa, atoi]
    have : digitsVal (natText (n + 1)) ≤ 2 ^ 63 := by rw [hv]; omega
    rw [if_pos ⟨hn, hd, this⟩, hv]; rfl

end RangeDB.Dec

import Verif.Model.Display
import Verif.Spec.Calendar
import Verif.Proof.Decimal

/-! # Lemmas about numbers and dates on pages -/

namespace RangeDB.Ui

/-! ## Days and years -/

/-- Days before year `y`, counted from the first year. -/
def before (y : Nat) : Nat := 365 * y + y / 4 - y / 100 + y / 400

def LeapI (y : Nat) : Prop := (y + 1) % 4 = 0 ∧ ((y + 1) % 100 ≠ 0 ∨ (y + 1) % 400 = 0)

instance (y : Nat) : Decidable (LeapI y) := by unfold LeapI; infer_instance

def yearLen (y : Nat) : Nat := if LeapI y then 366 else 365

theorem div_succ (y m : Nat) (hm : 0 < m) : (y + 1) / m = y / m + if (y + 1) % m = 0 then 1 else 0 := by
  rw [Nat.succ_div]
  simp only [Nat.dvd_iff_mod_eq_zero]

theorem before_succ (y : Nat) : before (y + 1) = before y + yearLen y := by
  have h4 := div_succ y 4 (by omega)
  have h100 := div_succ y 100 (by omega)
  have h400 := div_succ y 400 (by omega)
  have c1 : (y + 1) % 400 = 0 → (y + 1) % 100 = 0 := by omega
  have c2 : (y + 1) % 100 = 0 → (y + 1) % 4 = 0 := by omega
  have c3 : y / 100 ≤ y := Nat.div_le_self _ _
  unfold before yearLen LeapI
  rw [h4, h100, h400]
  generalize y / 4 = a at *
  generalize y / 100 = b at *
  generalize y / 400 = c at *
  by_cases g4 : (y + 1) % 4 = 0
  · by_cases g100 : (y + 1) % 100 = 0
    · by_cases g400 : (y + 1) % 400 = 0
      · simp [g4, g100, g400]; omega
      · simp [g4, g100, g400]; omega
    · have g400 : ¬ (y + 1) % 400 = 0 := fun h => g100 (c1 h)
      simp [g4, g100, g400]; omega
  · have g100 : ¬ (y + 1) % 100 = 0 := fun h => g4 (c2 h)
    have g400 : ¬ (y + 1) % 400 = 0 := fun h => g100 (c1 h)
    simp [g4, g100, g400]; omega

theorem before_mono {a b : Nat} (h : a ≤ b) : before a ≤ before b := by
  induction h with
  | refl => exact Nat.le_refl _
  | step _ ih => rw [before_succ]; omega

theorem before_parts {a b c e : Nat} (hb : b ≤ 3) (hc : c ≤ 24) (he : e ≤ 3) :
    before (400 * a + 100 * b + 4 * c + e) = 146097 * a + 36524 * b + 1461 * c + 365 * e := by
  have q4 : (400 * a + 100 * b + 4 * c + e) / 4 = 100 * a + 25 * b + c := by omega
  have q100 : (400 * a + 100 * b + 4 * c + e) / 100 = 4 * a + b := by omega
  have q400 : (400 * a + 100 * b + 4 * c + e) / 400 = a := by omega
  unfold before
  rw [q4, q100, q400]
  omega

theorem leap_parts {a b c e : Nat} (hb : b ≤ 3) (hc : c ≤ 24) (he : e ≤ 3)
    (h : ¬ LeapI (400 * a + 100 * b + 4 * c + e)) : e < 3 ∨ (c = 24 ∧ b < 3) := by
  have r4 : (400 * a + 100 * b + 4 * c + e + 1) % 4 = (e + 1) % 4 := by omega
  have r100 : (400 * a + 100 * b + 4 * c + e + 1) % 100 = (4 * c + e + 1) % 100 := by omega
  have r400 : (400 * a + 100 * b + 4 * c + e + 1) % 400 = (100 * b + 4 * c + e + 1) % 400 := by omega
  unfold LeapI at h
  rw [r4, r100, r400] at h
  omega

theorem yearDay_spec (d : Nat) : before (yearDay d).1 + (yearDay d).2 = d ∧ (yearDay d).2 < yearLen (yearDay d).1 := by
  unfold yearDay
  simp only
  generalize h400 : d / 146097 = n400
  generalize hd1 : d - 146097 * n400 = d1
  have b1 : d1 < 146097 ∧ d = 146097 * n400 + d1 := by omega
  clear h400 hd1
  generalize h100 : d1 / 36524 - d1 / 36524 / 4 = n100
  generalize hd2 : d1 - 36524 * n100 = d2
  have b2 : n100 ≤ 3 ∧ d2 ≤ 36524 ∧ (n100 < 3 → d2 < 36524) ∧ d1 = 36524 * n100 + d2 := by omega
  clear h100 hd2
  generalize h4 : d2 / 1461 = n4
  generalize hd3 : d2 - 1461 * n4 = d3
  have b3 : n4 ≤ 24 ∧ d3 < 1461 ∧ (n4 = 24 → n100 < 3 → d3 < 1460) ∧ d2 = 1461 * n4 + d3 := by omega
  clear h4 hd3
  generalize h1 : d3 / 365 - d3 / 365 / 4 = n1
  generalize hd4 : d3 - 365 * n1 = d4
  have b4 : n1 ≤ 3 ∧ d4 ≤ 365 ∧ (n1 < 3 → d4 < 365) ∧ (n1 = 3 → n4 = 24 → n100 < 3 → d4 < 365) ∧
      d3 = 365 * n1 + d4 := by omega
  clear h1 hd4
  constructor
  · rw [before_parts b2.1 b3.1 b4.1]
    omega
  · unfold yearLen
    by_cases hl : LeapI (400 * n400 + 100 * n100 + 4 * n4 + n1)
    · rw [if_pos hl]; omega
    · rw [if_neg hl]
      have := leap_parts b2.1 b3.1 b4.1 hl
      omega

theorem yearDay_unique {d y k : Nat} (h : before y + k = d) (hk : k < yearLen y) : yearDay d = (y, k) := by
  obtain ⟨h1, h2⟩ := yearDay_spec d
  generalize yearDay d = p at h1 h2
  obtain ⟨a, b⟩ := p
  simp only at h1 h2
  have : a = y := by
    rcases Nat.lt_trichotomy a y with hlt | heq | hgt
    · have := before_mono (a := a + 1) (b := y) hlt
      rw [before_succ] at this
      omega
    · exact heq
    · have := before_mono (a := y + 1) (b := a) hgt
      rw [before_succ] at this
      omega
  subst this
  simp only [Prod.mk.injEq, true_and]
  omega

theorem yearDay_succ (d : Nat) :
    yearDay (d + 1) =
      if (yearDay d).2 + 1 < yearLen (yearDay d).1 then ((yearDay d).1, (yearDay d).2 + 1)
      else ((yearDay d).1 + 1, 0) := by
  obtain ⟨h1, h2⟩ := yearDay_spec d
  split
  · next h => exact yearDay_unique (by omega) h
  · next h =>
    apply yearDay_unique
    · rw [before_succ]; omega
    · unfold yearLen; split <;> omega

/-! ## Months -/

def lenOf (leap : Bool) (m : Nat) : Nat :=
  if m = 2 then (if leap then 29 else 28) else if m = 4 ∨ m = 6 ∨ m = 9 ∨ m = 11 then 30 else 31

/-- One step of the table. -/
def stepOk (leap : Bool) (k : Nat) : Bool :=
  let p := monthDay leap k
  let q := monthDay leap (k + 1)
  decide (1 ≤ p.1 ∧ p.1 ≤ 12 ∧ 1 ≤ p.2 ∧ p.2 ≤ 31) &&
  if p.2 < lenOf leap p.1 then q = (p.1, p.2 + 1) else decide (p.1 < 12) && q = (p.1 + 1, 1)

theorem table (leap : Bool) : ∀ k, k + 1 < (if leap then 366 else 365) → stepOk leap k = true := by
  cases leap
  · have : ∀ k < 364, stepOk false k = true := by decide +kernel
    intro k hk
    exact this k (by simp at hk; omega)
  · have : ∀ k < 365, stepOk true k = true := by decide +kernel
    intro k hk
    exact this k (by simp at hk; omega)

theorem table_last (leap : Bool) : monthDay leap (if leap then 365 else 364) = (12, 31) := by
  cases leap <;> decide

theorem table_first (leap : Bool) : monthDay leap 0 = (1, 1) := by
  cases leap <;> decide

/-! ## Dates -/

/-- The first day of 1970. -/
def epoch : Nat := 106751991073094

theorem isLeap_iff (y : Nat) : isLeap ((y : Int) - 292277022399) = decide (LeapI y) := by
  have h4 : ((y : Int) - 292277022399) % 4 = ((y + 1) % 4 : Nat) := by omega
  have h100 : ((y : Int) - 292277022399) % 100 = ((y + 1) % 100 : Nat) := by omega
  have h400 : ((y : Int) - 292277022399) % 400 = ((y + 1) % 400 : Nat) := by omega
  have e4 : (((y + 1) % 4 : Nat) : Int) = 0 ↔ (y + 1) % 4 = 0 := by omega
  have e100 : (((y + 1) % 100 : Nat) : Int) = 0 ↔ (y + 1) % 100 = 0 := by omega
  have e400 : (((y + 1) % 400 : Nat) : Int) = 0 ↔ (y + 1) % 400 = 0 := by omega
  unfold isLeap LeapI
  rw [h4, h100, h400]
  simp only [ne_eq, e4, e100, e400]
  rw [Bool.eq_iff_iff]
  simp only [Bool.and_eq_true, decide_eq_true_eq, Bool.or_eq_true]
  exact decide_eq_true_iff.symm

/-- The date computed for a day. -/
def dateOf (d : Nat) : Date :=
  let yd := yearDay d
  let md := monthDay (decide (LeapI yd.1)) yd.2
  ⟨yd.1 - 292277022399, md.1, md.2⟩

theorem year_ge (n : Nat) : 292277022399 + 1970 ≤ (yearDay (epoch + n)).1 := by
  obtain ⟨h1, h2⟩ := yearDay_spec (epoch + n)
  refine Classical.byContradiction fun h => ?_
  have := before_mono (a := (yearDay (epoch + n)).1 + 1) (b := 292277022399 + 1970) (by omega)
  rw [before_succ] at this
  have he : before (292277022399 + 1970) = epoch := by decide
  omega

theorem dateOf_eq : ∀ n, dateOf (epoch + n) = dayAfter n
  | 0 => by decide +kernel
  | n + 1 => by
    have ih := dateOf_eq n
    have hy := year_ge n
    simp only [dayAfter, ← ih]
    obtain ⟨h1, h2⟩ := yearDay_spec (epoch + n)
    have hs := yearDay_succ (epoch + n)
    rw [Nat.add_assoc] at hs
    unfold dateOf
    simp only [hs]
    generalize yearDay (epoch + n) = p at *
    obtain ⟨y, k⟩ := p
    simp only at h1 h2 hs hy ⊢
    clear hs ih h1
    have hleap : Leap (y - 292277022399) ↔ LeapI y := by
      unfold Leap LeapI
      omega
    have hlen : ∀ m, monthLength (y - 292277022399) m = lenOf (decide (LeapI y)) m := by
      intro m
      unfold monthLength lenOf
      by_cases hl : LeapI y
      · rw [if_pos (hleap.2 hl)]; simp [hl]
      · rw [if_neg (mt hleap.1 hl)]; simp [hl]
    have hyl : yearLen y = if decide (LeapI y) then 366 else 365 := by
      unfold yearLen
      by_cases hl : LeapI y <;> simp [hl]
    rw [hyl] at h2 ⊢
    obtain ⟨l, hl⟩ : ∃ l, decide (LeapI y) = l := ⟨_, rfl⟩
    simp only [hl] at h2 hlen ⊢
    by_cases hc : k + 1 < if l then 366 else 365
    · rw [if_pos hc]
      simp only [hl]
      have ht := table l k hc
      unfold stepOk at ht
      simp only [Bool.and_eq_true, decide_eq_true_eq] at ht
      obtain ⟨⟨g1, g2, g3, g4⟩, ht⟩ := ht
      generalize monthDay l k = q at *
      obtain ⟨m, dd⟩ := q
      simp only at *
      unfold Date.tomorrow
      simp only [hlen]
      by_cases hm : dd < lenOf l m
      · rw [if_pos hm] at ht ⊢
        simp only [decide_eq_true_eq] at ht
        rw [ht]
      · rw [if_neg hm] at ht ⊢
        simp only [Bool.and_eq_true, decide_eq_true_eq] at ht
        rw [if_pos ht.1, ht.2]
    · rw [if_neg hc]
      have hk : k = if l then 365 else 364 := by
        cases l <;> simp at hc h2 ⊢ <;> omega
      rw [hk, table_last, table_first]
      unfold Date.tomorrow
      simp only [hlen]
      have : ¬ 31 < lenOf l 12 := by simp [lenOf]
      rw [if_neg this, if_neg (by omega)]
      simp only [Date.mk.injEq, and_self, and_true]
      omega

/-! ## Digits -/

theorem digitsRev_fuel : ∀ (f g n : Nat), n < f → n < g → Dec.digitsRev f n = Dec.digitsRev g n
  | 0, _, _, h, _ => by omega
  | _, 0, _, _, h => by omega
  | f + 1, g + 1, n, hf, hg => by
    simp only [Dec.digitsRev]
    by_cases h : n < 10
    · rw [if_pos h, if_pos h]
    · rw [if_neg h, if_neg h, digitsRev_fuel f g (n / 10) (by omega) (by omega)]

theorem natText_small {n : Nat} (h : n < 10) : Dec.natText n = [48 + n] := by
  simp [Dec.natText, Dec.digitsRev, h]

theorem natText_step {n : Nat} (h : 10 ≤ n) : Dec.natText n = Dec.natText (n / 10) ++ [48 + n % 10] := by
  unfold Dec.natText
  rw [Dec.digitsRev, if_neg (by omega), List.reverse_cons, digitsRev_fuel n (n / 10 + 1) (n / 10) (by omega) (by omega)]

theorem pad3_eq {n : Nat} (h : n < 1000) : pad3 n = [48 + n / 100, 48 + n / 10 % 10, 48 + n % 10] := by
  unfold pad3
  by_cases h1 : n < 10
  · rw [if_pos h1, natText_small h1]
    simp
    omega
  · by_cases h2 : n < 100
    · rw [if_neg h1, if_pos h2, natText_step (by omega), natText_small (by omega)]
      simp
      omega
    · rw [if_neg h1, if_neg h2, natText_step (by omega), natText_step (n := n / 10) (by omega),
        natText_small (by omega)]
      simp
      omega

theorem natText_thousand {v : Nat} (h : 999 < v) : Dec.natText v = Dec.natText (v / 1000) ++ pad3 (v % 1000) := by
  rw [pad3_eq (by omega), natText_step (by omega), natText_step (n := v / 10) (by omega),
    natText_step (n := v / 10 / 10) (by omega)]
  have e1 : v / 10 / 10 / 10 = v / 1000 := by omega
  have e2 : v / 10 / 10 % 10 = v % 1000 / 100 := by omega
  have e3 : v / 10 % 10 = v % 1000 / 10 % 10 := by omega
  have e4 : v % 10 = v % 1000 % 10 := by omega
  rw [e1, e2, e3, e4]
  simp

theorem digit_ne {n c : Nat} (h : c ∈ Dec.natText n) : c ≠ 44 := by
  have := List.all_eq_true.1 (Dec.natText_digits n) c h
  simp only [Dec.isDigit, Bool.and_eq_true, decide_eq_true_eq] at this
  omega

theorem natText_short {v : Nat} (h : v ≤ 999) : (Dec.natText v).length ≤ 3 := by
  by_cases h1 : v < 10
  · rw [natText_small h1]; simp
  · by_cases h2 : v < 100
    · rw [natText_step (by omega), natText_small (by omega)]; simp
    · rw [natText_step (by omega), natText_step (n := v / 10) (by omega), natText_small (by omega)]; simp

/-! ## Commas -/

theorem join_append : ∀ (ps : List Str) (p : Str), ps ≠ [] → join (ps ++ [p]) = join ps ++ 44 :: p
  | [], _, h => absurd rfl h
  | [a], p, _ => rfl
  | a :: b :: ps, p, _ => by
    have := join_append (b :: ps) p (by simp)
    simp only [List.cons_append] at this ⊢
    simp only [join]
    rw [this]
    simp

theorem parts_spec : ∀ (slots v : Nat), v < 1000 ^ slots → 0 < slots →
    ∃ ps, parts slots v = some ps ∧ ps ≠ [] ∧ (join ps).filter (· ≠ 44) = Dec.natText v ∧ Grouped (join ps)
  | 0, _, _, h => by omega
  | slots + 1, v, hv, _ => by
    unfold parts
    by_cases h : 999 < v
    · rw [if_pos h]
      have hs : 0 < slots := by
        cases slots with
        | zero => simp at hv; omega
        | succ => omega
      have hv' : v / 1000 < 1000 ^ slots := by
        rw [Nat.pow_succ] at hv
        exact Nat.div_lt_of_lt_mul (by omega)
      obtain ⟨ps, h1, h2, h3, h4⟩ := parts_spec slots (v / 1000) hv' hs
      refine ⟨ps ++ [pad3 (v % 1000)], by simp [h1], by simp, ?_, ?_⟩
      · rw [join_append _ _ h2, List.filter_append, h3, natText_thousand h]
        congr 1
        rw [pad3_eq (by omega)]
        simp
        omega
      · rw [join_append _ _ h2, pad3_eq (by omega)]
        intro i c hc
        simp only [List.reverse_append, List.reverse_cons, List.reverse_nil, List.nil_append, List.cons_append]
          at hc
        match i with
        | 0 => simp at hc; omega
        | 1 => simp at hc; omega
        | 2 => simp at hc; omega
        | 3 => simp at hc; omega
        | i + 4 =>
          simp only [List.getElem?_cons_succ] at hc
          have := h4 i c hc
          omega
    · rw [if_neg h]
      refine ⟨_, rfl, by simp, ?_, ?_⟩
      · simp only [join]
        rw [List.filter_eq_self]
        intro c hc
        simpa using digit_ne hc
      · intro i c hc
        simp only [join] at hc
        have hi : i < (Dec.natText v).reverse.length := by
          obtain ⟨h', _⟩ := List.getElem?_eq_some_iff.1 hc
          exact h'
        have hl := natText_short (v := v) (by omega)
        simp only [List.length_reverse] at hi
        have hm : c ∈ Dec.natText v := List.mem_reverse.1 (List.mem_of_getElem? hc)
        have := digit_ne hm
        constructor
        · intro h; exact absurd h this
        · intro h; omega

/-! ## Text of dates -/

theorem pad2_eq {n : Nat} (h : n < 100) : pad2 n = twoDigits n := by
  unfold pad2 twoDigits
  by_cases h1 : n < 10
  · rw [if_pos h1, natText_small h1]
    simp
    omega
  · rw [if_neg h1, natText_step (by omega), natText_small (by omega)]
    simp

theorem monthNames_eq : ∀ m, 1 ≤ m → m ≤ 12 → monthNames.getD (m - 1) [] = monthName m := by
  have : ∀ m < 13, 1 ≤ m → monthNames.getD (m - 1) [] = monthName m := by decide
  intro m h1 h2
  exact this m (by omega) h1

theorem dayAfter_ok : ∀ n, 1970 ≤ (dayAfter n).year ∧ 1 ≤ (dayAfter n).month ∧ (dayAfter n).month ≤ 12 ∧
    1 ≤ (dayAfter n).day ∧ (dayAfter n).day ≤ monthLength (dayAfter n).year (dayAfter n).month
  | 0 => by decide
  | n + 1 => by
    obtain ⟨h1, h2, h3, h4, h5⟩ := dayAfter_ok n
    simp only [dayAfter, Date.tomorrow]
    split
    · next h => exact ⟨h1, h2, h3, by simp, h⟩
    · split
      · next h =>
        refine ⟨h1, by simp, by simp; omega, by simp, ?_⟩
        simp only [monthLength]
        repeat' split
        all_goals omega
      · refine ⟨by simp; omega, by simp, by simp, by simp, ?_⟩
        simp [monthLength]

theorem monthLength_le (y m : Nat) : monthLength y m ≤ 31 := by
  unfold monthLength
  repeat' split
  all_goals omega

end RangeDB.Ui

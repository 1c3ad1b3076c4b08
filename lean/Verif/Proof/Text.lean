import Verif.Model.Text
import Verif.Proof.Decimal

/-!
# Proofs about splitting text and scanning numbers
-/

namespace RangeDB.Txt

theorem cut_nil (sep : Str) (h : sep ≠ []) : cut sep [] = none := by simp [cut, h]

/-- `cut` finds an occurrence, so the input is its two parts around the separator. -/
theorem cut_some {sep s a b : Str} (h : cut sep s = some (a, b)) : s = a ++ sep ++ b := by
  induction s generalizing a b with
  | nil =>
    simp only [cut] at h
    split at h
    · rename_i hs; simp at h; simp [hs, h.1, h.2]
    · exact absurd h (by simp)
  | cons c cs ih =>
    simp only [cut] at h
    split at h
    · rename_i hp
      simp only [Option.some.injEq, Prod.mk.injEq] at h
      rw [List.isPrefixOf_iff_prefix] at hp
      obtain ⟨t, ht⟩ := hp
      rw [← h.1, ← h.2, ← ht]
      simp
    · cases hc : cut sep cs with
      | none => rw [hc] at h; simp at h
      | some p =>
        obtain ⟨a', b'⟩ := p
        rw [hc] at h
        simp only [Option.map_some, Option.some.injEq, Prod.mk.injEq] at h
        rw [ih hc, ← h.1, ← h.2]
        simp

/-- `cut` finds no occurrence exactly when there is none. -/
theorem cut_none {sep s : Str} : cut sep s = none ↔ ∀ a b, s ≠ a ++ sep ++ b := by
  constructor
  · intro h a b
    induction s generalizing a b with
    | nil =>
      intro he
      simp only [cut] at h
      split at h
      · simp at h
      · rename_i hs
        have : sep = [] := by
          have := congrArg List.length he
          simp at this
          exact List.length_eq_zero_iff.mp (by omega)
        exact hs this
    | cons c cs ih =>
      simp only [cut] at h
      split at h
      · simp at h
      · rename_i hp
        have hc : cut sep cs = none := by
          cases hc : cut sep cs with
          | none => rfl
          | some p => rw [hc] at h; simp at h
        intro he
        cases a with
        | nil =>
          apply hp
          rw [List.isPrefixOf_iff_prefix]
          exact ⟨b, by simpa using he.symm⟩
        | cons x xs =>
          simp only [List.cons_append, List.cons.injEq] at he
          exact ih hc xs b he.2
  · intro h
    cases hc : cut sep s with
    | none => rfl
    | some p => exact absurd (cut_some hc) (h p.1 p.2)

/-- With a one-byte separator, `cut` stops at its first occurrence. -/
theorem cut_byte {c : Nat} {a : Str} (b : Str) (ha : c ∉ a) : cut [c] (a ++ c :: b) = some (a, b) := by
  induction a with
  | nil => simp [cut]
  | cons x xs ih =>
    simp only [List.mem_cons, not_or] at ha
    simp only [List.cons_append, cut, List.isPrefixOf_cons_cons, ih ha.2]
    simp [ha.1]

theorem cut_byte_none {c : Nat} {a : Str} (ha : c ∉ a) : cut [c] a = none := by
  rw [cut_none]
  intro x y he
  apply ha
  rw [he]; simp

/-- A piece that has no separator stays whole. -/
theorem split_none {sep s : Str} (h : cut sep s = none) : split sep s = [s] := by
  unfold split splitFuel
  rw [h]

theorem splitFuel_fuel {sep : Str} (hs : sep ≠ []) : ∀ (n m : Nat) (s : Str), s.length < n → s.length < m →
    splitFuel sep n s = splitFuel sep m s := by
  intro n
  induction n with
  | zero => intro m s h; omega
  | succ n ih =>
    intro m s h1 h2
    cases m with
    | zero => omega
    | succ m =>
      unfold splitFuel
      cases hc : cut sep s with
      | none => rfl
      | some p =>
        obtain ⟨a, b⟩ := p
        have := congrArg List.length (cut_some hc)
        have h3 : 0 < sep.length := List.length_pos_iff.mpr hs
        simp only [List.length_append] at this
        simp only
        rw [ih m b (by omega) (by omega)]

theorem split_some {sep s a b : Str} (hs : sep ≠ []) (h : cut sep s = some (a, b)) :
    split sep s = a :: split sep b := by
  have hl := congrArg List.length (cut_some h)
  have h3 : 0 < sep.length := List.length_pos_iff.mpr hs
  simp only [List.length_append] at hl
  unfold split
  rw [splitFuel, h]
  simp only
  rw [splitFuel_fuel hs _ (b.length + 1) b (by omega) (by omega)]

/-- Splitting the joined pieces at a byte that occurs in none of them gives the pieces. -/
theorem split_join {c : Nat} : ∀ (xs : List Str), xs ≠ [] → (∀ x ∈ xs, c ∉ x) →
    split [c] (join [c] xs) = xs := by
  intro xs
  induction xs with
  | nil => intro h; exact absurd rfl h
  | cons x xs ih =>
    intro _ hx
    cases xs with
    | nil =>
      simp only [join]
      exact split_none (cut_byte_none (hx x (by simp)))
    | cons y ys =>
      simp only [join]
      have h1 : x ++ [c] ++ join [c] (y :: ys) = x ++ c :: join [c] (y :: ys) := by simp
      rw [h1, split_some (by simp) (cut_byte _ (hx x (by simp)))]
      rw [ih (by simp) (fun z hz => hx z (by simp [List.mem_cons] at hz ⊢; exact Or.inr hz))]

/-! ## Numbers -/

theorem natText_all {n c : Nat} (h : c ∈ Dec.natText n) : 48 ≤ c ∧ c ≤ 57 := by
  have := Dec.natText_digits n
  rw [List.all_eq_true] at this
  have := this c h
  simpa [Dec.isDigit] using this

theorem takeWhile_digits (n : Nat) (rest : Str) (h : ∀ c cs, rest = c :: cs → Dec.isDigit c = false) :
    (Dec.natText n ++ rest).takeWhile Dec.isDigit = Dec.natText n ∧
    (Dec.natText n ++ rest).dropWhile Dec.isDigit = rest := by
  have hd := Dec.natText_digits n
  rw [List.all_eq_true] at hd
  generalize Dec.natText n = t at *
  induction t with
  | nil =>
    cases rest with
    | nil => simp
    | cons c cs => simp [h c cs rfl]
  | cons x xs ih =>
    have hx := hd x (by simp)
    have := ih (fun c hc => hd c (by simp [hc]))
    simp [hx, this.1, this.2]

theorem skipSpace_digit {s : Str} {c : Nat} {cs : Str} (h : s = c :: cs) (h1 : 48 ≤ c) :
    skipSpace s = some s := by
  subst h
  simp only [skipSpace]
  rw [if_neg (by omega), if_neg]
  simp [isBlank]
  omega

theorem scanUint_natText (n : Nat) (hn : n < 2 ^ 64) (rest : Str)
    (h : ∀ c cs, rest = c :: cs → Dec.isDigit c = false) :
    scanUint (Dec.natText n ++ rest) = some (n, rest) := by
  obtain ⟨c, cs, hc, h1, h2⟩ := Dec.natText_head n
  have hs : skipSpace (Dec.natText n ++ rest) = some (Dec.natText n ++ rest) :=
    skipSpace_digit (c := c) (cs := cs ++ rest) (by rw [hc]; rfl) h1
  have ht := takeWhile_digits n rest h
  simp only [scanUint, hs, Option.bind_eq_bind, Option.bind_some, ht.1, ht.2, Dec.parseUint_natText n hn]

theorem scanUint_blank (s : Str) : scanUint (32 :: s) = scanUint s := by
  simp only [scanUint, skipSpace]
  rfl

theorem sscanf_text (e a : Nat) (he : e < 2 ^ 64) (ha : a < 2 ^ 64) :
    sscanfNumbers ([32] ++ Dec.natText e ++ [44, 32] ++ actualText ++ [32] ++ Dec.natText a)
      = some (e, a) := by
  obtain ⟨c, cs, hc, h1, h2⟩ := Dec.natText_head a
  have h0 : [32] ++ Dec.natText e ++ [44, 32] ++ actualText ++ [32] ++ Dec.natText a
      = 32 :: (Dec.natText e ++ (44 :: 32 :: (actualText ++ 32 :: Dec.natText a))) := by simp
  have hA : scanUint (Dec.natText a) = some (a, []) := by
    have := scanUint_natText a ha [] (by simp)
    simpa using this
  have hb : (Dec.natText a).dropWhile isBlank = Dec.natText a := by
    rw [hc]
    have : isBlank c = false := by simp [isBlank]; omega
    simp [this]
  rw [h0]
  unfold sscanfNumbers
  rw [scanUint_blank, scanUint_natText e he _ (by
    intro c cs h; simp only [List.cons.injEq] at h; rw [← h.1]; decide)]
  simp only [Option.bind_eq_bind, Option.bind_some, lits, lit, fmtSpace, actualText, isBlank, hb]
  simp [lit, fmtSpace, isBlank, hb, hA]

/-- The marker has no ':' except at its end, so text without the marker cannot form one with the
beginning of a following marker. -/
theorem cut_marker (pre rest : Str) (h : cut marker pre = none) :
    cut marker (pre ++ marker ++ rest) = some (pre, rest) := by
  induction pre with
  | nil =>
    simp only [List.nil_append]
    cases hm : marker ++ rest with
    | nil => simp [marker] at hm
    | cons c cs =>
      have hp : marker.isPrefixOf (c :: cs) = true := by
        rw [List.isPrefixOf_iff_prefix]; exact ⟨rest, hm⟩
      simp only [cut, hp, if_true]
      rw [← hm]
      simp
  | cons x xs ih =>
    have h' : cut marker xs = none := by
      rw [cut_none] at h ⊢
      intro a b he
      exact h (x :: a) b (by simp [he])
    have hp : marker.isPrefixOf (x :: (xs ++ marker ++ rest)) = false := by
      rw [Bool.eq_false_iff, Ne, List.isPrefixOf_iff_prefix]
      rintro ⟨t, ht⟩
      by_cases hlen : marker.length ≤ (x :: xs).length
      · -- the occurrence lies inside the text before the marker
        rw [cut_none] at h
        have h1 : (x :: xs).take marker.length = marker := by
          have := congrArg (List.take marker.length) ht
          rw [List.take_append_of_le_length (Nat.le_refl _), List.take_length] at this
          have e : x :: (xs ++ marker ++ rest) = (x :: xs) ++ (marker ++ rest) := by simp
          rw [e, List.take_append_of_le_length hlen] at this
          exact this.symm
        exact h [] ((x :: xs).drop marker.length) (by
          rw [List.nil_append]
          have := List.take_append_drop marker.length (x :: xs)
          rw [h1] at this
          exact this.symm)
      · -- its final ':' would have to be an inner byte of the following marker
        have hk : (x :: xs).length < marker.length := by omega
        have h26 : marker.length = 27 := by decide
        have e : x :: (xs ++ marker ++ rest) = (x :: xs) ++ (marker ++ rest) := by simp
        rw [e] at ht
        have hget := congrArg (fun l => l[26]?) ht
        rw [List.getElem?_append_left (by omega), List.getElem?_append_right (by omega),
          List.getElem?_append_left (by omega)] at hget
        have hcol : ∀ i, i < 26 → marker[i]? ≠ some 58 := by decide
        have h58 : marker[26]? = some 58 := by decide
        rw [h58] at hget
        exact hcol (26 - (x :: xs).length) (by simp; omega) hget.symm
    have e : x :: xs ++ marker ++ rest = x :: (xs ++ marker ++ rest) := by simp
    rw [e]
    simp only [cut, hp]
    rw [ih h']
    simp

theorem no_q_numbers (e a : Nat) :
    113 ∉ [32] ++ Dec.natText e ++ [44, 32] ++ actualText ++ [32] ++ Dec.natText a := by
  intro h
  simp only [List.mem_append] at h
  rcases h with ((((h | h) | h) | h) | h) | h
  · revert h; decide
  · have := natText_all h; omega
  · revert h; decide
  · revert h; decide
  · revert h; decide
  · have := natText_all h; omega

theorem cut_marker_none {s : Str} (h : 113 ∉ s) : cut marker s = none := by
  rw [cut_none]
  intro a b he
  apply h
  rw [he]
  have : 113 ∈ marker := by decide
  simp [this]

end RangeDB.Txt

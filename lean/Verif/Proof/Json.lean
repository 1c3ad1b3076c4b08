import Verif.Spec.Json
import Verif.Proof.Decimal

/-!
# Proofs about JSON text: values round-trip, and reading does not depend on what follows
-/

namespace RangeDB.Json

/-! ## Runes -/

theorem runeLen_append {b : Nat} {t : Str} {m : Nat} (h : runeLen b t = some m) (q : Str) :
    runeLen b (t ++ q) = some m := by
  unfold runeLen at h ⊢
  rcases t with _ | ⟨b1, _ | ⟨b2, _ | ⟨b3, t⟩⟩⟩
  · repeat' split at h
    all_goals simp_all
  all_goals
    repeat' split at h
    all_goals simp_all

theorem runeLen_take {b : Nat} {t : Str} {n : Nat} (h : runeLen b t = some (n + 1)) :
    runeLen b (t.take n) = some (n + 1) ∧ n ≤ t.length ∧ 1 ≤ n := by
  unfold runeLen at h ⊢
  rcases t with _ | ⟨b1, _ | ⟨b2, _ | ⟨b3, t⟩⟩⟩
  all_goals
    repeat' split at h
    all_goals cases h
    all_goals simp_all

theorem encS_copy (n : Nat) (t : Str) (h : n ≤ t.length) :
    encS true n t = t.take n ++ encS true 0 (t.drop n) := by
  induction n generalizing t with
  | zero => simp
  | succ n ih =>
    cases t with
    | nil => simp at h
    | cons b t => simp only [encS, if_true, List.take_succ_cons, List.drop_succ_cons, List.cons_append]
                  rw [ih t (by simpa using h)]

theorem encS_skip (n : Nat) (t : Str) (h : n ≤ t.length) : encS false n t = encS true 0 (t.drop n) := by
  induction n generalizing t with
  | zero =>
    cases t with
    | nil => rfl
    | cons b t => simp only [encS, List.drop_zero]
  | succ n ih =>
    cases t with
    | nil => simp at h
    | cons b t =>
      simp only [encS, List.drop_succ_cons]
      exact ih t (by simpa using h)

theorem sanitize_copy (n : Nat) (t : Str) (h : n ≤ t.length) :
    sanitize n t = t.take n ++ sanitize 0 (t.drop n) := by
  induction n generalizing t with
  | zero => simp
  | succ n ih =>
    cases t with
    | nil => simp at h
    | cons b t => simp only [sanitize, List.take_succ_cons, List.drop_succ_cons, List.cons_append]
                  rw [ih t (by simpa using h)]

/-! ## Strings -/

theorem hexVal_hexDigit (n : Nat) (h : n < 16) : hexVal (hexDigit n) = some n := by
  unfold hexDigit hexVal btw
  split
  · rw [if_pos (by simp; omega)]; simp
  · rw [if_neg (by simp; omega), if_pos (by simp; omega)]; simp

theorem strStep_escByte (b : Nat) (h : b < 0x80) (x : Str) :
    strStep (escByte b ++ x) = some (some [b], x) := by
  unfold escByte
  split
  · rename_i hb; rcases hb with rfl | rfl <;> simp [strStep]
  · rename_i n1
    split
    · rename_i hb; subst hb; simp [strStep]
    · rename_i n2
      split
      · rename_i hb; subst hb; simp [strStep]
      · rename_i n3
        split
        · rename_i hb; subst hb; simp [strStep]
        · rename_i n4
          split
          · simp only [List.cons_append, List.nil_append, strStep]
            have e0 : hexVal 48 = some 0 := rfl
            simp only [hex4, e0, hexVal_hexDigit (b / 16) (by omega), hexVal_hexDigit (b % 16) (by omega)]
            have : 0 * 4096 + 0 * 256 + b / 16 * 16 + b % 16 = b := by omega
            rw [this]
            have h1 : btw 0xD800 0xDFFF b = false := by simp [btw]; omega
            simp [h1, runeBytes, h]
          · rename_i n5
            simp only [List.cons_append, List.nil_append, strStep]
            rw [if_neg (by omega), if_neg (by omega), if_neg (by omega), if_pos h]

theorem strStep_sep (b : Nat) (t : Str) (h : isSep b t = true) (x : Str) :
    strStep ([92, 117, 50, 48, 50, hexDigit (sepLast t % 16)] ++ x) = some (some (b :: t.take 2), x) ∧
    2 ≤ t.length ∧ ¬ b < 0x80 ∧ runeLen b t = some 3 := by
  rcases t with _ | ⟨b1, _ | ⟨b2, t⟩⟩
  · simp [isSep] at h
  · simp [isSep] at h
  · simp only [isSep, Bool.and_eq_true, decide_eq_true_eq, Bool.or_eq_true] at h
    obtain ⟨⟨rfl, rfl⟩, rfl | rfl⟩ := h
    · exact ⟨by simp [sepLast, hexDigit, strStep, hex4, hexVal, btw, runeBytes], by simp, by omega, by rfl⟩
    · exact ⟨by simp [sepLast, hexDigit, strStep, hex4, hexVal, btw, runeBytes], by simp, by omega, by rfl⟩

theorem strStep_repl (x : Str) : strStep ([92, 117, 102, 102, 102, 100] ++ x) = some (some replacement, x) := by
  rfl

theorem strStep_rune {b : Nat} {t : Str} {n : Nat} (hb : ¬ b < 0x80) (h : runeLen b t = some (n + 1)) (x : Str) :
    strStep (b :: (t.take n ++ x)) = some (some (b :: t.take n), x) := by
  obtain ⟨h1, h2, _⟩ := runeLen_take h
  have h3 := runeLen_append h1 x
  have hl : (t.take n).length = n := by simp; omega
  simp only [strStep]
  rw [if_neg (by omega), if_neg (by omega), if_neg (by omega), if_neg hb, h3]
  simp only [Option.some.injEq, Prod.mk.injEq, List.cons.injEq, true_and]
  constructor
  · rw [List.take_append_of_le_length (by omega), List.take_of_length_le (by omega)]
  · rw [List.drop_append_of_le_length (by omega), List.drop_of_length_le (by omega), List.nil_append]

theorem escByte_ne (b : Nat) : 1 ≤ (escByte b).length := by
  unfold escByte
  repeat' split
  all_goals simp

/-- A written string reads back as itself, with invalid bytes replaced. -/
theorem strLoop_enc (n : Nat) : ∀ (s : Str), s.length ≤ n → ∀ (fuel : Nat) (rest : Str),
    (encS true 0 s).length < fuel →
    strLoop fuel (encS true 0 s ++ 34 :: rest) = some (sanitize 0 s, rest) := by
  induction n with
  | zero =>
    intro s hs fuel rest hf
    obtain rfl : s = [] := by simpa using hs
    cases fuel with
    | zero => simp at hf
    | succ fuel => simp [encS, strLoop, strStep, sanitize]
  | succ n ih =>
    intro s hs fuel rest hf
    cases s with
    | nil =>
      cases fuel with
      | zero => simp at hf
      | succ fuel => simp [encS, strLoop, strStep, sanitize]
    | cons b t =>
      simp only [List.length_cons] at hs
      cases fuel with
      | zero => simp at hf
      | succ fuel =>
      simp only [encS] at hf ⊢
      by_cases hb : b < 0x80
      · rw [if_pos hb] at hf ⊢
        simp only [List.length_append] at hf
        have := escByte_ne b
        rw [List.append_assoc]
        simp only [strLoop, strStep_escByte b hb]
        rw [ih t (by omega) fuel rest (by omega)]
        simp [sanitize, hb]
      · rw [if_neg hb] at hf ⊢
        by_cases hsep : isSep b t = true
        · rw [if_pos hsep] at hf ⊢
          obtain ⟨h1, h2, h3, h4⟩ := strStep_sep b t hsep (encS false 2 t ++ 34 :: rest)
          rw [List.append_assoc]
          simp only [strLoop, h1]
          rw [encS_skip 2 t h2] at hf ⊢
          simp only [List.length_append, List.length_cons, List.length_nil] at hf
          rw [ih (t.drop 2) (by simp; omega) fuel rest (by omega)]
          simp only [sanitize, hb, if_false, h4]
          rw [sanitize_copy 2 t h2]
          simp
        · rw [if_neg hsep] at hf ⊢
          have hinv : ∀ (o : Option Nat), runeLen b t = o → (∀ m, o ≠ some (m + 1)) →
              strLoop (fuel + 1) ([92, 117, 102, 102, 102, 100] ++ encS true 0 t ++ 34 :: rest) =
                some (sanitize 0 (b :: t), rest) ∨ fuel ≤ (encS true 0 t).length := by
            intro o ho hm
            by_cases hfl : fuel ≤ (encS true 0 t).length
            · exact Or.inr hfl
            · refine Or.inl ?_
              rw [List.append_assoc]
              simp only [strLoop, strStep_repl]
              rw [ih t (by omega) fuel rest (by omega)]
              simp only [sanitize, hb, if_false, ho]
          cases hr : runeLen b t with
          | none =>
            simp only [hr] at hf ⊢
            rcases hinv none hr (by simp) with h | h
            · exact h
            · simp at hf; omega
          | some m =>
            cases m with
            | zero =>
              simp only [hr] at hf ⊢
              rcases hinv (some 0) hr (by simp) with h | h
              · exact h
              · simp at hf; omega
            | succ m =>
              simp only [hr] at hf ⊢
              obtain ⟨_, h2, h3⟩ := runeLen_take hr
              rw [encS_copy m t h2] at hf ⊢
              simp only [List.length_cons, List.length_append] at hf
              rw [List.cons_append, List.append_assoc]
              simp only [strLoop, strStep_rune hb hr]
              rw [ih (t.drop m) (by simp; omega) fuel rest (by omega)]
              simp only [sanitize, hb, if_false, hr]
              rw [sanitize_copy m t h2]
              simp

theorem parseStr_enc (s rest : Str) : parseStr (encS true 0 s ++ 34 :: rest) = some (sanitize 0 s, rest) := by
  unfold parseStr
  exact strLoop_enc s.length s (Nat.le_refl _) _ rest (by simp; omega)

/-! ## What follows does not matter -/

theorem hex4_append {t : Str} {u : Nat} {r : Str} (h : hex4 t = some (u, r)) (q : Str) :
    hex4 (t ++ q) = some (u, r ++ q) := by
  rcases t with _ | ⟨a, _ | ⟨b, _ | ⟨c, _ | ⟨d, t⟩⟩⟩⟩
  · simp [hex4] at h
  · simp [hex4] at h
  · simp [hex4] at h
  · simp [hex4] at h
  · simp only [List.cons_append, hex4] at h ⊢
    cases h1 : hexVal a <;> cases h2 : hexVal b <;> cases h3 : hexVal c <;> cases h4 : hexVal d <;>
      simp only [h1, h2, h3, h4] at h ⊢
    all_goals first
      | (simp only [Option.some.injEq, Prod.mk.injEq] at h ⊢
         obtain ⟨rfl, rfl⟩ := h
         exact ⟨rfl, rfl⟩)
      | simp at h

theorem strStep_append {p : Str} {o : Option Str} {r : Str} (h : strStep p = some (o, r)) (q : Str) :
    strStep (p ++ q) = some (o, r ++ q) := by
  cases p with
  | nil => simp [strStep] at h
  | cons c t =>
    simp only [List.cons_append, strStep] at h ⊢
    by_cases c1 : c = 34
    · rw [if_pos c1] at h ⊢
      simp only [Option.some.injEq, Prod.mk.injEq] at h ⊢
      obtain ⟨rfl, rfl⟩ := h; exact ⟨rfl, rfl⟩
    rw [if_neg c1] at h ⊢
    by_cases c2 : c = 92
    · rw [if_pos c2] at h ⊢
      cases t with
      | nil => simp at h
      | cons e r0 =>
        simp only [List.cons_append] at h ⊢
        by_cases e1 : e = 34 ∨ e = 92 ∨ e = 47
        · rw [if_pos e1] at h ⊢
          simp only [Option.some.injEq, Prod.mk.injEq] at h ⊢
          obtain ⟨rfl, rfl⟩ := h; exact ⟨rfl, rfl⟩
        rw [if_neg e1] at h ⊢
        by_cases e2 : e = 98
        · rw [if_pos e2] at h ⊢
          simp only [Option.some.injEq, Prod.mk.injEq] at h ⊢
          obtain ⟨rfl, rfl⟩ := h; exact ⟨rfl, rfl⟩
        rw [if_neg e2] at h ⊢
        by_cases e3 : e = 102
        · rw [if_pos e3] at h ⊢
          simp only [Option.some.injEq, Prod.mk.injEq] at h ⊢
          obtain ⟨rfl, rfl⟩ := h; exact ⟨rfl, rfl⟩
        rw [if_neg e3] at h ⊢
        by_cases e4 : e = 110
        · rw [if_pos e4] at h ⊢
          simp only [Option.some.injEq, Prod.mk.injEq] at h ⊢
          obtain ⟨rfl, rfl⟩ := h; exact ⟨rfl, rfl⟩
        rw [if_neg e4] at h ⊢
        by_cases e5 : e = 114
        · rw [if_pos e5] at h ⊢
          simp only [Option.some.injEq, Prod.mk.injEq] at h ⊢
          obtain ⟨rfl, rfl⟩ := h; exact ⟨rfl, rfl⟩
        rw [if_neg e5] at h ⊢
        by_cases e6 : e = 116
        · rw [if_pos e6] at h ⊢
          simp only [Option.some.injEq, Prod.mk.injEq] at h ⊢
          obtain ⟨rfl, rfl⟩ := h; exact ⟨rfl, rfl⟩
        rw [if_neg e6] at h ⊢
        by_cases e7 : e = 117
        · rw [if_pos e7] at h ⊢
          cases hx : hex4 r0 with
          | none => rw [hx] at h; simp at h
          | some p1 =>
            obtain ⟨u, r1⟩ := p1
            rw [hx] at h
            rw [hex4_append hx q]
            simp only at h ⊢
            by_cases s1 : btw 0xD800 0xDFFF u = true
            · rw [if_pos s1] at h ⊢
              cases r1 with
              | nil => simp at h
              | cons d1 r2 =>
                simp only [List.cons_append] at h ⊢
                by_cases d1e : d1 = 92
                · rw [if_pos d1e] at h ⊢
                  cases r2 with
                  | nil => simp at h
                  | cons d2 r3 =>
                    simp only [List.cons_append] at h ⊢
                    by_cases d2e : d2 = 117
                    · rw [if_pos d2e] at h ⊢
                      cases hy : hex4 r3 with
                      | none => rw [hy] at h; simp at h
                      | some p2 =>
                        obtain ⟨v, r4⟩ := p2
                        rw [hy] at h
                        rw [hex4_append hy q]
                        simp only at h ⊢
                        by_cases s2 : u < 0xDC00 ∧ btw 0xDC00 0xDFFF v = true
                        · rw [if_pos s2] at h ⊢
                          simp only [Option.some.injEq, Prod.mk.injEq] at h ⊢
                          obtain ⟨rfl, rfl⟩ := h; exact ⟨rfl, rfl⟩
                        · rw [if_neg s2] at h ⊢
                          simp only [Option.some.injEq, Prod.mk.injEq] at h ⊢
                          obtain ⟨rfl, rfl⟩ := h; exact ⟨rfl, rfl⟩
                    · rw [if_neg d2e] at h ⊢
                      simp only [Option.some.injEq, Prod.mk.injEq] at h ⊢
                      obtain ⟨rfl, rfl⟩ := h; exact ⟨rfl, rfl⟩
                · rw [if_neg d1e] at h ⊢
                  simp only [Option.some.injEq, Prod.mk.injEq] at h ⊢
                  obtain ⟨rfl, rfl⟩ := h; exact ⟨rfl, rfl⟩
            · rw [if_neg s1] at h ⊢
              simp only [Option.some.injEq, Prod.mk.injEq] at h ⊢
              obtain ⟨rfl, rfl⟩ := h; exact ⟨rfl, rfl⟩
        · rw [if_neg e7] at h
          simp at h
    rw [if_neg c2] at h ⊢
    by_cases c3 : c < 32
    · rw [if_pos c3] at h; simp at h
    rw [if_neg c3] at h ⊢
    by_cases c4 : c < 0x80
    · rw [if_pos c4] at h ⊢
      simp only [Option.some.injEq, Prod.mk.injEq] at h ⊢
      obtain ⟨rfl, rfl⟩ := h; exact ⟨rfl, rfl⟩
    rw [if_neg c4] at h ⊢
    cases hr : runeLen c t with
    | none => rw [hr] at h; simp at h
    | some m =>
      rw [hr] at h
      rw [runeLen_append hr q]
      cases m with
      | zero =>
        simp only [Option.some.injEq, Prod.mk.injEq] at h ⊢
        obtain ⟨rfl, rfl⟩ := h; exact ⟨rfl, rfl⟩
      | succ m =>
        obtain ⟨_, h2, _⟩ := runeLen_take hr
        simp only [Option.some.injEq, Prod.mk.injEq] at h ⊢
        obtain ⟨rfl, rfl⟩ := h
        rw [List.take_append_of_le_length h2, List.drop_append_of_le_length h2]
        exact ⟨rfl, rfl⟩

theorem strLoop_append {f f' : Nat} (hf : f ≤ f') {p s r : Str} (h : strLoop f p = some (s, r)) (q : Str) :
    strLoop f' (p ++ q) = some (s, r ++ q) := by
  induction f generalizing f' p s r with
  | zero => simp [strLoop] at h
  | succ f ih =>
    cases f' with
    | zero => omega
    | succ f' =>
      simp only [strLoop] at h ⊢
      cases hs : strStep p with
      | none => rw [hs] at h; simp at h
      | some x =>
        obtain ⟨o, r1⟩ := x
        rw [hs] at h
        rw [strStep_append hs q]
        cases o with
        | none =>
          simp only [Option.some.injEq, Prod.mk.injEq] at h ⊢
          obtain ⟨rfl, rfl⟩ := h; exact ⟨rfl, rfl⟩
        | some bs =>
          simp only at h ⊢
          cases hl : strLoop f r1 with
          | none => rw [hl] at h; simp at h
          | some y =>
            obtain ⟨s1, r2⟩ := y
            rw [hl] at h
            rw [ih (by omega) hl]
            simp only [Option.some.injEq, Prod.mk.injEq] at h ⊢
            obtain ⟨rfl, rfl⟩ := h; exact ⟨rfl, rfl⟩

theorem parseStr_append {p s r : Str} (h : parseStr p = some (s, r)) (q : Str) :
    parseStr (p ++ q) = some (s, r ++ q) :=
  strLoop_append (by simp) h q

theorem word_append {w s r : Str} (h : word w s = some r) (q : Str) : word w (s ++ q) = some (r ++ q) := by
  induction w generalizing s with
  | nil => simp only [word, Option.some.injEq] at h ⊢; rw [h]
  | cons a w ih =>
    cases s with
    | nil => simp [word] at h
    | cons c s =>
      simp only [List.cons_append, word] at h ⊢
      split at h
      · rename_i hac; rw [if_pos hac]; exact ih h
      · simp at h

theorem skipWs_append {p : Str} {c : Nat} {r : Str} (h : skipWs p = c :: r) (q : Str) :
    skipWs (p ++ q) = c :: (r ++ q) := by
  unfold skipWs at h ⊢
  induction p with
  | nil => simp at h
  | cons d p ih =>
    simp only [List.cons_append, List.dropWhile_cons] at h ⊢
    split
    · rename_i hd; rw [if_pos hd] at h; exact ih h
    · rename_i hd; rw [if_neg hd] at h
      simp only [List.cons.injEq] at h ⊢
      exact ⟨h.1, by rw [h.2]⟩

theorem sepOf_append {close : Nat} {p : Str} {b : Bool} {r : Str} (h : sepOf close p = some (b, r)) (q : Str) :
    sepOf close (p ++ q) = some (b, r ++ q) := by
  unfold sepOf at h ⊢
  cases hs : skipWs p with
  | nil => rw [hs] at h; simp at h
  | cons c r1 =>
    rw [hs] at h
    rw [skipWs_append hs q]
    simp only at h ⊢
    split
    · rename_i hc; rw [if_pos hc] at h
      simp only [Option.some.injEq, Prod.mk.injEq] at h ⊢
      exact ⟨h.1, by rw [h.2]⟩
    · rename_i hc; rw [if_neg hc] at h
      split
      · rename_i hc2; rw [if_pos hc2] at h
        simp only [Option.some.injEq, Prod.mk.injEq] at h ⊢
        exact ⟨h.1, by rw [h.2]⟩
      · rename_i hc2; rw [if_neg hc2] at h; simp at h

/-! ## Numbers -/

theorem digits_append {p : Str} {c : Nat} {r : Str} (h : afterDigits p = c :: r) (q : Str) :
    digits (p ++ q) = digits p ∧ afterDigits (p ++ q) = c :: (r ++ q) := by
  unfold afterDigits digits at *
  induction p with
  | nil => simp at h
  | cons d p ih =>
    simp only [List.cons_append, List.dropWhile_cons, List.takeWhile_cons] at h ⊢
    split
    · rename_i hd; rw [if_pos hd] at h
      obtain ⟨h1, h2⟩ := ih h
      exact ⟨by rw [h1], h2⟩
    · rename_i hd; rw [if_neg hd] at h
      simp only [List.cons.injEq] at h
      exact ⟨rfl, by rw [h.1, h.2]⟩

theorem digits_all {ds : Str} (h : ds.all Dec.isDigit = true) {c : Nat} (hc : Dec.isDigit c = false) (r : Str) :
    digits (ds ++ c :: r) = ds ∧ afterDigits (ds ++ c :: r) = c :: r := by
  unfold digits afterDigits
  induction ds with
  | nil => simp [hc]
  | cons d ds ih =>
    simp only [List.all_cons, Bool.and_eq_true] at h
    simp only [List.cons_append, List.takeWhile_cons, List.dropWhile_cons, h.1, if_true]
    obtain ⟨h1, h2⟩ := ih h.2
    exact ⟨by rw [h1], h2⟩

theorem scanInt_append {p t : Str} {c : Nat} {r : Str} (h : scanInt p = some (t, c :: r)) (q : Str) :
    scanInt (p ++ q) = some (t, c :: (r ++ q)) := by
  cases p with
  | nil => simp [scanInt] at h
  | cons d p =>
    simp only [List.cons_append, scanInt] at h ⊢
    split
    · rename_i hd; rw [if_pos hd] at h
      simp only [Option.some.injEq, Prod.mk.injEq] at h ⊢
      obtain ⟨rfl, rfl⟩ := h; exact ⟨rfl, rfl⟩
    · rename_i hd; rw [if_neg hd] at h
      split
      · rename_i he; rw [if_pos he] at h
        simp only [Option.some.injEq, Prod.mk.injEq] at h ⊢
        obtain ⟨rfl, h2⟩ := h
        obtain ⟨e1, e2⟩ := digits_append h2 q
        exact ⟨by rw [e1], e2⟩
      · rename_i he; rw [if_neg he] at h; simp at h

theorem scanFrac_append {p t : Str} {c : Nat} {r : Str} (h : scanFrac p = some (t, c :: r)) (q : Str) :
    scanFrac (p ++ q) = some (t, c :: (r ++ q)) := by
  cases p with
  | nil => simp [scanFrac] at h
  | cons d p =>
    simp only [List.cons_append, scanFrac] at h ⊢
    split
    · rename_i hd; rw [if_pos hd] at h
      split at h
      · simp at h
      · rename_i hne
        simp only [Option.some.injEq, Prod.mk.injEq] at h
        obtain ⟨rfl, h2⟩ := h
        obtain ⟨e1, e2⟩ := digits_append h2 q
        rw [e1, if_neg hne, e2]
    · rename_i hd; rw [if_neg hd] at h
      simp only [Option.some.injEq, Prod.mk.injEq, List.cons.injEq] at h ⊢
      obtain ⟨rfl, rfl, rfl⟩ := h; exact ⟨rfl, rfl, rfl⟩

theorem scanExpSign_append {p : Str} (h : p ≠ []) (q : Str) :
    scanExpSign (p ++ q) = ((scanExpSign p).1, (scanExpSign p).2 ++ q) := by
  cases p with
  | nil => exact absurd rfl h
  | cons d p =>
    simp only [List.cons_append, scanExpSign]
    split <;> rfl

theorem scanExp_append {p t : Str} {c : Nat} {r : Str} (h : scanExp p = some (t, c :: r)) (q : Str) :
    scanExp (p ++ q) = some (t, c :: (r ++ q)) := by
  cases p with
  | nil => simp [scanExp] at h
  | cons d p =>
    simp only [List.cons_append, scanExp] at h ⊢
    split
    · rename_i hd; rw [if_pos hd] at h
      split at h
      · simp at h
      · rename_i hne
        simp only [Option.some.injEq, Prod.mk.injEq] at h
        obtain ⟨rfl, h2⟩ := h
        have hp : p ≠ [] := by
          rintro rfl; simp [scanExpSign, digits] at hne
        rw [scanExpSign_append hp q]
        obtain ⟨e1, e2⟩ := digits_append h2 q
        simp only
        rw [e1, if_neg hne, e2]
    · rename_i hd; rw [if_neg hd] at h
      simp only [Option.some.injEq, Prod.mk.injEq, List.cons.injEq] at h ⊢
      obtain ⟨rfl, rfl, rfl⟩ := h; exact ⟨rfl, rfl, rfl⟩

theorem scanSign_append {p : Str} (h : p ≠ []) (q : Str) :
    scanSign (p ++ q) = ((scanSign p).1, (scanSign p).2 ++ q) := by
  cases p with
  | nil => exact absurd rfl h
  | cons d p =>
    simp only [List.cons_append, scanSign]
    split <;> rfl

theorem scanNum_append {p t : Str} {c : Nat} {r : Str} (h : scanNum p = some (t, c :: r)) (q : Str) :
    scanNum (p ++ q) = some (t, c :: (r ++ q)) := by
  have hp : p ≠ [] := by rintro rfl; simp [scanNum, scanSign, scanInt] at h
  unfold scanNum at h ⊢
  rw [scanSign_append hp q]
  simp only at h ⊢
  cases hi : scanInt (scanSign p).2 with
  | none => rw [hi] at h; simp at h
  | some x =>
    obtain ⟨i, r1⟩ := x
    rw [hi] at h
    simp only at h
    cases hfr : scanFrac r1 with
    | none => rw [hfr] at h; simp at h
    | some y =>
      obtain ⟨f, r2⟩ := y
      rw [hfr] at h
      simp only at h
      cases he : scanExp r2 with
      | none => rw [he] at h; simp at h
      | some w =>
        obtain ⟨e, r3⟩ := w
        rw [he] at h
        simp only [Option.some.injEq, Prod.mk.injEq] at h
        obtain ⟨rfl, rfl⟩ := h
        have e3 := scanExp_append he q
        cases r2 with
        | nil => simp [scanExp] at he
        | cons c2 r2 =>
          have e2 := scanFrac_append hfr q
          cases r1 with
          | nil => simp [scanFrac] at hfr
          | cons c1 r1 =>
            have e1 := scanInt_append hi q
            rw [e1]
            simp only
            rw [show c1 :: (r1 ++ q) = (c1 :: r1) ++ q from rfl, e2]
            simp only
            rw [show c2 :: (r2 ++ q) = (c2 :: r2) ++ q from rfl, e3]

/-! ### A literal ends where a byte follows that cannot continue it -/

/-- A byte that cannot continue a number. -/
def stop (c : Nat) : Bool := !Dec.isDigit c && !(c = 46) && !(c = 101) && !(c = 69)

theorem digits_stop {p : Str} (h : afterDigits p = []) {c : Nat} (hc : stop c = true) (r : Str) :
    digits (p ++ c :: r) = digits p ∧ afterDigits (p ++ c :: r) = c :: r := by
  have hall : p.all Dec.isDigit = true := by
    unfold afterDigits at h
    induction p with
    | nil => rfl
    | cons d p ih =>
      rw [List.dropWhile_cons] at h
      split at h
      · rename_i hd; rw [List.all_cons, hd, ih h]; rfl
      · simp at h
  have hp : digits p = p := by
    unfold digits
    clear h
    induction p with
    | nil => rfl
    | cons d p ih =>
      rw [List.all_cons, Bool.and_eq_true] at hall
      rw [List.takeWhile_cons, if_pos hall.1, ih hall.2]
  have hd : Dec.isDigit c = false := by simp [stop] at hc; exact hc.1.1.1
  rw [hp]
  exact digits_all hall hd r

theorem scanInt_stop {p t r' : Str} (h : scanInt p = some (t, r')) {c : Nat} (hc : stop c = true) (r : Str) :
    scanInt (p ++ c :: r) = some (t, r' ++ c :: r) := by
  cases r' with
  | cons d r' => exact scanInt_append h _
  | nil =>
    cases p with
    | nil => simp [scanInt] at h
    | cons d p =>
      simp only [List.cons_append, scanInt] at h ⊢
      split
      · rename_i hd; rw [if_pos hd] at h
        simp only [Option.some.injEq, Prod.mk.injEq] at h ⊢
        obtain ⟨rfl, rfl⟩ := h; exact ⟨rfl, rfl⟩
      · rename_i hd; rw [if_neg hd] at h
        split
        · rename_i he; rw [if_pos he] at h
          simp only [Option.some.injEq, Prod.mk.injEq] at h ⊢
          obtain ⟨rfl, h2⟩ := h
          obtain ⟨e1, e2⟩ := digits_stop h2 hc r
          exact ⟨by rw [e1], e2⟩
        · rename_i he; rw [if_neg he] at h; simp at h

theorem scanFrac_stop {p t r' : Str} (h : scanFrac p = some (t, r')) {c : Nat} (hc : stop c = true) (r : Str) :
    scanFrac (p ++ c :: r) = some (t, r' ++ c :: r) := by
  cases r' with
  | cons d r' => exact scanFrac_append h _
  | nil =>
    cases p with
    | nil =>
      simp only [scanFrac, Option.some.injEq, Prod.mk.injEq] at h
      obtain ⟨rfl, _⟩ := h
      have : c ≠ 46 := by simp [stop] at hc; exact hc.1.1.2
      simp [scanFrac, this]
    | cons d p =>
      simp only [List.cons_append, scanFrac] at h ⊢
      split
      · rename_i hd; rw [if_pos hd] at h
        split at h
        · simp at h
        · rename_i hne
          simp only [Option.some.injEq, Prod.mk.injEq] at h
          obtain ⟨rfl, h2⟩ := h
          obtain ⟨e1, e2⟩ := digits_stop h2 hc r
          rw [e1, if_neg hne, e2]; rfl
      · rename_i hd; rw [if_neg hd] at h; simp at h

theorem scanExp_stop {p t r' : Str} (h : scanExp p = some (t, r')) {c : Nat} (hc : stop c = true) (r : Str) :
    scanExp (p ++ c :: r) = some (t, r' ++ c :: r) := by
  cases r' with
  | cons d r' => exact scanExp_append h _
  | nil =>
    cases p with
    | nil =>
      simp only [scanExp, Option.some.injEq, Prod.mk.injEq] at h
      obtain ⟨rfl, _⟩ := h
      have h1 : c ≠ 101 := by simp [stop] at hc; exact hc.1.2
      have h2 : c ≠ 69 := by simp [stop] at hc; exact hc.2
      simp [scanExp, h1, h2]
    | cons d p =>
      simp only [List.cons_append, scanExp] at h ⊢
      split
      · rename_i hd; rw [if_pos hd] at h
        split at h
        · simp at h
        · rename_i hne
          simp only [Option.some.injEq, Prod.mk.injEq] at h
          obtain ⟨rfl, h2⟩ := h
          have hp : p ≠ [] := by
            rintro rfl; simp [scanExpSign, digits] at hne
          rw [scanExpSign_append hp]
          obtain ⟨e1, e2⟩ := digits_stop h2 hc r
          simp only
          rw [e1, if_neg hne, e2]; rfl
      · rename_i hd; rw [if_neg hd] at h; simp at h

theorem scanNum_stop {p t r' : Str} (h : scanNum p = some (t, r')) {c : Nat} (hc : stop c = true) (r : Str) :
    scanNum (p ++ c :: r) = some (t, r' ++ c :: r) := by
  have hp : p ≠ [] := by rintro rfl; simp [scanNum, scanSign, scanInt] at h
  unfold scanNum at h ⊢
  rw [scanSign_append hp]
  simp only at h ⊢
  cases hi : scanInt (scanSign p).2 with
  | none => rw [hi] at h; simp at h
  | some x =>
    obtain ⟨i, r1⟩ := x
    rw [hi] at h
    simp only at h
    cases hfr : scanFrac r1 with
    | none => rw [hfr] at h; simp at h
    | some y =>
      obtain ⟨f, r2⟩ := y
      rw [hfr] at h
      simp only at h
      cases he : scanExp r2 with
      | none => rw [he] at h; simp at h
      | some w =>
        obtain ⟨e, r3⟩ := w
        rw [he] at h
        simp only [Option.some.injEq, Prod.mk.injEq] at h
        obtain ⟨rfl, rfl⟩ := h
        rw [scanInt_stop hi hc r]
        simp only
        rw [scanFrac_stop hfr hc r]
        simp only
        rw [scanExp_stop he hc r]

/-- A number literal starts with a digit or a minus sign. -/
theorem scanNum_head {p t r : Str} (h : scanNum p = some (t, r)) :
    ∃ c p', p = c :: p' ∧ (c = 45 ∨ Dec.isDigit c = true) := by
  cases p with
  | nil => simp [scanNum, scanSign, scanInt] at h
  | cons c p' =>
    refine ⟨c, p', rfl, ?_⟩
    by_cases h1 : c = 45
    · exact Or.inl h1
    · refine Or.inr ?_
      unfold scanNum at h
      simp only [scanSign, h1, if_false, scanInt] at h
      by_cases h2 : c = 48
      · subst h2; rfl
      · rw [if_neg h2] at h
        by_cases h3 : Dec.isDigit c = true
        · exact h3
        · rw [if_neg h3] at h; simp at h

theorem natText_nozero (n : Nat) (c : Nat) (cs : Str) (h : Dec.natText n = c :: cs) : c = 48 → cs = [] := by
  intro hc
  subst hc
  have key : ∀ (fuel n : Nat), n < fuel → ∀ ds, Dec.digitsRev fuel n = ds ++ [48] → ds = [] ∧ n = 0 := by
    intro fuel
    induction fuel with
    | zero => intro n hn; omega
    | succ fuel ih =>
      intro n hn ds hds
      simp only [Dec.digitsRev] at hds
      split at hds
      · rename_i h10
        cases ds with
        | nil => simp at hds; exact ⟨rfl, by omega⟩
        | cons d ds => simp at hds
      · rename_i h10
        cases ds with
        | nil =>
          simp only [List.nil_append, List.cons.injEq] at hds
          have := (Dec.digitsRev_spec fuel (n / 10) (by omega)).1
          exact absurd hds.2 this
        | cons d ds =>
          simp only [List.cons_append, List.cons.injEq] at hds
          have := ih (n / 10) (by omega) ds hds.2
          omega
  have h2 := congrArg List.reverse h
  simp only [Dec.natText, List.reverse_reverse, List.reverse_cons] at h2
  have := (key (n + 1) n (by omega) _ h2).1
  simpa using this

theorem digits_self {p : Str} (h : p.all Dec.isDigit = true) : digits p = p ∧ afterDigits p = [] := by
  unfold digits afterDigits
  induction p with
  | nil => exact ⟨rfl, rfl⟩
  | cons d p ih =>
    rw [List.all_cons, Bool.and_eq_true] at h
    obtain ⟨h1, h2⟩ := ih h.2
    rw [List.takeWhile_cons, List.dropWhile_cons, if_pos h.1, if_pos h.1, h1, h2]
    exact ⟨rfl, rfl⟩

/-- The decimal text of a natural number is a number literal. -/
theorem scanNum_natText (n : Nat) : scanNum (Dec.natText n) = some (Dec.natText n, []) := by
  obtain ⟨c, cs, hc, h1, h2⟩ := Dec.natText_head n
  have hd := Dec.natText_digits n
  have hz := natText_nozero n c cs hc
  rw [hc] at hd ⊢
  rw [List.all_cons, Bool.and_eq_true] at hd
  obtain ⟨d1, d2⟩ := digits_self hd.2
  unfold scanNum
  simp only [scanSign, if_neg (show ¬ c = 45 by omega), scanInt]
  by_cases h48 : c = 48
  · obtain rfl := hz h48
    subst h48
    simp [scanFrac, scanExp]
  · rw [if_neg h48, if_pos hd.1, d1, d2]
    simp [scanFrac, scanExp]

/-! ## Values -/

/-- Is the value a number? -/
def Json.isNum : Json → Bool
  | .num _ => true
  | _ => false

mutual
/-- A value Go can print: its numbers are number literals. -/
def Json.Nums : Json → Prop
  | .null => True
  | .bool _ => True
  | .num t => scanNum t = some (t, [])
  | .str _ => True
  | .arr l => Numss l
  | .obj l => Numsf l
def Numss : List Json → Prop
  | [] => True
  | v :: vs => v.Nums ∧ Numss vs
def Numsf : List (Str × Json) → Prop
  | [] => True
  | f :: fs => f.2.Nums ∧ Numsf fs
end

mutual
/-- The value with every invalid byte of its strings replaced by U+FFFD. -/
def Json.sane : Json → Json
  | .null => .null
  | .bool b => .bool b
  | .num t => .num t
  | .str s => .str (sanitize 0 s)
  | .arr l => .arr (sanes l)
  | .obj l => .obj (sanef l)
def sanes : List Json → List Json
  | [] => []
  | v :: vs => v.sane :: sanes vs
def sanef : List (Str × Json) → List (Str × Json)
  | [] => []
  | f :: fs => (sanitize 0 f.1, f.2.sane) :: sanef fs
end

mutual
theorem Json.WF.nums : ∀ {v : Json}, v.WF → v.Nums
  | .null, _ => trivial
  | .bool _, _ => trivial
  | .num _, h => h
  | .str _, _ => trivial
  | .arr _, h => WFs.nums h
  | .obj _, h => WFf.nums h
theorem WFs.nums : ∀ {l : List Json}, WFs l → Numss l
  | [], _ => trivial
  | _ :: _, h => ⟨Json.WF.nums h.1, WFs.nums h.2⟩
theorem WFf.nums : ∀ {l : List (Str × Json)}, WFf l → Numsf l
  | [], _ => trivial
  | _ :: _, h => ⟨Json.WF.nums h.2.1, WFf.nums h.2.2⟩
end

mutual
theorem Json.WF.sane : ∀ {v : Json}, v.WF → v.sane = v
  | .null, _ => rfl
  | .bool _, _ => rfl
  | .num _, _ => rfl
  | .str _, h => congrArg Json.str h
  | .arr _, h => congrArg Json.arr (WFs.sane h)
  | .obj _, h => congrArg Json.obj (WFf.sane h)
theorem WFs.sane : ∀ {l : List Json}, WFs l → sanes l = l
  | [], _ => rfl
  | _ :: _, h => by rw [sanes, Json.WF.sane h.1, WFs.sane h.2]
theorem WFf.sane : ∀ {l : List (Str × Json)}, WFf l → sanef l = l
  | [], _ => rfl
  | f :: _, h => by rw [sanef, show sanitize 0 f.1 = f.1 from h.1, Json.WF.sane h.2.1, WFf.sane h.2.2]
end

/-- Extending the text does not change what was read, unless a number at the very end is continued. -/
theorem parse_append_all (f : Nat) :
    (∀ f' p v r q, f ≤ f' → parseV f p = some (v, r) → (r ≠ [] ∨ v.isNum = false) →
      parseV f' (p ++ q) = some (v, r ++ q)) ∧
    (∀ f' p v r q, f ≤ f' → parseElems f p = some (v, r) → parseElems f' (p ++ q) = some (v, r ++ q)) ∧
    (∀ f' p v r q, f ≤ f' → parseFields f p = some (v, r) → parseFields f' (p ++ q) = some (v, r ++ q)) := by
  induction f with
  | zero => refine ⟨?_, ?_, ?_⟩ <;> intro f' p v r q _ h <;> simp [parseV, parseElems, parseFields] at h
  | succ f ih =>
    obtain ⟨ih1, ih2, ih3⟩ := ih
    refine ⟨?_, ?_, ?_⟩
    · intro f' p v r q hf h hg
      cases f' with
      | zero => omega
      | succ f' =>
      simp only [parseV] at h ⊢
      cases hs : skipWs p with
      | nil => rw [hs] at h; simp at h
      | cons c r0 =>
        rw [hs] at h
        rw [skipWs_append hs q]
        simp only at h ⊢
        by_cases c1 : c = 110
        · rw [if_pos c1] at h ⊢
          cases hw : word [117, 108, 108] r0 with
          | none => rw [hw] at h; simp at h
          | some x => rw [hw] at h; rw [word_append hw q]
                      simp only [Option.map_some, Option.some.injEq, Prod.mk.injEq] at h ⊢
                      exact ⟨h.1, by rw [h.2]⟩
        rw [if_neg c1] at h ⊢
        by_cases c2 : c = 116
        · rw [if_pos c2] at h ⊢
          cases hw : word [114, 117, 101] r0 with
          | none => rw [hw] at h; simp at h
          | some x => rw [hw] at h; rw [word_append hw q]
                      simp only [Option.map_some, Option.some.injEq, Prod.mk.injEq] at h ⊢
                      exact ⟨h.1, by rw [h.2]⟩
        rw [if_neg c2] at h ⊢
        by_cases c3 : c = 102
        · rw [if_pos c3] at h ⊢
          cases hw : word [97, 108, 115, 101] r0 with
          | none => rw [hw] at h; simp at h
          | some x => rw [hw] at h; rw [word_append hw q]
                      simp only [Option.map_some, Option.some.injEq, Prod.mk.injEq] at h ⊢
                      exact ⟨h.1, by rw [h.2]⟩
        rw [if_neg c3] at h ⊢
        by_cases c4 : c = 34
        · rw [if_pos c4] at h ⊢
          cases hw : parseStr r0 with
          | none => rw [hw] at h; simp at h
          | some x => obtain ⟨x1, x2⟩ := x
                      rw [hw] at h; rw [parseStr_append hw q]
                      simp only [Option.map_some, Option.some.injEq, Prod.mk.injEq] at h ⊢
                      exact ⟨h.1, by rw [h.2]⟩
        rw [if_neg c4] at h ⊢
        by_cases c5 : c = 91
        · rw [if_pos c5] at h ⊢
          cases hw : skipWs r0 with
          | nil => rw [hw] at h; simp at h
          | cons d r' =>
            rw [hw] at h; rw [skipWs_append hw q]
            simp only at h ⊢
            by_cases d1 : d = 93
            · rw [if_pos d1] at h ⊢
              simp only [Option.some.injEq, Prod.mk.injEq] at h ⊢
              exact ⟨h.1, by rw [h.2]⟩
            · rw [if_neg d1] at h ⊢
              cases he : parseElems f (d :: r') with
              | none => rw [he] at h; simp at h
              | some x =>
                obtain ⟨x1, x2⟩ := x
                rw [he] at h
                rw [show d :: (r' ++ q) = (d :: r') ++ q from rfl, ih2 f' _ _ _ q (by omega) he]
                simp only [Option.map_some, Option.some.injEq, Prod.mk.injEq] at h ⊢
                exact ⟨h.1, by rw [h.2]⟩
        rw [if_neg c5] at h ⊢
        by_cases c6 : c = 123
        · rw [if_pos c6] at h ⊢
          cases hw : skipWs r0 with
          | nil => rw [hw] at h; simp at h
          | cons d r' =>
            rw [hw] at h; rw [skipWs_append hw q]
            simp only at h ⊢
            by_cases d1 : d = 125
            · rw [if_pos d1] at h ⊢
              simp only [Option.some.injEq, Prod.mk.injEq] at h ⊢
              exact ⟨h.1, by rw [h.2]⟩
            · rw [if_neg d1] at h ⊢
              cases he : parseFields f (d :: r') with
              | none => rw [he] at h; simp at h
              | some x =>
                obtain ⟨x1, x2⟩ := x
                rw [he] at h
                rw [show d :: (r' ++ q) = (d :: r') ++ q from rfl, ih3 f' _ _ _ q (by omega) he]
                simp only [Option.map_some, Option.some.injEq, Prod.mk.injEq] at h ⊢
                exact ⟨h.1, by rw [h.2]⟩
        rw [if_neg c6] at h ⊢
        cases hn : scanNum (c :: r0) with
        | none => rw [hn] at h; simp at h
        | some x =>
          obtain ⟨x1, x2⟩ := x
          rw [hn] at h
          simp only [Option.map_some, Option.some.injEq, Prod.mk.injEq] at h
          obtain ⟨rfl, rfl⟩ := h
          cases x2 with
          | nil => simp [Json.isNum] at hg
          | cons y ys =>
            rw [show c :: (r0 ++ q) = (c :: r0) ++ q from rfl, scanNum_append hn q]
            rfl
    · intro f' p v r q hf h
      cases f' with
      | zero => omega
      | succ f' =>
      simp only [parseElems] at h ⊢
      cases hv : parseV f p with
      | none => rw [hv] at h; simp at h
      | some x =>
        obtain ⟨v1, r1⟩ := x
        rw [hv] at h
        simp only at h
        cases hsep : sepOf 93 r1 with
        | none => rw [hsep] at h; simp at h
        | some y =>
          obtain ⟨b, r2⟩ := y
          have hne : r1 ≠ [] := by rintro rfl; simp [sepOf, skipWs] at hsep
          rw [ih1 f' p v1 r1 q (by omega) hv (Or.inl hne)]
          simp only
          rw [sepOf_append hsep q]
          rw [hsep] at h
          cases b with
          | true =>
            simp only [Option.some.injEq, Prod.mk.injEq] at h ⊢
            exact ⟨h.1, by rw [h.2]⟩
          | false =>
            simp only at h ⊢
            cases he : parseElems f r2 with
            | none => rw [he] at h; simp at h
            | some w =>
              obtain ⟨w1, w2⟩ := w
              rw [he] at h
              rw [ih2 f' _ _ _ q (by omega) he]
              simp only [Option.map_some, Option.some.injEq, Prod.mk.injEq] at h ⊢
              exact ⟨h.1, by rw [h.2]⟩
    · intro f' p v r q hf h
      cases f' with
      | zero => omega
      | succ f' =>
      simp only [parseFields] at h ⊢
      cases hs : skipWs p with
      | nil => rw [hs] at h; simp at h
      | cons c r0 =>
        rw [hs] at h
        rw [skipWs_append hs q]
        simp only at h ⊢
        by_cases c1 : c = 34
        · rw [if_pos c1] at h ⊢
          cases hk : parseStr r0 with
          | none => rw [hk] at h; simp at h
          | some x =>
            obtain ⟨k, r1⟩ := x
            rw [hk] at h
            rw [parseStr_append hk q]
            simp only at h ⊢
            cases hs1 : skipWs r1 with
            | nil => rw [hs1] at h; simp at h
            | cons d r2 =>
              rw [hs1] at h
              rw [skipWs_append hs1 q]
              simp only at h ⊢
              by_cases d1 : d = 58
              · rw [if_pos d1] at h ⊢
                cases hv : parseV f r2 with
                | none => rw [hv] at h; simp at h
                | some y =>
                  obtain ⟨v1, r3⟩ := y
                  rw [hv] at h
                  simp only at h
                  cases hsep : sepOf 125 r3 with
                  | none => rw [hsep] at h; simp at h
                  | some w =>
                    obtain ⟨b, r4⟩ := w
                    have hne : r3 ≠ [] := by rintro rfl; simp [sepOf, skipWs] at hsep
                    rw [ih1 f' r2 v1 r3 q (by omega) hv (Or.inl hne)]
                    simp only
                    rw [sepOf_append hsep q]
                    rw [hsep] at h
                    cases b with
                    | true =>
                      simp only [Option.some.injEq, Prod.mk.injEq] at h ⊢
                      exact ⟨h.1, by rw [h.2]⟩
                    | false =>
                      simp only at h ⊢
                      cases he : parseFields f r4 with
                      | none => rw [he] at h; simp at h
                      | some w =>
                        obtain ⟨w1, w2⟩ := w
                        rw [he] at h
                        rw [ih3 f' _ _ _ q (by omega) he]
                        simp only [Option.map_some, Option.some.injEq, Prod.mk.injEq] at h ⊢
                        exact ⟨h.1, by rw [h.2]⟩
              · rw [if_neg d1] at h; simp at h
        · rw [if_neg c1] at h; simp at h

theorem parse_append {p : Str} {v : Json} {r : Str} (h : parse p = some (v, r)) (hg : r ≠ [] ∨ v.isNum = false)
    (q : Str) : parse (p ++ q) = some (v, r ++ q) :=
  (parse_append_all _).1 _ p v r q (by simp; omega) h hg

/-- May `rest` follow the value without changing how it reads? -/
def Follows (v : Json) (rest : Str) : Prop :=
  v.isNum = true → rest = [] ∨ ∃ c r, rest = c :: r ∧ stop c = true

theorem skipWs_of (c : Nat) (r : Str) (h : isSpace c = false) : skipWs (c :: r) = c :: r := by
  simp [skipWs, List.dropWhile_cons, h]

theorem text_head (v : Json) (h : v.Nums) : ∃ c r, v.text = c :: r ∧ isSpace c = false ∧ c ≠ 93 ∧ c ≠ 125 ∧ c ≠ 44 := by
  cases v with
  | null => exact ⟨_, _, rfl, rfl, by decide, by decide, by decide⟩
  | bool b => cases b <;> exact ⟨_, _, rfl, rfl, by decide, by decide, by decide⟩
  | num t =>
    simp only [Json.Nums] at h
    obtain ⟨c, p', rfl, hc⟩ := scanNum_head h
    refine ⟨c, p', by simp [Json.text], ?_⟩
    rcases hc with rfl | hc
    · decide
    · simp only [Dec.isDigit, Bool.and_eq_true, decide_eq_true_eq] at hc
      refine ⟨?_, by omega, by omega, by omega⟩
      simp only [isSpace, Bool.or_eq_false_iff, decide_eq_false_iff_not]
      omega
  | str s => exact ⟨34, encS true 0 s ++ [34], by simp [Json.text, quote], rfl, by decide, by decide, by decide⟩
  | arr l => cases l <;> exact ⟨91, _, by simp only [Json.text]; rfl, rfl, by decide, by decide, by decide⟩
  | obj l => cases l <;> exact ⟨123, _, by simp only [Json.text]; rfl, rfl, by decide, by decide, by decide⟩

theorem elems_head (vs : List Json) : ∃ c r, elems vs = c :: r ∧ stop c = true := by
  cases vs with
  | nil => exact ⟨93, [], by simp [elems], by decide⟩
  | cons v vs => exact ⟨44, _, by simp only [elems]; rfl, by decide⟩

theorem fields_head (fs : List (Str × Json)) : ∃ c r, fields fs = c :: r ∧ stop c = true := by
  cases fs with
  | nil => exact ⟨125, [], by simp [fields], by decide⟩
  | cons v vs => exact ⟨44, _, by simp only [fields]; rfl, by decide⟩

theorem quote_append (s rest : Str) : quote s ++ rest = 34 :: (encS true 0 s ++ 34 :: rest) := by
  simp [quote]

mutual
theorem parseV_text (v : Json) (hw : v.Nums) (rest : Str) (hfo : Follows v rest) (f : Nat)
    (hf : 2 * v.text.length < f) : parseV f (v.text ++ rest) = some (v.sane, rest) := by
  cases f with
  | zero => omega
  | succ f =>
  match v, hw, hfo, hf with
  | .null, _, _, _ =>
    simp only [Json.text, nullText, List.cons_append, List.nil_append, parseV]
    rw [skipWs_of _ _ rfl]
    simp [word, Json.sane]
  | .bool true, _, _, _ =>
    simp only [Json.text, trueText, List.cons_append, List.nil_append, parseV]
    rw [skipWs_of _ _ rfl]
    simp [word, Json.sane]
  | .bool false, _, _, _ =>
    simp only [Json.text, falseText, List.cons_append, List.nil_append, parseV]
    rw [skipWs_of _ _ rfl]
    simp [word, Json.sane]
  | .num t, hw, hfo, _ =>
    obtain ⟨c, r, ht, hsp, _⟩ := text_head (.num t) hw
    simp only [Json.Nums] at hw
    simp only [Json.text] at ht ⊢
    have hs : scanNum (t ++ rest) = some (t, rest) := by
      rcases hfo rfl with rfl | ⟨c', r', rfl, hst⟩
      · simpa using hw
      · exact scanNum_stop hw hst r'
    obtain ⟨c', p', ht', hc'⟩ := scanNum_head hw
    rw [ht] at ht'
    simp only [List.cons.injEq] at ht'
    obtain ⟨rfl, rfl⟩ := ht'
    rw [ht] at hs ⊢
    simp only [List.cons_append, parseV] at hs ⊢
    rw [skipWs_of _ _ hsp]
    have hne : c ≠ 110 ∧ c ≠ 116 ∧ c ≠ 102 ∧ c ≠ 34 ∧ c ≠ 91 ∧ c ≠ 123 := by
      rcases hc' with rfl | hc'
      · decide
      · simp only [Dec.isDigit, Bool.and_eq_true, decide_eq_true_eq] at hc'
        omega
    simp only [if_neg hne.1, if_neg hne.2.1, if_neg hne.2.2.1, if_neg hne.2.2.2.1, if_neg hne.2.2.2.2.1,
      if_neg hne.2.2.2.2.2, hs, Option.map_some, Json.sane]
  | .str s, _, _, _ =>
    simp only [Json.text, quote_append, parseV]
    rw [skipWs_of _ _ rfl]
    simp [parseStr_enc s rest, Json.sane]
  | .arr [], _, _, _ =>
    simp only [Json.text, List.cons_append, List.nil_append, parseV]
    rw [skipWs_of _ _ rfl]
    simp [skipWs_of 93 rest rfl, Json.sane, sanes]
  | .arr (v :: vs), hw, _, hf =>
    simp only [Json.Nums, Numss] at hw
    simp only [Json.text, List.length_cons, List.length_append] at hf
    simp only [Json.text, List.cons_append, List.append_assoc, parseV]
    rw [skipWs_of _ _ rfl]
    obtain ⟨c, r, ht, hsp, h93, _⟩ := text_head v hw.1
    have hsk : skipWs (v.text ++ (elems vs ++ rest)) = v.text ++ (elems vs ++ rest) := by
      rw [ht]; exact skipWs_of _ _ hsp
    simp only [show ¬ (91 = 110) by decide, show ¬ (91 = 116) by decide, show ¬ (91 = 102) by decide,
      show ¬ (91 = 34) by decide, if_false, if_true, hsk]
    have hp := parseElems_text v vs hw.1 hw.2 rest f (by omega)
    rw [ht] at hp ⊢
    simp only [List.cons_append] at hp ⊢
    rw [if_neg h93, hp]
    rfl
  | .obj [], _, _, _ =>
    simp only [Json.text, List.cons_append, List.nil_append, parseV]
    rw [skipWs_of _ _ rfl]
    simp [skipWs_of 125 rest rfl, Json.sane, sanef]
  | .obj (fl :: fs), hw, _, hf =>
    simp only [Json.Nums, Numsf] at hw
    simp only [Json.text, List.length_cons, List.length_append] at hf
    simp only [Json.text, List.cons_append, List.append_assoc, parseV]
    rw [skipWs_of _ _ rfl]
    have hsk : skipWs (quote fl.1 ++ 58 :: (fl.2.text ++ (fields fs ++ rest))) =
        quote fl.1 ++ 58 :: (fl.2.text ++ (fields fs ++ rest)) := by
      rw [quote_append]; exact skipWs_of _ _ rfl
    simp only [show ¬ (123 = 110) by decide, show ¬ (123 = 116) by decide, show ¬ (123 = 102) by decide,
      show ¬ (123 = 34) by decide, show ¬ (123 = 91) by decide, if_false, if_true, hsk]
    have hp := parseFields_text fl fs hw.1 hw.2 rest f (by omega)
    rw [quote_append] at hp ⊢
    simp only [if_neg (show ¬ (34 = 125) by decide), hp]
    rfl
termination_by f
theorem parseElems_text (v : Json) (vs : List Json) (h1 : v.Nums) (h2 : Numss vs) (rest : Str) (f : Nat)
    (hf : 2 * (v.text.length + (elems vs).length) + 1 < f) :
    parseElems f (v.text ++ (elems vs ++ rest)) = some (v.sane :: sanes vs, rest) := by
  cases f with
  | zero => omega
  | succ f =>
    obtain ⟨c, r, he, hst⟩ := elems_head vs
    simp only [parseElems]
    rw [parseV_text v h1 (elems vs ++ rest) (fun _ => Or.inr ⟨c, r ++ rest, by rw [he]; rfl, hst⟩) f (by omega)]
    simp only
    match vs, h2, hf with
    | [], _, _ => simp [elems, sanes, sepOf, skipWs_of 93 rest rfl]
    | w :: ws, h2, hf =>
      simp only [Numss] at h2
      simp only [elems, List.length_cons, List.length_append] at hf
      have : sepOf 93 (elems (w :: ws) ++ rest) = some (false, w.text ++ (elems ws ++ rest)) := by
        simp only [elems, List.cons_append, List.append_assoc, sepOf]
        rw [skipWs_of _ _ rfl]
        simp
      rw [this]
      simp only
      rw [parseElems_text w ws h2.1 h2.2 rest f (by omega)]
      rfl
termination_by f
theorem parseFields_text (fl : Str × Json) (fs : List (Str × Json)) (h1 : fl.2.Nums) (h2 : Numsf fs)
    (rest : Str) (f : Nat)
    (hf : 2 * ((quote fl.1).length + ((fl.2.text.length + (fields fs).length) + 1)) + 1 < f) :
    parseFields f (quote fl.1 ++ 58 :: (fl.2.text ++ (fields fs ++ rest))) = some ((sanitize 0 fl.1, fl.2.sane) :: sanef fs, rest) := by
  cases f with
  | zero => omega
  | succ f =>
    obtain ⟨c, r, he, hst⟩ := fields_head fs
    have hk := parseStr_enc fl.1 (58 :: (fl.2.text ++ (fields fs ++ rest)))
    rw [quote_append]
    simp only [parseFields]
    rw [skipWs_of _ _ rfl]
    simp only [if_true, hk]
    rw [skipWs_of _ _ rfl]
    simp only [if_true]
    rw [parseV_text fl.2 h1 (fields fs ++ rest) (fun _ => Or.inr ⟨c, r ++ rest, by rw [he]; rfl, hst⟩) f (by omega)]
    simp only
    match fs, h2, hf with
    | [], _, _ => simp [fields, sanef, sepOf, skipWs_of 125 rest rfl]
    | w :: ws, h2, hf =>
      simp only [Numsf] at h2
      simp only [fields, List.length_cons, List.length_append] at hf
      have : sepOf 125 (fields (w :: ws) ++ rest) =
          some (false, quote w.1 ++ 58 :: (w.2.text ++ (fields ws ++ rest))) := by
        simp only [fields, List.cons_append, List.append_assoc, sepOf]
        rw [skipWs_of _ _ rfl]
        simp
      rw [this]
      simp only
      rw [parseFields_text w ws h2.1 h2.2 rest f (by omega)]
      rfl
termination_by f
end

/-- Every value reads back from its text, whatever follows; invalid UTF-8 is replaced. -/
theorem parse_text_sane (v : Json) (hw : v.Nums) (rest : Str) (hfo : Follows v rest) :
    parse (v.text ++ rest) = some (v.sane, rest) := by
  unfold parse
  exact parseV_text v hw rest hfo _ (by simp; omega)

/-- Every valid value reads back from its text, whatever follows. -/
theorem parse_text (v : Json) (hw : v.WF) (rest : Str) (hfo : Follows v rest) :
    parse (v.text ++ rest) = some (v, rest) := by
  rw [parse_text_sane v hw.nums rest hfo, hw.sane]

/-- A text that has been cut short does not read, unless the value is a number. -/
theorem parse_torn (v : Json) (hw : v.Nums) (hn : v.isNum = false) (p q : Str) (hq : q ≠ []) (h : v.text = p ++ q) :
    parse p = none := by
  cases hp : parse p with
  | none => rfl
  | some x =>
    exfalso
    obtain ⟨w, r⟩ := x
    have h1 := parse_text_sane v hw [] (fun e => by rw [hn] at e; simp at e)
    rw [List.append_nil] at h1
    by_cases hg : r ≠ [] ∨ w.isNum = false
    · have h2 := parse_append hp hg q
      rw [← h, h1] at h2
      simp only [Option.some.injEq, Prod.mk.injEq] at h2
      have h3 := congrArg List.length h2.2
      rw [List.length_append, List.length_nil] at h3
      exact hq (List.eq_nil_of_length_eq_zero (by omega))
    · simp only [not_or, Decidable.not_not, Bool.not_eq_false] at hg
      -- a number: then the whole text starts with a number's first byte
      obtain ⟨rfl, hwn⟩ := hg
      cases w with
      | num t =>
        clear hwn
        unfold parse at hp
        simp only [parseV] at hp
        obtain ⟨c', r', e1, e2, _⟩ := text_head v hw
        cases p with
        | nil => simp [skipWs] at hp
        | cons x p =>
          rw [h, List.cons_append, List.cons.injEq] at e1
          obtain ⟨rfl, _⟩ := e1
          rw [skipWs_of _ _ e2] at hp
          simp only at hp
          cases v with
          | null =>
            simp only [Json.text, nullText, List.cons_append, List.cons.injEq] at h
            rw [← h.1] at hp; simp at hp
          | bool b =>
            cases b <;> simp only [Json.text, trueText, falseText, List.cons_append, List.cons.injEq] at h <;>
              rw [← h.1] at hp <;> simp at hp
          | num t => simp [Json.isNum] at hn
          | str s =>
            simp only [Json.text, quote, List.cons_append, List.cons.injEq] at h
            rw [← h.1] at hp; simp at hp
          | arr l =>
            have : 91 = x := by cases l <;> simp [Json.text] at h <;> exact h.1
            rw [← this] at hp
            cases hsk : skipWs p with
            | nil => simp [hsk] at hp
            | cons d r2 =>
              simp only [hsk] at hp
              by_cases hd : d = 93 <;> simp [hd] at hp
          | obj l =>
            have : 123 = x := by cases l <;> simp [Json.text] at h <;> exact h.1
            rw [← this] at hp
            cases hsk : skipWs p with
            | nil => simp [hsk] at hp
            | cons d r2 =>
              simp only [hsk] at hp
              by_cases hd : d = 125 <;> simp [hd] at hp
      | null => simp [Json.isNum] at hwn
      | bool b => simp [Json.isNum] at hwn
      | str b => simp [Json.isNum] at hwn
      | arr b => simp [Json.isNum] at hwn
      | obj b => simp [Json.isNum] at hwn

end RangeDB.Json

import Verif.Model.PgNotify
import Verif.Proof.Json
import Verif.Proof.Decimal

namespace RangeDB.Pgn

open RangeDB.Json

/-! ## Strings -/

theorem escByte_high {b : Nat} (h : ¬ b < 0x80) : escByte b = [b] := by
  unfold escByte
  rw [if_neg (by omega), if_neg (by omega), if_neg (by omega), if_neg (by omega), if_neg (by omega), if_neg (by omega),
    if_neg (by omega), if_neg (by omega)]

theorem escByte_len (b : Nat) : 1 ≤ (escByte b).length ∧ (escByte b).length ≤ 6 := by
  unfold escByte
  repeat' split
  all_goals simp

theorem strStep_esc (b : Nat) (h : b < 0x80) (x : Str) : strStep (escByte b ++ x) = some (some [b], x) := by
  unfold escByte
  split
  · rename_i hb; subst hb; simp [strStep]
  split
  · rename_i hb; subst hb; simp [strStep]
  split
  · rename_i hb; subst hb; simp [strStep]
  split
  · rename_i hb; subst hb; simp [strStep]
  split
  · rename_i hb; subst hb; simp [strStep]
  split
  · rename_i hb; subst hb; simp [strStep]
  split
  · rename_i hb; subst hb; simp [strStep]
  split
  · simp only [List.cons_append, List.nil_append, strStep]
    have e0 : hexVal 48 = some 0 := rfl
    simp only [hex4, e0, hexVal_hexDigit (b / 16) (by omega), hexVal_hexDigit (b % 16) (by omega)]
    have : 0 * 4096 + 0 * 256 + b / 16 * 16 + b % 16 = b := by omega
    rw [this]
    have h1 : btw 0xD800 0xDFFF b = false := by simp [btw]; omega
    simp [h1, runeBytes, h]
  · simp only [List.cons_append, List.nil_append, strStep]
    rw [if_neg (by omega), if_neg (by omega), if_neg (by omega), if_pos h]

/-- The bytes of a rune after the first are not ASCII. -/
theorem runeLen_high {b : Nat} {t : Str} {n : Nat} (h : runeLen b t = some (n + 1)) : ∀ c ∈ t.take n, ¬ c < 0x80 := by
  unfold runeLen at h
  rcases t with _ | ⟨b1, _ | ⟨b2, _ | ⟨b3, t⟩⟩⟩
  all_goals
    repeat' split at h
    all_goals cases h
    all_goals simp_all [btw]
    all_goals omega

theorem flatMap_high {t : Str} (h : ∀ c ∈ t, ¬ c < 0x80) : t.flatMap escByte = t := by
  induction t with
  | nil => rfl
  | cons c t ih =>
    rw [List.flatMap_cons, escByte_high (h c (by simp)), ih (fun d hd => h d (by simp [hd]))]
    rfl

theorem replacement_clash {b : Nat} {t : Str} (h : replacement ++ sanitize 0 t = b :: t) (hr : runeLen b t = none ∨ runeLen b t = some 0) :
    False := by
  have e : replacement = [0xEF, 0xBF, 0xBD] := rfl
  rw [e] at h
  rcases t with _ | ⟨b1, _ | ⟨b2, t⟩⟩
  · simp at h
  · simp at h
  · simp only [List.cons_append, List.nil_append, List.cons.injEq] at h
    obtain ⟨rfl, rfl, rfl, _⟩ := h
    have : runeLen 239 (191 :: 189 :: t) = some 3 := by simp [runeLen, btw]
    rw [this] at hr
    simp at hr

theorem strLoop_pg (n : Nat) : ∀ (s : Str), s.length ≤ n → Valid s → ∀ (fuel : Nat) (rest : Str),
    (s.flatMap escByte).length < fuel →
    strLoop fuel (s.flatMap escByte ++ 34 :: rest) = some (s, rest) := by
  induction n with
  | zero =>
    intro s hs _ fuel rest hf
    have : s = [] := by cases s <;> simp_all
    subst this
    cases fuel with
    | zero => simp at hf
    | succ fuel => simp [strLoop, strStep]
  | succ n ih =>
    intro s hs hv fuel rest hf
    cases fuel with
    | zero => simp at hf
    | succ fuel =>
      cases s with
      | nil => simp [strLoop, strStep]
      | cons b t =>
        simp only [List.length_cons] at hs
        rw [List.flatMap_cons, List.length_append] at hf
        have hl := escByte_len b
        by_cases hb : b < 0x80
        · have hvt : Valid t := by
            unfold Valid at hv ⊢
            simpa [sanitize, hb] using hv
          rw [List.flatMap_cons, List.append_assoc]
          simp only [strLoop, strStep_esc b hb]
          rw [ih t (by omega) hvt fuel rest (by omega)]
          rfl
        · unfold Valid at hv
          simp only [sanitize, hb, if_false] at hv
          cases hr : runeLen b t with
          | none => rw [hr] at hv; exact (replacement_clash hv (Or.inl hr)).elim
          | some m =>
            cases m with
            | zero => rw [hr] at hv; exact (replacement_clash hv (Or.inr hr)).elim
            | succ m =>
              rw [hr] at hv
              simp only [List.cons.injEq, true_and] at hv
              obtain ⟨_, h2, h3⟩ := runeLen_take hr
              rw [sanitize_copy m t h2] at hv
              have hvd : Valid (t.drop m) := by
                unfold Valid
                have e : t.take m ++ sanitize 0 (t.drop m) = t.take m ++ t.drop m := by rw [hv, List.take_append_drop]
                exact List.append_cancel_left e
              have ef : t.flatMap escByte = t.take m ++ (t.drop m).flatMap escByte := by
                conv => lhs; rw [← List.take_append_drop m t]
                rw [List.flatMap_append, flatMap_high (runeLen_high hr)]
              rw [ef, List.length_append] at hf
              rw [List.flatMap_cons, escByte_high hb, ef]
              simp only [List.cons_append, List.nil_append, List.append_assoc]
              simp only [strLoop, strStep_rune hb hr]
              rw [ih (t.drop m) (by simp; omega) hvd fuel rest (by omega)]
              simp

theorem parseStr_pg {s : Str} (hv : Valid s) (rest : Str) : parseStr (s.flatMap escByte ++ 34 :: rest) = some (s, rest) := by
  unfold parseStr
  exact strLoop_pg s.length s (Nat.le_refl _) hv _ rest (by simp; omega)

/-! ## The object -/

/-- The JSON value of a column. -/
def Col.value : Col → Json
  | .text s => .str s
  | .num n => .num (Dec.natText n)

/-- A column whose text is UTF-8. -/
def Col.Ok : Col → Prop
  | .text s => Valid s
  | .num _ => True

theorem parseV_col (c : Col) (h : c.Ok) (f : Nat) (d : Nat) (hd : stop d = true) (rest : Str) :
    parseV (f + 1) (c.json ++ d :: rest) = some (c.value, d :: rest) := by
  cases c with
  | text s =>
    show parseV (f + 1) (34 :: (s.flatMap escByte ++ [34]) ++ d :: rest) = _
    simp only [List.cons_append, List.append_assoc, List.nil_append]
    rw [parseV, skipWs_of 34 _ (by rfl)]
    simp only [parseStr_pg h]
    rfl
  | num n =>
    show parseV (f + 1) (Dec.natText n ++ d :: rest) = _
    obtain ⟨c, cs, hc, h1, h2⟩ := Dec.natText_head n
    have hs := scanNum_stop (scanNum_natText n) hd rest
    rw [hc] at hs
    rw [hc]
    simp only [List.cons_append] at hs ⊢
    rw [parseV, skipWs_of c _ (by simp [isSpace]; omega)]
    simp only
    rw [if_neg (by omega), if_neg (by omega), if_neg (by omega), if_neg (by omega), if_neg (by omega), if_neg (by omega), hs]
    simp [Col.value, hc]

theorem parseFields_cols (cs : List (Str × Col)) (hne : cs ≠ []) (hok : ∀ c ∈ cs, Valid c.1 ∧ c.2.Ok) (f : Nat)
    (hf : cs.length < f) (rest : Str) :
    parseFields f (fieldsText cs ++ rest) = some (cs.map (fun c => (c.1, c.2.value)), rest) := by
  induction cs generalizing f with
  | nil => exact absurd rfl hne
  | cons c cs ih =>
    obtain ⟨hk, hc⟩ := hok c (by simp)
    cases f with
    | zero => simp at hf
    | succ f =>
      cases f with
      | zero => simp at hf
      | succ f =>
        cases cs with
        | nil =>
          simp only [fieldsText, quote, List.cons_append, List.append_assoc, List.nil_append]
          rw [parseFields, skipWs_of 34 _ (by rfl)]
          simp only [if_true, parseStr_pg hk]
          rw [skipWs_of 58 _ (by rfl)]
          simp only [if_true]
          rw [parseV_col c.2 hc f 125 (by rfl)]
          simp only [sepOf, skipWs_of 125 _ (show isSpace 125 = false from rfl)]
          rfl
        | cons c' cs =>
          have ih' := ih (by simp) (fun x hx => hok x (by simp [hx])) (f + 1) (by simp at hf ⊢; omega)
          simp only [fieldsText, quote, List.cons_append, List.append_assoc, List.nil_append]
          rw [parseFields, skipWs_of 34 _ (by rfl)]
          simp only [if_true, parseStr_pg hk]
          rw [skipWs_of 58 _ (by rfl)]
          simp only [if_true]
          rw [parseV_col c.2 hc f 44 (by rfl)]
          simp only [sepOf, skipWs_of 44 _ (show isSpace 44 = false from rfl)]
          rw [if_neg (by omega), if_pos trivial]
          simp only [ih']
          rfl

theorem fieldsText_head (cs : List (Str × Col)) (hne : cs ≠ []) : ∃ t, fieldsText cs = 34 :: t := by
  cases cs with
  | nil => exact absurd rfl hne
  | cons c cs => cases cs <;> exact ⟨_, rfl⟩

theorem fieldsText_len (cs : List (Str × Col)) : cs.length ≤ (fieldsText cs).length := by
  induction cs with
  | nil => simp
  | cons c cs ih =>
    cases cs with
    | nil => simp [fieldsText, quote]
    | cons d cs =>
      simp only [fieldsText, List.length_append, List.length_cons] at ih ⊢
      omega

theorem parse_obj (cs : List (Str × Col)) (hne : cs ≠ []) (hok : ∀ c ∈ cs, Valid c.1 ∧ c.2.Ok) :
    parse (123 :: fieldsText cs) = some (.obj (cs.map (fun c => (c.1, c.2.value))), []) := by
  obtain ⟨t, ht⟩ := fieldsText_head cs hne
  have hp := parseFields_cols cs hne hok (2 * (123 :: fieldsText cs).length + 1)
    (by have := fieldsText_len cs; simp only [List.length_cons]; omega) []
  rw [List.append_nil] at hp
  unfold parse
  rw [show 2 * (123 :: fieldsText cs).length + 2 = (2 * (123 :: fieldsText cs).length + 1) + 1 from rfl, parseV,
    skipWs_of 123 _ (by rfl)]
  simp only
  rw [if_neg (by omega), if_neg (by omega), if_neg (by omega), if_neg (by omega), if_neg (by omega), if_pos trivial]
  rw [ht] at hp ⊢
  rw [skipWs_of 34 _ (by rfl)]
  simp only
  rw [if_neg (by omega), hp]
  rfl

/-! ## Sizes -/

theorem flatMap_len (s : Str) : s.length ≤ (s.flatMap escByte).length ∧ (s.flatMap escByte).length ≤ 6 * s.length := by
  induction s with
  | nil => simp
  | cons b s ih =>
    have := escByte_len b
    rw [List.flatMap_cons, List.length_append, List.length_cons]
    omega

theorem flatMap_plain {s : Str} (h : ∀ b ∈ s, 32 ≤ b ∧ b ≠ 34 ∧ b ≠ 92) : s.flatMap escByte = s := by
  induction s with
  | nil => rfl
  | cons b s ih =>
    have hb := h b (by simp)
    rw [List.flatMap_cons, ih (fun c hc => h c (by simp [hc]))]
    unfold escByte
    rw [if_neg (by omega), if_neg (by omega), if_neg (by omega), if_neg (by omega), if_neg (by omega), if_neg (by omega),
      if_neg (by omega), if_neg (by omega)]
    rfl

theorem number_len (n : Nat) (rs : List Record) : (number n rs).length = rs.length := by
  induction rs generalizing n with
  | nil => rfl
  | cons r rs ih => simp [number, ih]

end RangeDB.Pgn

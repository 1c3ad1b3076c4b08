import Verif.Spec.Indent

/-!
# The scanner accepts exactly the literals of JSON
-/

namespace RangeDB.Ind

open RangeDB.Json (isSpace)

/-- The scanner accepts the rest of a text. -/
def acc (s : Scan) (t : Str) : Prop := ∃ s', scanAll s t = some s' ∧ s'.eof = true

theorem acc_valid {t : Str} : valid t = true ↔ acc Scan.start t := by
  unfold valid acc
  cases scanAll Scan.start t <;> simp

theorem acc_cons {s : Scan} {c : Nat} {t : Str} : acc s (c :: t) ↔ ∃ s' v, step s c = some (s', v) ∧ acc s' t := by
  simp only [acc, scanAll]
  cases hs : step s c with
  | none => simp
  | some p => obtain ⟨s', v⟩ := p; simp

theorem acc_nil {s : Scan} : acc s [] ↔ s.eof = true := by simp [acc, scanAll]

/-- `bare` within a literal. -/
def bareSt : St → Str → Str
  | .inString | .escU | .escU1 | .escU12 | .escU123 => bareString
  | .esc => bareEscaped
  | _ => bare

theorem bare_len (t : Str) : (bare t).length ≤ t.length ∧ (bareString t).length ≤ t.length ∧
    (bareEscaped t).length ≤ t.length := by
  induction t with
  | nil => simp [bare, bareString, bareEscaped]
  | cons c t ih =>
    obtain ⟨h1, h2, h3⟩ := ih
    refine ⟨?_, ?_, ?_⟩
    · unfold bare; repeat' split
      all_goals simp only [List.length_cons]; omega
    · unfold bareString; repeat' split
      all_goals simp only [List.length_cons]; omega
    · unfold bareEscaped; simp only [List.length_cons]; omega

theorem bare_head {c : Nat} {t : Str} (h : bare (c :: t) = c :: t) : white c = false := by
  cases hw : white c with
  | false => rfl
  | true =>
    exfalso
    simp only [bare, hw, if_true] at h
    have := (bare_len t).1
    rw [h, List.length_cons] at this
    omega

theorem bare_tail {c : Nat} {t : Str} (h : bare (c :: t) = c :: t) (hc : c ≠ 34) : bare t = t := by
  have := bare_head h
  simpa [bare, this, hc] using h

theorem bareString_tail {c : Nat} {t : Str} (h : bareString (c :: t) = c :: t) :
    (c = 34 → bare t = t) ∧ (c = 92 → bareEscaped t = t) ∧ (c ≠ 34 → c ≠ 92 → bareString t = t) := by
  unfold bareString at h
  refine ⟨fun hc => ?_, fun hc => ?_, fun h1 h2 => ?_⟩
  · simpa [hc] using h
  · subst hc; simpa using h
  · simpa [h1, h2] using h

/-- What completes a literal in each state of the scanner. -/
def L : St → Str → Prop
  | .inString, t => Chars t
  | .esc, t => Chars (92 :: t)
  | .escU, t => Chars (92 :: 117 :: t)
  | .escU1, t => ∀ a, IsHex a → Chars (92 :: 117 :: a :: t)
  | .escU12, t => ∀ a b, IsHex a → IsHex b → Chars (92 :: 117 :: a :: b :: t)
  | .escU123, t => ∀ a b c, IsHex a → IsHex b → IsHex c → Chars (92 :: 117 :: a :: b :: c :: t)
  | .endValue, t => t = []
  | .neg, t => ∃ i f e, t = i ++ (f ++ e) ∧ Whole i ∧ Fraction f ∧ Exponent e
  | .one, t => ∃ ds f e, t = ds ++ (f ++ e) ∧ (∀ d ∈ ds, IsDigit d) ∧ Fraction f ∧ Exponent e
  | .zero, t => ∃ f e, t = f ++ e ∧ Fraction f ∧ Exponent e
  | .dot, t => ∃ ds e, t = ds ++ e ∧ Digits ds ∧ Exponent e
  | .dot0, t => ∃ ds e, t = ds ++ e ∧ (∀ d ∈ ds, IsDigit d) ∧ Exponent e
  | .exp, t => ∃ s ds, t = s ++ ds ∧ (s = [] ∨ s = [43] ∨ s = [45]) ∧ Digits ds
  | .expSign, t => Digits t
  | .exp0, t => ∀ d ∈ t, IsDigit d
  | .t, t => t = [114, 117, 101]
  | .tr, t => t = [117, 101]
  | .tru, t => t = [101]
  | .f, t => t = [97, 108, 115, 101]
  | .fa, t => t = [108, 115, 101]
  | .fal, t => t = [115, 101]
  | .fals, t => t = [101]
  | .n, t => t = [117, 108, 108]
  | .nu, t => t = [108, 108]
  | .nul, t => t = [108]
  | _, _ => False

/-- The states within a literal. -/
def St.lit : St → Bool
  | .beginValueOrEmpty | .beginValue | .beginStringOrEmpty | .beginString | .endTop => false
  | _ => true

theorem white_space (c : Nat) : isSpace c = white c := by
  simp only [isSpace, white]

theorem no_more {c : Nat} (h : white c = false) : endValue [] c = none := by
  simp [endValue, white_space, h]

theorem frac_nil : Fraction [] := .inl rfl
theorem expo_nil : Exponent [] := .inl rfl

theorem lit_nil {st : St} (h : acc ⟨st, []⟩ []) (hl : st.lit = true) : L st [] := by
  have h := acc_nil.1 h
  cases st
  case one => exact ⟨[], [], [], rfl, by simp, frac_nil, expo_nil⟩
  case zero => exact ⟨[], [], rfl, frac_nil, expo_nil⟩
  case dot0 => exact ⟨[], [], rfl, by simp, expo_nil⟩
  case exp0 => simp [L]
  case endValue => rfl
  all_goals first
    | (simp [St.lit] at hl; done)
    | (exfalso; simp [Scan.eof, step, go, Digit, Hex] at h; done)

theorem hex_iff (c : Nat) : Hex c ↔ IsHex c := by
  unfold Hex IsHex IsDigit Digit; omega

theorem digits_cons {c : Nat} {ds : Str} (h : IsDigit c) (hs : ∀ d ∈ ds, IsDigit d) : ∀ d ∈ c :: ds, IsDigit d := by
  intro d hd
  rcases List.mem_cons.mp hd with rfl | hd
  · exact h
  · exact hs d hd

theorem lit_cons {st st' : St} {c : Nat} {t : Str} (hl : st.lit = true)
    (hs : step ⟨st, []⟩ c = some (⟨st', []⟩, .cont)) (ht : L st' t) : L st (c :: t) := by
  have hend : endValue [] c ≠ some (⟨st', []⟩, .cont) := by
    simp only [endValue]; split <;> simp
  cases st
  case beginValueOrEmpty => simp [St.lit] at hl
  case beginValue => simp [St.lit] at hl
  case beginStringOrEmpty => simp [St.lit] at hl
  case beginString => simp [St.lit] at hl
  case endTop => simp [St.lit] at hl
  case endValue => exact absurd hs hend
  case inString =>
    simp only [step, go] at hs
    split at hs
    · rename_i h; simp only [Option.some.injEq, Prod.mk.injEq, Scan.mk.injEq, and_true] at hs; subst hs; subst h
      simp only [L] at ht; subst ht; exact .close
    · split at hs
      · rename_i h; simp only [Option.some.injEq, Prod.mk.injEq, Scan.mk.injEq, and_true] at hs; subst hs; subst h; exact ht
      · split at hs
        · rename_i h1 h2 h3
          simp only [Option.some.injEq, Prod.mk.injEq, Scan.mk.injEq, and_true] at hs; subst hs
          exact .plain h3 h1 h2 ht
        · simp at hs
  case esc =>
    simp only [step, go] at hs
    split at hs
    · rename_i h; simp only [Option.some.injEq, Prod.mk.injEq, Scan.mk.injEq, and_true] at hs; subst hs
      exact .short (by simp; omega) ht
    · split at hs
      · rename_i h; simp only [Option.some.injEq, Prod.mk.injEq, Scan.mk.injEq, and_true] at hs; subst hs; subst h; exact ht
      · simp at hs
  case escU =>
    simp only [step, go] at hs
    split at hs
    · rename_i h; simp only [Option.some.injEq, Prod.mk.injEq, Scan.mk.injEq, and_true] at hs; subst hs
      exact ht c ((hex_iff c).1 h)
    · simp at hs
  case escU1 =>
    simp only [step, go] at hs
    split at hs
    · rename_i h; simp only [Option.some.injEq, Prod.mk.injEq, Scan.mk.injEq, and_true] at hs; subst hs
      exact fun a ha => ht a c ha ((hex_iff c).1 h)
    · simp at hs
  case escU12 =>
    simp only [step, go] at hs
    split at hs
    · rename_i h; simp only [Option.some.injEq, Prod.mk.injEq, Scan.mk.injEq, and_true] at hs; subst hs
      exact fun a b ha hb => ht a b c ha hb ((hex_iff c).1 h)
    · simp at hs
  case escU123 =>
    simp only [step, go] at hs
    split at hs
    · rename_i h; simp only [Option.some.injEq, Prod.mk.injEq, Scan.mk.injEq, and_true] at hs; subst hs
      exact fun a b x ha hb hx => .code ha hb hx ((hex_iff c).1 h) ht
    · simp at hs
  case neg =>
    simp only [step, go] at hs
    split at hs
    · rename_i h; simp only [Option.some.injEq, Prod.mk.injEq, Scan.mk.injEq, and_true] at hs; subst hs; subst h
      obtain ⟨f, e, rfl, hf, he⟩ := ht
      exact ⟨[48], f, e, rfl, .inl rfl, hf, he⟩
    · split at hs
      · rename_i h; simp only [Option.some.injEq, Prod.mk.injEq, Scan.mk.injEq, and_true] at hs; subst hs
        obtain ⟨ds, f, e, rfl, hd, hf, he⟩ := ht
        exact ⟨c :: ds, f, e, rfl, .inr ⟨c, ds, rfl, h.1, h.2, hd⟩, hf, he⟩
      · simp at hs
  case one =>
    simp only [step] at hs
    split at hs
    · rename_i h; simp only [Option.some.injEq, Prod.mk.injEq, Scan.mk.injEq, and_true] at hs; subst hs
      obtain ⟨ds, f, e, rfl, hd, hf, he⟩ := ht
      exact ⟨c :: ds, f, e, rfl, digits_cons h hd, hf, he⟩
    · split at hs
      · rename_i h; simp only [Option.some.injEq, Prod.mk.injEq, Scan.mk.injEq, and_true] at hs; subst hs; subst h
        obtain ⟨ds, e, rfl, hd, he⟩ := ht
        exact ⟨[], 46 :: ds, e, rfl, by simp, .inr ⟨ds, rfl, hd⟩, he⟩
      · split at hs
        · rename_i h; simp only [Option.some.injEq, Prod.mk.injEq, Scan.mk.injEq, and_true] at hs; subst hs
          obtain ⟨s, ds, rfl, h1, h2⟩ := ht
          exact ⟨[], [], c :: (s ++ ds), rfl, by simp, frac_nil, .inr ⟨c, s, ds, rfl, h, h1, h2⟩⟩
        · exact absurd hs hend
  case zero =>
    simp only [step] at hs
    split at hs
    · rename_i h; simp only [Option.some.injEq, Prod.mk.injEq, Scan.mk.injEq, and_true] at hs; subst hs; subst h
      obtain ⟨ds, e, rfl, hd, he⟩ := ht
      exact ⟨46 :: ds, e, rfl, .inr ⟨ds, rfl, hd⟩, he⟩
    · split at hs
      · rename_i h; simp only [Option.some.injEq, Prod.mk.injEq, Scan.mk.injEq, and_true] at hs; subst hs
        obtain ⟨s, ds, rfl, h1, h2⟩ := ht
        exact ⟨[], c :: (s ++ ds), rfl, frac_nil, .inr ⟨c, s, ds, rfl, h, h1, h2⟩⟩
      · exact absurd hs hend
  case dot =>
    simp only [step, go] at hs
    split at hs
    · rename_i h; simp only [Option.some.injEq, Prod.mk.injEq, Scan.mk.injEq, and_true] at hs; subst hs
      obtain ⟨ds, e, rfl, hd, he⟩ := ht
      exact ⟨c :: ds, e, rfl, ⟨by simp, digits_cons h hd⟩, he⟩
    · simp at hs
  case dot0 =>
    simp only [step] at hs
    split at hs
    · rename_i h; simp only [Option.some.injEq, Prod.mk.injEq, Scan.mk.injEq, and_true] at hs; subst hs
      obtain ⟨ds, e, rfl, hd, he⟩ := ht
      exact ⟨c :: ds, e, rfl, digits_cons h hd, he⟩
    · split at hs
      · rename_i h; simp only [Option.some.injEq, Prod.mk.injEq, Scan.mk.injEq, and_true] at hs; subst hs
        obtain ⟨s, ds, rfl, h1, h2⟩ := ht
        exact ⟨[], c :: (s ++ ds), rfl, by simp, .inr ⟨c, s, ds, rfl, h, h1, h2⟩⟩
      · exact absurd hs hend
  case exp =>
    simp only [step, go] at hs
    split at hs
    · rename_i h; simp only [Option.some.injEq, Prod.mk.injEq, Scan.mk.injEq, and_true] at hs; subst hs
      exact ⟨[c], t, rfl, by rcases h with rfl | rfl <;> simp, ht⟩
    · split at hs
      · rename_i h; simp only [Option.some.injEq, Prod.mk.injEq, Scan.mk.injEq, and_true] at hs; subst hs
        exact ⟨[], c :: t, rfl, .inl rfl, by simp, digits_cons h ht⟩
      · simp at hs
  case expSign =>
    simp only [step, go] at hs
    split at hs
    · rename_i h; simp only [Option.some.injEq, Prod.mk.injEq, Scan.mk.injEq, and_true] at hs; subst hs
      exact ⟨by simp, digits_cons h ht⟩
    · simp at hs
  case exp0 =>
    simp only [step] at hs
    split at hs
    · rename_i h; simp only [Option.some.injEq, Prod.mk.injEq, Scan.mk.injEq, and_true] at hs; subst hs
      exact digits_cons h ht
    · exact absurd hs hend
  all_goals
    simp only [step, go] at hs
    split at hs
    · rename_i h; simp only [Option.some.injEq, Prod.mk.injEq, Scan.mk.injEq, and_true] at hs; subst hs; subst h
      simp only [L] at ht ⊢
      rw [ht]
    · simp at hs

/-- A step within a literal without white space. -/
theorem lit_step {st : St} {c : Nat} {t : Str} {s' : Scan} {v : Code} (hl : st.lit = true)
    (hs : step ⟨st, []⟩ c = some (s', v)) (hb : bareSt st (c :: t) = c :: t) :
    ∃ st', s' = ⟨st', []⟩ ∧ v = .cont ∧ st'.lit = true ∧ bareSt st' t = t := by
  cases st
  case beginValueOrEmpty => simp [St.lit] at hl
  case beginValue => simp [St.lit] at hl
  case beginStringOrEmpty => simp [St.lit] at hl
  case beginString => simp [St.lit] at hl
  case endTop => simp [St.lit] at hl
  case endValue => exact absurd hs (by simp [step, no_more (bare_head hb)])
  case inString =>
    obtain ⟨b1, b2, b3⟩ := bareString_tail hb
    simp only [step, go] at hs
    split at hs
    · rename_i h; simp at hs; obtain ⟨rfl, rfl⟩ := hs; exact ⟨_, rfl, rfl, rfl, b1 h⟩
    · split at hs
      · rename_i h; simp at hs; obtain ⟨rfl, rfl⟩ := hs; exact ⟨_, rfl, rfl, rfl, b2 h⟩
      · rename_i h1 h2
        split at hs
        · simp at hs; obtain ⟨rfl, rfl⟩ := hs; exact ⟨_, rfl, rfl, rfl, b3 h1 h2⟩
        · simp at hs
  case esc =>
    have hb' : bareString t = t := by simpa [bareSt, bareEscaped] using hb
    simp only [step, go] at hs
    repeat' split at hs
    all_goals (simp at hs; try (obtain ⟨rfl, rfl⟩ := hs; exact ⟨_, rfl, rfl, rfl, hb'⟩))
  case escU | escU1 | escU12 | escU123 =>
    obtain ⟨b1, b2, b3⟩ := bareString_tail hb
    simp only [step, go] at hs
    split at hs
    · rename_i h
      simp at hs; obtain ⟨rfl, rfl⟩ := hs
      refine ⟨_, rfl, rfl, rfl, b3 ?_ ?_⟩ <;> (unfold Hex Digit at h; omega)
    · simp at hs
  all_goals
    have hw := no_more (bare_head hb)
    simp only [step, go, hw] at hs
    repeat' split at hs
    all_goals first
      | (simp at hs; done)
      | (rename_i h
         simp at hs; obtain ⟨rfl, rfl⟩ := hs
         refine ⟨_, rfl, rfl, rfl, bare_tail hb ?_⟩
         first
           | (unfold Digit at h; omega)
           | omega)

theorem acc_lit (t : Str) : ∀ st : St, st.lit = true → acc ⟨st, []⟩ t → bareSt st t = t → L st t := by
  induction t with
  | nil => intro st hl h _; exact lit_nil h hl
  | cons c t ih =>
    intro st hl h hb
    obtain ⟨s', v, hs, h'⟩ := acc_cons.1 h
    obtain ⟨st', rfl, rfl, hl', hb'⟩ := lit_step hl hs hb
    exact lit_cons hl hs (ih st' hl' h' hb')

/-! ### And back -/

/-- The scanner completes a literal with `t`. -/
def Done (st : St) (t : Str) : Prop := acc ⟨st, []⟩ t ∧ bareSt st t = t

theorem done_cons {st st' : St} {c : Nat} {t : Str} (hl : st.lit = true) (hs : step ⟨st, []⟩ c = some (⟨st', []⟩, .cont))
    (h : Done st' t) (hb : bareSt st' t = t → bareSt st (c :: t) = c :: t) : Done st (c :: t) :=
  ⟨acc_cons.2 ⟨_, _, hs, h.1⟩, hb h.2⟩

theorem bare_keep {c : Nat} {t : Str} (hc : c ≠ 34 ∧ white c = false) (h : bare t = t) : bare (c :: t) = c :: t := by
  simp [bare, hc.1, hc.2, h]

theorem str_keep {c : Nat} {t : Str} (h1 : c ≠ 34) (h2 : c ≠ 92) (h : bareString t = t) : bareString (c :: t) = c :: t := by
  simp [bareString, h1, h2, h]

theorem hex_quiet {c : Nat} (h : IsHex c) : c ≠ 34 ∧ c ≠ 92 := by unfold IsHex IsDigit at h; omega

theorem done_end : Done .endValue [] := ⟨acc_nil.2 rfl, rfl⟩

theorem done_chars {t : Str} (h : Chars t) : Done .inString t := by
  induction h with
  | close => exact done_cons rfl rfl done_end (fun _ => rfl)
  | plain h1 h2 h3 _ ih =>
    exact done_cons rfl (by simp [step, go, h1, h2, h3]) ih (fun h => str_keep h2 h3 h)
  | @short c t h1 _ ih =>
    refine done_cons (st' := .esc) rfl rfl (done_cons (st' := .inString) rfl ?_ ih ?_) ?_
    · simp at h1
      simp only [step]
      rw [if_pos (by omega)]
    · intro h; simp only [bareSt] at h ⊢; simp [bareEscaped, h]
    · intro h; simp only [bareSt] at h ⊢; simp [bareString, h]
  | @code a b c d t ha hb hc hd _ ih =>
    refine done_cons (st' := .esc) rfl rfl (done_cons (st' := .escU) rfl rfl (done_cons (st' := .escU1) rfl
      (by simp only [step, go]; rw [if_pos ((hex_iff _).2 ha)]) (done_cons (st' := .escU12) rfl
      (by simp only [step, go]; rw [if_pos ((hex_iff _).2 hb)]) (done_cons (st' := .escU123) rfl
      (by simp only [step, go]; rw [if_pos ((hex_iff _).2 hc)]) (done_cons (st' := .inString) rfl
      (by simp only [step, go]; rw [if_pos ((hex_iff _).2 hd)]) ih ?_) ?_) ?_) ?_) ?_) ?_
    · exact str_keep (hex_quiet hd).1 (hex_quiet hd).2
    · exact str_keep (hex_quiet hc).1 (hex_quiet hc).2
    · exact str_keep (hex_quiet hb).1 (hex_quiet hb).2
    · exact str_keep (hex_quiet ha).1 (hex_quiet ha).2
    · intro h; simp only [bareSt] at h ⊢; simp [bareEscaped, h]
    · intro h; simp only [bareSt] at h ⊢; simp [bareString, h]

theorem digit_plain {c : Nat} (h : IsDigit c) : c ≠ 34 ∧ white c = false := by
  unfold IsDigit at h
  refine ⟨by omega, ?_⟩
  simp only [white, Bool.or_eq_false_iff, decide_eq_false_iff_not]; omega

theorem done_digits {st : St} (hst : st = .one ∨ st = .dot0 ∨ st = .exp0) {ds u : Str} (h : ∀ d ∈ ds, IsDigit d)
    (hu : Done st u) : Done st (ds ++ u) := by
  induction ds with
  | nil => exact hu
  | cons d ds ih =>
    have hd := h d (by simp)
    refine done_cons (st' := st) ?_ ?_ (ih (fun x hx => h x (by simp [hx]))) ?_
    · rcases hst with rfl | rfl | rfl <;> rfl
    · rcases hst with rfl | rfl | rfl <;> (simp only [step]; rw [if_pos (show Digit d from hd)])
    · intro hb
      rcases hst with rfl | rfl | rfl <;> exact bare_keep (digit_plain hd) hb

theorem done_exp0 {ds : Str} (h : ∀ d ∈ ds, IsDigit d) : Done .exp0 ds := by
  have := done_digits (u := []) (.inr (.inr rfl)) h ⟨acc_nil.2 rfl, rfl⟩
  rwa [List.append_nil] at this

/-- What may follow the digits of a number. -/
theorem done_expo {st : St} (hst : st = .one ∨ st = .dot0 ∨ st = .zero) {e : Str} (h : Exponent e) : Done st e := by
  rcases h with rfl | ⟨c, s, ds, rfl, hc, hs, hne, hd⟩
  · rcases hst with rfl | rfl | rfl <;> exact ⟨acc_nil.2 rfl, rfl⟩
  · have hsigned : Done .exp (s ++ ds) := by
      cases ds with
      | nil => exact absurd rfl hne
      | cons d ds =>
        have hdd := hd d (by simp)
        have h0 := done_exp0 (fun x hx => hd x (List.mem_cons_of_mem _ hx))
        rcases hs with rfl | rfl | rfl
        · refine done_cons (st' := .exp0) rfl ?_ h0 (bare_keep (digit_plain hdd))
          have hdd' := hdd
          unfold IsDigit at hdd'
          simp only [step, go]
          rw [if_neg (by omega), if_pos (show Digit d from hdd)]
        all_goals
          refine done_cons (st' := .expSign) rfl rfl (done_cons (st' := .exp0) rfl ?_ h0 (bare_keep (digit_plain hdd))) (bare_keep (by decide))
          simp only [step, go]
          rw [if_pos (show Digit d from hdd)]
    refine done_cons (st' := .exp) ?_ ?_ hsigned ?_
    · rcases hst with rfl | rfl | rfl <;> rfl
    · rcases hst with rfl | rfl | rfl <;> rcases hc with rfl | rfl <;> rfl
    · intro hb
      have hb' : bare (s ++ ds) = s ++ ds := hb
      rcases hst with rfl | rfl | rfl <;> rcases hc with rfl | rfl <;> exact bare_keep (by decide) hb'

theorem done_frac {st : St} (hst : st = .one ∨ st = .zero) {f e : Str} (hf : Fraction f) (he : Exponent e) : Done st (f ++ e) := by
  rcases hf with rfl | ⟨ds, rfl, hne, hd⟩
  · exact done_expo (by rcases hst with rfl | rfl <;> simp) he
  · have hdot : Done .dot (ds ++ e) := by
      cases ds with
      | nil => exact absurd rfl hne
      | cons d ds =>
        have hdd := hd d (by simp)
        refine done_cons (st' := .dot0) rfl ?_ (done_digits (.inr (.inl rfl)) (fun x hx => hd x (List.mem_cons_of_mem _ hx))
          (done_expo (.inr (.inl rfl)) he)) (bare_keep (digit_plain hdd))
        simp only [step, go]
        rw [if_pos (show Digit d from hdd)]
    refine done_cons (st' := .dot) ?_ ?_ hdot ?_
    · rcases hst with rfl | rfl <;> rfl
    · rcases hst with rfl | rfl <;> rfl
    · intro hb
      have hb' : bare (ds ++ e) = ds ++ e := hb
      rcases hst with rfl | rfl <;> exact bare_keep (by decide) hb'

/-- A number behind its sign: its first byte, and the rest. -/
theorem done_whole {i f e : Str} (hi : Whole i) (hf : Fraction f) (he : Exponent e) :
    ∃ d t st, i ++ (f ++ e) = d :: t ∧ Done st t ∧ st.lit = true ∧ bareSt st = bare ∧ IsDigit d ∧
      (∀ S, step ⟨.beginValue, S⟩ d = some (⟨st, S⟩, .beginLiteral)) ∧ step ⟨.neg, []⟩ d = some (⟨st, []⟩, .cont) := by
  rcases hi with rfl | ⟨d, ds, rfl, h1, h2, h3⟩
  · exact ⟨48, f ++ e, .zero, rfl, done_frac (.inr rfl) hf he, rfl, rfl, ⟨by decide, by decide⟩, fun _ => rfl, rfl⟩
  · refine ⟨d, ds ++ (f ++ e), .one, rfl, done_digits (.inl rfl) h3 (done_frac (.inl rfl) hf he), rfl, rfl, ⟨by omega, h2⟩, ?_, ?_⟩
    · intro S
      have hsp : isSpace d = false := by rw [white_space]; exact (digit_plain ⟨by omega, h2⟩).2
      simp only [step, beginValue, hsp, Bool.false_eq_true, if_false]
      repeat rw [if_neg (by omega)]
      rw [if_pos ⟨h1, h2⟩]
    · simp only [step, go]
      rw [if_neg (by omega), if_pos ⟨h1, h2⟩]

/-- A string, a number or a word for the scanner: a valid text without white space outside of strings that is no array and no
object. -/
def ScanLeaf (l : Str) : Prop := valid l = true ∧ bare l = l ∧ l.head? ≠ some 91 ∧ l.head? ≠ some 123

theorem begin_done {c : Nat} {t : Str} {st : St} (hs : step Scan.start c = some (⟨st, []⟩, .beginLiteral)) (h : Done st t)
    (hb : bareSt st t = t → bare (c :: t) = c :: t) (h1 : c ≠ 91) (h2 : c ≠ 123) : ScanLeaf (c :: t) :=
  ⟨acc_valid.2 (acc_cons.2 ⟨_, _, hs, h.1⟩), hb h.2, by simpa using h1, by simpa using h2⟩

theorem done_word {st : St} {t : Str} (h : acc ⟨st, []⟩ t) (hb : bareSt st t = t) : Done st t := ⟨h, hb⟩

/-- The scanner accepts exactly the literals. -/
theorem leaf_iff (l : Str) : IsLeaf l ↔ ScanLeaf l := by
  constructor
  · rintro (⟨t, rfl, h⟩ | ⟨s, i, f, e, rfl, hs, hi, hf, he⟩ | rfl | rfl | rfl)
    · exact begin_done (st := .inString) rfl (done_chars h) (fun h => by simp only [bareSt] at h; simp [bare, white, h]) (by decide) (by decide)
    · obtain ⟨d, t, st, e1, e2, e3, e4, e5, e6, e7⟩ := done_whole hi hf he
      rw [e1]
      have hd := e5
      unfold IsDigit at hd
      rcases hs with rfl | rfl
      · exact begin_done (e6 []) e2 (fun h => bare_keep (digit_plain e5) (by rw [e4] at h; exact h)) (by omega) (by omega)
      · have h2 : Done .neg (d :: t) := done_cons rfl e7 e2 (fun h => bare_keep (digit_plain e5) (by rw [e4] at h; exact h))
        exact begin_done (st := .neg) rfl h2 (fun h => bare_keep (by decide) h) (by decide) (by decide)
    all_goals exact ⟨by decide, by decide, by decide, by decide⟩
  · rintro ⟨hv, hb, h1, h2⟩
    cases l with
    | nil => exact absurd hv (by decide)
    | cons c t =>
      obtain ⟨s', v, hs, h'⟩ := acc_cons.1 (acc_valid.1 hv)
      have hw := bare_head hb
      simp only [List.head?_cons, ne_eq, Option.some.injEq] at h1 h2
      simp only [Scan.start, step, beginValue, white_space, hw, h1, h2, Bool.false_eq_true, if_false] at hs
      split at hs
      · rename_i h; simp at hs; obtain ⟨rfl, rfl⟩ := hs; subst h
        have hb' : bareString t = t := by simpa [bare, white] using hb
        exact .inl ⟨t, rfl, acc_lit t .inString rfl h' hb'⟩
      · rename_i h34
        have hbt := bare_tail hb h34
        split at hs
        · rename_i h; simp at hs; obtain ⟨rfl, rfl⟩ := hs; subst h
          obtain ⟨i, f, e, rfl, hi, hf, he⟩ := acc_lit t .neg rfl h' hbt
          exact .inr (.inl ⟨[45], i, f, e, rfl, .inr rfl, hi, hf, he⟩)
        · split at hs
          · rename_i h; simp at hs; obtain ⟨rfl, rfl⟩ := hs; subst h
            obtain ⟨f, e, rfl, hf, he⟩ := acc_lit t .zero rfl h' hbt
            exact .inr (.inl ⟨[], [48], f, e, rfl, .inl rfl, .inl rfl, hf, he⟩)
          · split at hs
            · rename_i h; simp at hs; obtain ⟨rfl, rfl⟩ := hs; subst h
              have := acc_lit t .t rfl h' hbt
              simp only [L] at this; subst this
              exact .inr (.inr (.inl rfl))
            · split at hs
              · rename_i h; simp at hs; obtain ⟨rfl, rfl⟩ := hs; subst h
                have := acc_lit t .f rfl h' hbt
                simp only [L] at this; subst this
                exact .inr (.inr (.inr (.inl rfl)))
              · split at hs
                · rename_i h; simp at hs; obtain ⟨rfl, rfl⟩ := hs; subst h
                  have := acc_lit t .n rfl h' hbt
                  simp only [L] at this; subst this
                  exact .inr (.inr (.inr (.inr rfl)))
                · split at hs
                  · rename_i h; simp at hs; obtain ⟨rfl, rfl⟩ := hs
                    obtain ⟨ds, f, e, rfl, hd, hf, he⟩ := acc_lit t .one rfl h' hbt
                    exact .inr (.inl ⟨[], c :: ds, f, e, rfl, .inl rfl, .inr ⟨c, ds, rfl, h.1, h.2, hd⟩, hf, he⟩)
                  · simp at hs

theorem key_iff (l : Str) : IsKey l ↔ ScanLeaf l ∧ l.head? = some 34 := by
  rw [← leaf_iff]
  constructor
  · intro h
    refine ⟨.inl h, ?_⟩
    obtain ⟨t, rfl, _⟩ := h
    rfl
  · rintro ⟨h | ⟨s, i, f, e, rfl, hs, hi, hf, he⟩ | rfl | rfl | rfl, hh⟩
    · exact h
    · exfalso
      obtain ⟨d, t, st, e1, _, _, _, e5, _, _⟩ := done_whole hi hf he
      rw [e1] at hh
      unfold IsDigit at e5
      rcases hs with rfl | rfl <;> simp at hh <;> omega
    all_goals simp at hh

end RangeDB.Ind

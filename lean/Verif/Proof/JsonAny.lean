import Verif.Proof.Utf8

/-! # What parsing yields, and values decoded into an `interface{}` -/

namespace RangeDB.Json

/-! ## Number literals -/

/-- The text does not start with a digit or a point. -/
def Cut (x : Str) : Prop := ∀ c r, x = c :: r → Dec.isDigit c = false ∧ c ≠ 46

theorem cut_nil : Cut [] := by intro c r h; simp at h

theorem digits_cut (s x : Str) (hx : ∀ c r, x = c :: r → Dec.isDigit c = false) :
    digits (digits s ++ x) = digits s ∧ afterDigits (digits s ++ x) = x := by
  have hall : (digits s).all Dec.isDigit = true := by
    unfold digits
    exact List.all_takeWhile
  cases x with
  | cons c r => exact digits_all hall (hx c r rfl) r
  | nil =>
    rw [List.append_nil]
    generalize digits s = p at hall
    unfold digits afterDigits
    induction p with
    | nil => exact ⟨rfl, rfl⟩
    | cons d p ih =>
      rw [List.all_cons, Bool.and_eq_true] at hall
      rw [List.takeWhile_cons, List.dropWhile_cons, if_pos hall.1, if_pos hall.1, (ih hall.2).1, (ih hall.2).2]
      exact ⟨rfl, rfl⟩

theorem scanInt_self {s i r : Str} (h : scanInt s = some (i, r)) (x : Str) (hx : Cut x) :
    scanInt (i ++ x) = some (i, x) ∧ ∃ c t, i = c :: t ∧ c ≠ 45 := by
  cases s with
  | nil => simp [scanInt] at h
  | cons c s =>
    simp only [scanInt] at h
    by_cases h0 : c = 48
    · rw [if_pos h0] at h
      simp only [Option.some.injEq, Prod.mk.injEq] at h
      obtain ⟨rfl, rfl⟩ := h
      exact ⟨by simp [scanInt], 48, [], rfl, by decide⟩
    · rw [if_neg h0] at h
      by_cases h1 : Dec.isDigit c = true
      · rw [if_pos h1] at h
        simp only [Option.some.injEq, Prod.mk.injEq] at h
        obtain ⟨rfl, rfl⟩ := h
        obtain ⟨e1, e2⟩ := digits_cut s x (fun c r h => (hx c r h).1)
        refine ⟨by simp [scanInt, h0, h1, e1, e2], c, _, rfl, ?_⟩
        rintro rfl
        revert h1; decide
      · rw [if_neg h1] at h; simp at h

theorem scanExp_self {s e r : Str} (h : scanExp s = some (e, r)) : scanExp e = some (e, []) ∧ Cut e := by
  cases s with
  | nil =>
    simp only [scanExp, Option.some.injEq, Prod.mk.injEq] at h
    obtain ⟨rfl, rfl⟩ := h
    exact ⟨rfl, cut_nil⟩
  | cons c s =>
    simp only [scanExp] at h
    by_cases h0 : c = 101 ∨ c = 69
    · rw [if_pos h0] at h
      by_cases h1 : digits (scanExpSign s).2 = []
      · rw [if_pos h1] at h; simp at h
      · rw [if_neg h1] at h
        simp only [Option.some.injEq, Prod.mk.injEq] at h
        obtain ⟨rfl, rfl⟩ := h
        have hs : scanExpSign ((scanExpSign s).1 ++ digits (scanExpSign s).2) =
            ((scanExpSign s).1, digits (scanExpSign s).2) := by
          cases s with
          | nil => exact absurd rfl h1
          | cons d s =>
            simp only [scanExpSign] at h1 ⊢
            by_cases h2 : d = 43 ∨ d = 45
            · simp [h2]
            · simp only [h2, if_false, List.nil_append] at h1 ⊢
              unfold digits at h1 ⊢
              rw [List.takeWhile_cons] at h1 ⊢
              by_cases h3 : Dec.isDigit d = true
              · simp [h3, h2]
              · simp [h3] at h1
        obtain ⟨e1, e2⟩ := digits_cut (scanExpSign s).2 [] (by simp)
        rw [List.append_nil] at e1 e2
        refine ⟨?_, ?_⟩
        · simp only [scanExp, h0, if_true, hs, e1, e2, h1, if_false]
        · intro c' r' h
          simp only [List.cons.injEq] at h
          obtain ⟨rfl, _⟩ := h
          rcases h0 with rfl | rfl <;> decide
    · rw [if_neg h0] at h
      simp only [Option.some.injEq, Prod.mk.injEq] at h
      obtain ⟨rfl, rfl⟩ := h
      exact ⟨rfl, cut_nil⟩

theorem scanFrac_self {s f r : Str} (h : scanFrac s = some (f, r)) (x : Str) (hx : Cut x) :
    scanFrac (f ++ x) = some (f, x) ∧ (f = [] ∨ ∃ t, f = 46 :: t) := by
  have hnil : scanFrac ([] ++ x) = some ([], x) := by
    cases x with
    | nil => rfl
    | cons c x => simp [scanFrac, (hx c x rfl).2]
  cases s with
  | nil =>
    simp only [scanFrac, Option.some.injEq, Prod.mk.injEq] at h
    obtain ⟨rfl, rfl⟩ := h
    exact ⟨hnil, Or.inl rfl⟩
  | cons c s =>
    simp only [scanFrac] at h
    by_cases h0 : c = 46
    · rw [if_pos h0] at h
      by_cases h1 : digits s = []
      · rw [if_pos h1] at h; simp at h
      · rw [if_neg h1] at h
        simp only [Option.some.injEq, Prod.mk.injEq] at h
        obtain ⟨rfl, rfl⟩ := h
        obtain ⟨e1, e2⟩ := digits_cut s x (fun c r h => (hx c r h).1)
        exact ⟨by simp [scanFrac, e1, e2, h1], Or.inr ⟨_, rfl⟩⟩
    · rw [if_neg h0] at h
      simp only [Option.some.injEq, Prod.mk.injEq] at h
      obtain ⟨rfl, rfl⟩ := h
      exact ⟨hnil, Or.inl rfl⟩

/-- What `scanNum` returns is a number literal itself. -/
theorem scanNum_self {s t r : Str} (h : scanNum s = some (t, r)) : scanNum t = some (t, []) := by
  unfold scanNum at h
  simp only at h
  cases hi : scanInt (scanSign s).2 with
  | none => simp [hi] at h
  | some p =>
    obtain ⟨i, r1⟩ := p
    simp only [hi] at h
    cases hf : scanFrac r1 with
    | none => simp [hf] at h
    | some p =>
      obtain ⟨f, r2⟩ := p
      simp only [hf] at h
      cases he : scanExp r2 with
      | none => simp [he] at h
      | some p =>
        obtain ⟨e, r3⟩ := p
        simp only [he, Option.some.injEq, Prod.mk.injEq] at h
        obtain ⟨rfl, rfl⟩ := h
        obtain ⟨e1, e2⟩ := scanExp_self he
        obtain ⟨f1, f2⟩ := scanFrac_self hf e e2
        have hc : ∀ c r, f ++ e = c :: r → Dec.isDigit c = false := by
          intro c r hcr
          rcases f2 with rfl | ⟨t, rfl⟩
          · exact (e2 c r hcr).1
          · simp only [List.cons_append, List.cons.injEq] at hcr
            rw [← hcr.1]; rfl
        have i12 : scanInt (i ++ (f ++ e)) = some (i, f ++ e) ∧ ∃ c t, i = c :: t ∧ c ≠ 45 := by
          cases hs : (scanSign s).2 with
          | nil => rw [hs] at hi; simp [scanInt] at hi
          | cons c s' =>
            rw [hs] at hi
            simp only [scanInt] at hi
            by_cases h0 : c = 48
            · rw [if_pos h0] at hi
              simp only [Option.some.injEq, Prod.mk.injEq] at hi
              obtain ⟨rfl, rfl⟩ := hi
              exact ⟨by simp [scanInt], 48, [], rfl, by decide⟩
            · rw [if_neg h0] at hi
              by_cases h1 : Dec.isDigit c = true
              · rw [if_pos h1] at hi
                simp only [Option.some.injEq, Prod.mk.injEq] at hi
                obtain ⟨rfl, rfl⟩ := hi
                obtain ⟨e1, e2⟩ := digits_cut s' (f ++ e) hc
                refine ⟨by simp only [List.cons_append, scanInt, h0, h1, if_true, if_false, e1, e2], c, _, rfl, ?_⟩
                rintro rfl
                revert h1; decide
              · rw [if_neg h1] at hi; simp at hi
        obtain ⟨i1, c, t, i2, i3⟩ := i12
        have hsg : scanSign ((scanSign s).1 ++ (i ++ (f ++ e))) = ((scanSign s).1, i ++ (f ++ e)) := by
          have : (scanSign s).1 = [45] ∨ (scanSign s).1 = [] := by
            unfold scanSign
            cases s with
            | nil => exact Or.inr rfl
            | cons d s => simp only; split <;> simp
          rcases this with h | h
          · rw [h]; simp [scanSign]
          · rw [h, i2]; simp [scanSign, i3]
        unfold scanNum
        simp only [hsg, i1, f1, e1]

/-! ## Strings -/

theorem utf8_append {a b : Str} (ha : Utf8 a) (hb : Utf8 b) : Utf8 (a ++ b) := by
  obtain ⟨x, hx, rfl⟩ := ha
  obtain ⟨y, hy, rfl⟩ := hb
  refine ⟨x ++ y, ?_, by simp⟩
  intro c hc
  rcases List.mem_append.mp hc with h | h
  · exact hx c h
  · exact hy c h

theorem utf8_rune {c : Nat} (h : Scalar c) : Utf8 (runeBytes c) := ⟨[c], by simpa using h, by simp⟩

theorem utf8_ascii {c : Nat} (h : c < 0x80) : Utf8 [c] := by
  have := utf8_rune (c := c) (Or.inl (by omega))
  simpa [runeBytes, h] using this

theorem utf8_replacement : Utf8 replacement := ⟨[0xFFFD], by decide, by decide⟩

theorem hexVal_lt {c n : Nat} (h : hexVal c = some n) : n < 16 := by
  unfold hexVal at h
  split at h
  · rename_i hb; rw [btw_iff] at hb; simp at h; omega
  · split at h
    · rename_i hb; rw [btw_iff] at hb; simp at h; omega
    · split at h
      · rename_i hb; rw [btw_iff] at hb; simp at h; omega
      · simp at h

theorem hex4_lt {t r : Str} {u : Nat} (h : hex4 t = some (u, r)) : u < 0x10000 := by
  unfold hex4 at h
  split at h
  · split at h
    · rename_i h1 h2 h3 h4
      have := hexVal_lt h1; have := hexVal_lt h2; have := hexVal_lt h3; have := hexVal_lt h4
      simp at h; omega
    · simp at h
  · simp at h

theorem strStep_utf8 {s r b : Str} (h : strStep s = some (some b, r)) : Utf8 b := by
  cases s with
  | nil => simp [strStep] at h
  | cons c t =>
    simp only [strStep] at h
    by_cases h1 : c = 34
    · rw [if_pos h1] at h; simp at h
    rw [if_neg h1] at h
    by_cases h2 : c = 92
    · rw [if_pos h2] at h
      cases t with
      | nil => simp at h
      | cons e t =>
        simp only at h
        by_cases e1 : e = 34 ∨ e = 92 ∨ e = 47
        · rw [if_pos e1] at h
          simp only [Option.some.injEq, Prod.mk.injEq] at h
          rw [← h.1]; exact utf8_ascii (by omega)
        rw [if_neg e1] at h
        by_cases e2 : e = 98
        · rw [if_pos e2] at h
          simp only [Option.some.injEq, Prod.mk.injEq] at h
          rw [← h.1]; exact utf8_ascii (by omega)
        rw [if_neg e2] at h
        by_cases e3 : e = 102
        · rw [if_pos e3] at h
          simp only [Option.some.injEq, Prod.mk.injEq] at h
          rw [← h.1]; exact utf8_ascii (by omega)
        rw [if_neg e3] at h
        by_cases e4 : e = 110
        · rw [if_pos e4] at h
          simp only [Option.some.injEq, Prod.mk.injEq] at h
          rw [← h.1]; exact utf8_ascii (by omega)
        rw [if_neg e4] at h
        by_cases e5 : e = 114
        · rw [if_pos e5] at h
          simp only [Option.some.injEq, Prod.mk.injEq] at h
          rw [← h.1]; exact utf8_ascii (by omega)
        rw [if_neg e5] at h
        by_cases e6 : e = 116
        · rw [if_pos e6] at h
          simp only [Option.some.injEq, Prod.mk.injEq] at h
          rw [← h.1]; exact utf8_ascii (by omega)
        rw [if_neg e6] at h
        by_cases e7 : e = 117
        · rw [if_pos e7] at h
          cases hx : hex4 t with
          | none => simp [hx] at h
          | some p =>
            obtain ⟨u, r1⟩ := p
            have hu := hex4_lt hx
            simp only [hx] at h
            by_cases hs : btw 0xD800 0xDFFF u = true
            · rw [if_pos hs] at h
              rw [btw_iff] at hs
              cases r1 with
              | nil => simp at h
              | cons c1 r2 =>
                simp only at h
                by_cases g1 : c1 = 92
                · rw [if_pos g1] at h
                  cases r2 with
                  | nil => simp at h
                  | cons c2 r3 =>
                    simp only at h
                    by_cases g2 : c2 = 117
                    · rw [if_pos g2] at h
                      cases hy : hex4 r3 with
                      | none => simp [hy] at h
                      | some p =>
                        obtain ⟨v, r4⟩ := p
                        simp only [hy] at h
                        by_cases g3 : u < 0xDC00 ∧ btw 0xDC00 0xDFFF v = true
                        · rw [if_pos g3] at h
                          rw [btw_iff] at g3
                          simp only [Option.some.injEq, Prod.mk.injEq] at h
                          rw [← h.1]
                          exact utf8_rune (by unfold Scalar; omega)
                        · rw [if_neg g3] at h
                          simp only [Option.some.injEq, Prod.mk.injEq] at h
                          rw [← h.1]; exact utf8_replacement
                    · rw [if_neg g2] at h
                      simp only [Option.some.injEq, Prod.mk.injEq] at h
                      rw [← h.1]; exact utf8_replacement
                · rw [if_neg g1] at h
                  simp only [Option.some.injEq, Prod.mk.injEq] at h
                  rw [← h.1]; exact utf8_replacement
            · rw [if_neg hs] at h
              rw [btw_iff] at hs
              simp only [Option.some.injEq, Prod.mk.injEq] at h
              rw [← h.1]
              exact utf8_rune (by unfold Scalar; omega)
        · rw [if_neg e7] at h; simp at h
    rw [if_neg h2] at h
    by_cases h3 : c < 32
    · rw [if_pos h3] at h; simp at h
    rw [if_neg h3] at h
    by_cases h4 : c < 0x80
    · rw [if_pos h4] at h
      simp only [Option.some.injEq, Prod.mk.injEq] at h
      rw [← h.1]; exact utf8_ascii h4
    rw [if_neg h4] at h
    cases hr : runeLen c t with
    | none => simp [hr] at h
    | some n =>
      cases n with
      | zero =>
        simp only [hr, Option.some.injEq, Prod.mk.injEq] at h
        rw [← h.1]; exact utf8_replacement
      | succ n =>
        simp only [hr, Option.some.injEq, Prod.mk.injEq] at h
        obtain ⟨_, x, hx, e⟩ := runeLen_scalar hr
        rw [← h.1, e]
        exact utf8_rune hx

theorem strLoop_utf8 (fuel : Nat) : ∀ {s t r : Str}, strLoop fuel s = some (t, r) → Utf8 t := by
  induction fuel with
  | zero => intro s t r h; simp [strLoop] at h
  | succ fuel ih =>
    intro s t r h
    simp only [strLoop] at h
    cases hs : strStep s with
    | none => simp [hs] at h
    | some p =>
      obtain ⟨b, r1⟩ := p
      simp only [hs] at h
      cases b with
      | none =>
        simp only [Option.some.injEq, Prod.mk.injEq] at h
        rw [← h.1]; exact ⟨[], by simp, rfl⟩
      | some b =>
        simp only at h
        cases hl : strLoop fuel r1 with
        | none => simp [hl] at h
        | some p =>
          obtain ⟨t', r2⟩ := p
          simp only [hl, Option.some.injEq, Prod.mk.injEq] at h
          rw [← h.1]
          exact utf8_append (strStep_utf8 hs) (ih hl)

theorem parseStr_valid {s t r : Str} (h : parseStr s = some (t, r)) : Valid t := utf8_valid (strLoop_utf8 _ h)

/-! ## Values -/

theorem parse_wf_all (f : Nat) :
    (∀ s v r, parseV f s = some (v, r) → v.WF) ∧ (∀ s v r, parseElems f s = some (v, r) → WFs v) ∧
    (∀ s v r, parseFields f s = some (v, r) → WFf v) := by
  induction f with
  | zero => refine ⟨?_, ?_, ?_⟩ <;> intro s v r h <;> simp [parseV, parseElems, parseFields] at h
  | succ f ih =>
    obtain ⟨ih1, ih2, ih3⟩ := ih
    refine ⟨?_, ?_, ?_⟩
    · intro s v r h
      simp only [parseV] at h
      cases hs : skipWs s with
      | nil => simp [hs] at h
      | cons c t =>
        simp only [hs] at h
        by_cases c1 : c = 110
        · rw [if_pos c1] at h
          simp only [Option.map_eq_some_iff, Prod.mk.injEq] at h
          obtain ⟨_, _, rfl, _⟩ := h; trivial
        rw [if_neg c1] at h
        by_cases c2 : c = 116
        · rw [if_pos c2] at h
          simp only [Option.map_eq_some_iff, Prod.mk.injEq] at h
          obtain ⟨_, _, rfl, _⟩ := h; trivial
        rw [if_neg c2] at h
        by_cases c3 : c = 102
        · rw [if_pos c3] at h
          simp only [Option.map_eq_some_iff, Prod.mk.injEq] at h
          obtain ⟨_, _, rfl, _⟩ := h; trivial
        rw [if_neg c3] at h
        by_cases c4 : c = 34
        · rw [if_pos c4] at h
          simp only [Option.map_eq_some_iff, Prod.mk.injEq] at h
          obtain ⟨p, hp, rfl, _⟩ := h
          exact parseStr_valid (t := p.1) (r := p.2) hp
        rw [if_neg c4] at h
        by_cases c5 : c = 91
        · rw [if_pos c5] at h
          cases hw : skipWs t with
          | nil => simp [hw] at h
          | cons d t' =>
            simp only [hw] at h
            by_cases d1 : d = 93
            · rw [if_pos d1] at h
              simp only [Option.some.injEq, Prod.mk.injEq] at h
              obtain ⟨rfl, _⟩ := h; trivial
            · rw [if_neg d1] at h
              simp only [Option.map_eq_some_iff, Prod.mk.injEq] at h
              obtain ⟨p, hp, rfl, _⟩ := h
              exact ih2 _ p.1 p.2 hp
        rw [if_neg c5] at h
        by_cases c6 : c = 123
        · rw [if_pos c6] at h
          cases hw : skipWs t with
          | nil => simp [hw] at h
          | cons d t' =>
            simp only [hw] at h
            by_cases d1 : d = 125
            · rw [if_pos d1] at h
              simp only [Option.some.injEq, Prod.mk.injEq] at h
              obtain ⟨rfl, _⟩ := h; trivial
            · rw [if_neg d1] at h
              simp only [Option.map_eq_some_iff, Prod.mk.injEq] at h
              obtain ⟨p, hp, rfl, _⟩ := h
              exact ih3 _ p.1 p.2 hp
        rw [if_neg c6] at h
        simp only [Option.map_eq_some_iff, Prod.mk.injEq] at h
        obtain ⟨p, hp, rfl, _⟩ := h
        exact scanNum_self (t := p.1) (r := p.2) hp
    · intro s v r h
      simp only [parseElems] at h
      cases hv : parseV f s with
      | none => simp [hv] at h
      | some p =>
        obtain ⟨x, r1⟩ := p
        simp only [hv] at h
        cases hs : sepOf 93 r1 with
        | none => simp [hs] at h
        | some p =>
          obtain ⟨b, r2⟩ := p
          simp only [hs] at h
          cases b with
          | true =>
            simp only [Option.some.injEq, Prod.mk.injEq] at h
            obtain ⟨rfl, _⟩ := h
            exact ⟨ih1 _ _ _ hv, trivial⟩
          | false =>
            simp only [Option.map_eq_some_iff, Prod.mk.injEq] at h
            obtain ⟨p, hp, rfl, _⟩ := h
            exact ⟨ih1 _ _ _ hv, ih2 _ p.1 p.2 hp⟩
    · intro s v r h
      simp only [parseFields] at h
      cases hs : skipWs s with
      | nil => simp [hs] at h
      | cons c t =>
        simp only [hs] at h
        by_cases c1 : c = 34
        · rw [if_pos c1] at h
          cases hk : parseStr t with
          | none => simp [hk] at h
          | some p =>
            obtain ⟨k, r1⟩ := p
            simp only [hk] at h
            cases hw : skipWs r1 with
            | nil => simp [hw] at h
            | cons d r2 =>
              simp only [hw] at h
              by_cases d1 : d = 58
              · rw [if_pos d1] at h
                cases hv : parseV f r2 with
                | none => simp [hv] at h
                | some p =>
                  obtain ⟨x, r3⟩ := p
                  simp only [hv] at h
                  cases hq : sepOf 125 r3 with
                  | none => simp [hq] at h
                  | some p =>
                    obtain ⟨b, r4⟩ := p
                    simp only [hq] at h
                    cases b with
                    | true =>
                      simp only [Option.some.injEq, Prod.mk.injEq] at h
                      obtain ⟨rfl, _⟩ := h
                      exact ⟨parseStr_valid hk, ih1 _ _ _ hv, trivial⟩
                    | false =>
                      simp only [Option.map_eq_some_iff, Prod.mk.injEq] at h
                      obtain ⟨p, hp, rfl, _⟩ := h
                      exact ⟨parseStr_valid hk, ih1 _ _ _ hv, ih3 _ p.1 p.2 hp⟩
              · rw [if_neg d1] at h; simp at h
        · rw [if_neg c1] at h; simp at h

/-- Whatever the bytes, a value that was read has valid strings and number literals. -/
theorem parse_wf {s r : Str} {v : Json} (h : parse s = some (v, r)) : v.WF := (parse_wf_all _).1 s v r h

/-! ## `interface{}` -/

theorem strLt_irrefl (a : Str) : strLt a a = false := by
  induction a with
  | nil => rfl
  | cons x a ih => simp [strLt, ih]

theorem strLt_trans : ∀ {a b c : Str}, strLt a b = true → strLt b c = true → strLt a c = true := by
  intro a
  induction a with
  | nil =>
    intro b c h1 h2
    cases b with
    | nil => simp [strLt] at h1
    | cons y b =>
      cases c with
      | nil => simp [strLt] at h2
      | cons z c => rfl
  | cons x a ih =>
    intro b c h1 h2
    cases b with
    | nil => simp [strLt] at h1
    | cons y b =>
      cases c with
      | nil => simp [strLt] at h2
      | cons z c =>
        simp only [strLt, Bool.or_eq_true, Bool.and_eq_true, decide_eq_true_eq] at h1 h2 ⊢
        rcases h1 with h1 | ⟨rfl, h1⟩ <;> rcases h2 with h2 | ⟨rfl, h2⟩
        · exact Or.inl (by omega)
        · exact Or.inl h1
        · exact Or.inl h2
        · exact Or.inr ⟨rfl, ih h1 h2⟩

theorem strLt_total : ∀ {a b : Str}, a ≠ b → strLt a b = false → strLt b a = true := by
  intro a
  induction a with
  | nil =>
    intro b h1 h2
    cases b with
    | nil => exact absurd rfl h1
    | cons y b => simp [strLt] at h2
  | cons x a ih =>
    intro b h1 h2
    cases b with
    | nil => rfl
    | cons y b =>
      simp only [strLt, Bool.or_eq_false_iff, Bool.and_eq_false_iff, decide_eq_false_iff_not] at h2
      simp only [strLt, Bool.or_eq_true, Bool.and_eq_true, decide_eq_true_eq]
      obtain ⟨h3, h4⟩ := h2
      by_cases hxy : x = y
      · subst hxy
        refine Or.inr ⟨rfl, ih (fun h => h1 (by rw [h])) ?_⟩
        rcases h4 with h4 | h4
        · exact absurd rfl h4
        · exact h4
      · exact Or.inl (by omega)

/-- The keys of an object are in ascending order. -/
def Sorted (l : List (Str × Json)) : Prop := l.Pairwise (fun a b => strLt a.1 b.1 = true)

theorem putField_mem {k : Str} {v : Json} {l : List (Str × Json)} : ∀ {f : Str × Json}, f ∈ putField k v l → f = (k, v) ∨ f ∈ l := by
  induction l with
  | nil => intro f h; simp [putField] at h; exact Or.inl h
  | cons g l ih =>
    intro f h
    simp only [putField] at h
    split at h
    · rcases List.mem_cons.mp h with h | h
      · exact Or.inl h
      · exact Or.inr (by simp [h])
    · split at h
      · rcases List.mem_cons.mp h with h | h
        · exact Or.inl h
        · exact Or.inr h
      · rcases List.mem_cons.mp h with h | h
        · exact Or.inr (by simp [h])
        · rcases ih h with h | h
          · exact Or.inl h
          · exact Or.inr (by simp [h])

theorem putField_sorted (k : Str) (v : Json) (l : List (Str × Json)) (h : Sorted l) : Sorted (putField k v l) := by
  unfold Sorted at h ⊢
  induction l with
  | nil => simp [putField]
  | cons g l ih =>
    rw [List.pairwise_cons] at h
    simp only [putField]
    split
    · rename_i hk
      rw [List.pairwise_cons]
      exact ⟨fun x hx => by simpa [hk] using h.1 x hx, h.2⟩
    · rename_i hk
      split
      · rename_i hl
        rw [List.pairwise_cons, List.pairwise_cons]
        refine ⟨?_, h⟩
        intro x hx
        rcases List.mem_cons.mp hx with rfl | hx
        · exact hl
        · exact strLt_trans hl (h.1 x hx)
      · rename_i hl
        rw [List.pairwise_cons]
        refine ⟨?_, ih h.2⟩
        intro x hx
        rcases putField_mem hx with rfl | hx
        · exact strLt_total hk (by simpa using hl)
        · exact h.1 x hx

theorem anyf_sorted (num : Str → Str) (l : List (Str × Json)) : ∀ acc, Sorted acc → Sorted (anyf num l acc) := by
  induction l with
  | nil => intro acc h; exact h
  | cons f l ih => intro acc h; exact ih _ (putField_sorted _ _ _ h)

theorem putField_last (k : Str) (v : Json) (l : List (Str × Json)) (h : ∀ f ∈ l, strLt f.1 k = true) :
    putField k v l = l ++ [(k, v)] := by
  induction l with
  | nil => rfl
  | cons f l ih =>
    have hf := h f (by simp)
    have h1 : k ≠ f.1 := by rintro rfl; rw [strLt_irrefl] at hf; simp at hf
    have h2 : strLt k f.1 = false := by
      cases h3 : strLt k f.1 with
      | false => rfl
      | true => have := strLt_trans hf h3; rw [strLt_irrefl] at this; simp at this
    simp only [putField, h1, if_false, h2, Bool.false_eq_true, ih (fun g hg => h g (by simp [hg])), List.cons_append]

/-- Fields that are in order stay where they are. -/
theorem anyf_of_sorted (num : Str → Str) (l : List (Str × Json)) (hv : ∀ f ∈ l, f.2.any num = f.2) :
    ∀ acc, Sorted (acc ++ l) → anyf num l acc = acc ++ l := by
  induction l with
  | nil => intro acc _; simp [anyf]
  | cons f l ih =>
    intro acc h
    have hp : putField f.1 (f.2.any num) acc = acc ++ [f] := by
      rw [hv f (by simp), putField_last]
      intro g hg
      have := List.pairwise_append.mp h
      exact this.2.2 g hg f (by simp)
    rw [anyf, hp, ih (fun g hg => hv g (by simp [hg])) _ (by simpa using h)]
    simp

/-- Every value of an object satisfies `P`. -/
theorem anyf_forall {num : Str → Str} (P : Str × Json → Prop) (l : List (Str × Json)) (h : ∀ f ∈ l, P (f.1, f.2.any num)) :
    ∀ acc, (∀ f ∈ acc, P f) → ∀ f ∈ anyf num l acc, P f := by
  induction l with
  | nil => intro acc ha; exact ha
  | cons f l ih =>
    intro acc ha
    refine ih (fun g hg => h g (by simp [hg])) _ ?_
    intro g hg
    rcases putField_mem hg with rfl | hg
    · exact h f (by simp)
    · exact ha g hg

theorem WFs_iff {l : List Json} : WFs l ↔ ∀ v ∈ l, v.WF := by
  induction l with
  | nil => simp [WFs]
  | cons v l ih => simp [WFs, ih]

theorem WFf_iff {l : List (Str × Json)} : WFf l ↔ ∀ f ∈ l, Valid f.1 ∧ f.2.WF := by
  induction l with
  | nil => simp [WFf]
  | cons v l ih => simp [WFf, ih, and_assoc]

mutual
theorem Json.any_wf {num : Str → Str} (hn : ∀ t, scanNum t = some (t, []) → scanNum (num t) = some (num t, [])) :
    ∀ {v : Json}, v.WF → (v.any num).WF
  | .null, _ => trivial
  | .bool _, _ => trivial
  | .num _, h => hn _ h
  | .str _, h => h
  | .arr l, h => anys_wf hn l h
  | .obj l, h => WFf_iff.mpr (anyf_forall (fun f => Valid f.1 ∧ f.2.WF) l (anyf_wf hn l h) [] (by simp))
theorem anys_wf {num : Str → Str} (hn : ∀ t, scanNum t = some (t, []) → scanNum (num t) = some (num t, [])) :
    ∀ (l : List Json), WFs l → WFs (anys num l)
  | [], _ => trivial
  | _ :: l, h => ⟨Json.any_wf hn h.1, anys_wf hn l h.2⟩
theorem anyf_wf {num : Str → Str} (hn : ∀ t, scanNum t = some (t, []) → scanNum (num t) = some (num t, [])) :
    ∀ (l : List (Str × Json)), WFf l → ∀ f ∈ l, Valid f.1 ∧ (f.2.any num).WF
  | [], _, _, hf => absurd hf (by simp)
  | g :: l, h, f, hf =>
    (List.mem_cons.mp hf).elim (fun e => e ▸ ⟨h.1, Json.any_wf hn h.2.1⟩) (fun hm => anyf_wf hn l h.2.2 f hm)
end

mutual
/-- A value that was decoded once does not change when it is decoded again. -/
theorem Json.any_any {f g : Str → Str} (h : ∀ t, g (f t) = f t) : ∀ (v : Json), (v.any f).any g = v.any f
  | .null => rfl
  | .bool _ => rfl
  | .num t => congrArg Json.num (h t)
  | .str _ => rfl
  | .arr l => congrArg Json.arr (anys_any h l)
  | .obj l => by
    show Json.obj (anyf g (anyf f l []) []) = Json.obj (anyf f l [])
    rw [anyf_of_sorted g (anyf f l [])
      (anyf_forall (fun x => x.2.any g = x.2) l (anyf_any h l) [] (by simp)) []
      (by simpa using anyf_sorted f l [] List.Pairwise.nil)]
    simp
theorem anys_any {f g : Str → Str} (h : ∀ t, g (f t) = f t) : ∀ (l : List Json), anys g (anys f l) = anys f l
  | [] => rfl
  | v :: l => by rw [anys, anys, Json.any_any h v, anys_any h l]
theorem anyf_any {f g : Str → Str} (h : ∀ t, g (f t) = f t) :
    ∀ (l : List (Str × Json)), ∀ x ∈ l, (x.2.any f).any g = x.2.any f
  | [], _, hx => absurd hx (by simp)
  | y :: l, x, hx =>
    (List.mem_cons.mp hx).elim (fun e => by rw [e]; exact Json.any_any h y.2) (fun hm => anyf_any h l x hm)
end

theorem Json.any_canon (f : Str → Str) (v : Json) : (v.any f).canon = v.any f :=
  Json.any_any (f := f) (g := id) (fun _ => rfl) v

theorem Json.canon_canon (v : Json) : v.canon.canon = v.canon := Json.any_canon id v

theorem Json.any_null {f : Str → Str} {v : Json} : v.any f = .null ↔ v = .null := by
  cases v <;> simp [Json.any]

end RangeDB.Json

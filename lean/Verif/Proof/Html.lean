import Verif.Model.Html
import Verif.Spec.Html
import Verif.Proof.Paging

/-!
# Lemmas about reading escaped texts
-/

namespace RangeDB.Html

theorem run_append (st : St) (a b : Str) :
    run st (a ++ b) = ((run (run st a).1 b).1, (run st a).2 ++ (run (run st a).1 b).2) := by
  induction a generalizing st with
  | nil => simp [run]
  | cons c a ih => simp [run, ih, List.append_assoc]

/-- Reading `a` in state `st` leads to `st'` and yields `o`. -/
structure Reads (st : St) (a : Str) (st' : St) (o : List Token) : Prop where
  eq : run st a = (st', o)

theorem Reads.append {st st1 st2 : St} {a b : Str} {o1 o2 : List Token} (h1 : Reads st a st1 o1)
    (h2 : Reads st1 b st2 o2) : Reads st (a ++ b) st2 (o1 ++ o2) := by
  constructor
  rw [run_append, h1.eq, h2.eq]

theorem cons_app {α} (a : α) (s t : List α) : a :: s ++ t = a :: (s ++ t) := by simp

theorem nil_app {α} (s : List α) : [] ++ s = s := by simp

theorem Reads.to {st st' : St} {a : Str} {o o' : List Token} (h : Reads st a st' o) (ho : o = o') : Reads st a st' o' :=
  ho ▸ h

theorem shown_cons (c : Nat) (s : Str) : shown (c :: s) = (if c = 0 then [239, 191, 189] else [c]) ++ shown s := rfl

/-- The bytes that are replaced. -/
theorem escByte_cases (c : Nat) :
    c ∈ [0, 34, 38, 39, 43, 60, 62] ∨ (escByte c = [c] ∧ c ≠ 0 ∧ c ≠ 34 ∧ c ≠ 38 ∧ c ≠ 39 ∧ c ≠ 60 ∧ c ≠ 62) := by
  by_cases h : c ∈ [0, 34, 38, 39, 43, 60, 62]
  · exact Or.inl h
  · right
    simp only [List.mem_cons, List.not_mem_nil, or_false, not_or] at h
    obtain ⟨h0, h1, h2, h3, h4, h5, h6⟩ := h
    exact ⟨by simp [escByte, *], h0, h1, h2, h3, h5, h6⟩

theorem reads_data (v : Str) : Reads .data (esc v) .data (text v) := by
  induction v with
  | nil => exact ⟨rfl⟩
  | cons c v ih =>
    have hs : text (c :: v) = ((if c = 0 then [239, 191, 189] else [c]).map .char) ++ text v := by
      simp [text, shown_cons]
    rw [hs, show esc (c :: v) = escByte c ++ esc v from rfl]
    refine Reads.append ?_ ih
    rcases escByte_cases c with h | ⟨h, h0, h1, h2, h3, h4, h5⟩
    · simp only [List.mem_cons, List.not_mem_nil, or_false] at h
      rcases h with rfl | rfl | rfl | rfl | rfl | rfl | rfl <;> exact ⟨rfl⟩
    · rw [h, if_neg h0]
      constructor; simp [run, step, plainStep, readData, h2, h4]

theorem reads_raw (el : Str) (v : Str) : Reads (.raw el true) (esc v) (.raw el true) (text v) := by
  induction v with
  | nil => exact ⟨rfl⟩
  | cons c v ih =>
    have hs : text (c :: v) = ((if c = 0 then [239, 191, 189] else [c]).map .char) ++ text v := by
      simp [text, shown_cons]
    rw [hs, show esc (c :: v) = escByte c ++ esc v from rfl]
    refine Reads.append ?_ ih
    rcases escByte_cases c with h | ⟨h, h0, h1, h2, h3, h4, h5⟩
    · simp only [List.mem_cons, List.not_mem_nil, or_false] at h
      rcases h with rfl | rfl | rfl | rfl | rfl | rfl | rfl <;> exact ⟨rfl⟩
    · rw [h, if_neg h0]
      constructor; simp [run, step, plainStep, readRaw, h2, h4]

theorem reads_dq (t : Tag) (n w v : Str) : Reads (.dq t n w) (esc v) (.dq t n (w ++ shown v)) [] := by
  induction v generalizing w with
  | nil => constructor; simp [esc, run, shown]
  | cons c v ih =>
    rw [shown_cons, ← List.append_assoc, show esc (c :: v) = escByte c ++ esc v from rfl]
    refine Reads.append (o1 := []) ?_ (ih _)
    rcases escByte_cases c with h | ⟨h, h0, h1, h2, h3, h4, h5⟩
    · simp only [List.mem_cons, List.not_mem_nil, or_false] at h
      rcases h with rfl | rfl | rfl | rfl | rfl | rfl | rfl
      · constructor; simp [escByte, run, step, plainStep]
      all_goals exact ⟨rfl⟩
    · rw [h, if_neg h0]
      constructor; simp [run, step, plainStep, h1, h2]

/-! ## Links -/

theorem shown_of_ne {s : Str} (h : ∀ c ∈ s, c ≠ 0) : shown s = s := by
  induction s with
  | nil => rfl
  | cons c s ih =>
    rw [shown_cons, if_neg (h c (by simp)), ih (fun x hx => h x (by simp [hx]))]
    rfl

theorem hexLower_ne (n : Nat) : hexLower n ≠ 0 := by unfold hexLower; split <;> omega

theorem keeps_ne {c : Nat} {rest : Str} (h : keeps c rest = true) : c ≠ 0 := by
  rintro rfl
  revert h
  simp [keeps, Pg.isAlnum]

theorem urlNorm_ne (s : Str) : ∀ c ∈ urlNorm s, c ≠ 0 := by
  induction s with
  | nil => simp [urlNorm]
  | cons c s ih =>
    intro x hx
    rw [urlNorm, List.mem_append] at hx
    rcases hx with hx | hx
    · split at hx
      · rename_i h
        simp only [List.mem_singleton] at hx
        rw [hx]; exact keeps_ne h
      · simp only [List.mem_cons, List.not_mem_nil, or_false] at hx
        rcases hx with rfl | rfl | rfl
        · decide
        · exact hexLower_ne _
        · exact hexLower_ne _
    · exact ih x hx

theorem shown_urlNorm (s : Str) : shown (urlNorm s) = urlNorm s := shown_of_ne (urlNorm_ne s)

/-- A text that leads back to a known state. -/
theorem reads_self {st st' : St} {a : Str} (h : (run st a).1 = st') : Reads st a st' (run st a).2 := by
  constructor
  rw [← h]

theorem Reads.tokens {a : Str} {st : St} {o : List Token} (h : Reads .data a st o) : Html.tokens a = o := by
  unfold Html.tokens
  rw [h.eq]

theorem reads_flatMap {α} (f : α → Str) (g : α → List Token) (l : List α) (h : ∀ x ∈ l, Reads .data (f x) .data (g x)) :
    Reads .data (l.flatMap f) .data (l.flatMap g) := by
  induction l with
  | nil => exact ⟨rfl⟩
  | cons x l ih =>
    simp only [List.flatMap_cons]
    exact (h x (by simp)).append (ih (fun y hy => h y (by simp [hy])))

/-! ## Checking fixed tokens -/

/-- `SafeAttr`, computed. -/
def safeAttrB (a : Str × Str) : Bool :=
  !(ascii "on").isPrefixOf a.1 && a.1 ≠ ascii "style" && a.1 ≠ ascii "srcdoc" &&
  (!(a.1 = ascii "href" || a.1 = ascii "src" || a.1 = ascii "action" || a.1 = ascii "formaction") ||
    (match a.2 with
     | 47 :: rest => rest.head? ≠ some 47
     | _ => false) || a.2 = ascii "https://github.com/inklabs/rangedb")

theorem safeAttrB_spec {a : Str × Str} (h : safeAttrB a = true) : SafeAttr a := by
  unfold safeAttrB at h
  simp only [Bool.and_eq_true, Bool.or_eq_true, Bool.not_eq_true', decide_eq_true_eq] at h
  obtain ⟨⟨⟨h1, h2⟩, h3⟩, h4⟩ := h
  refine ⟨?_, h2, h3, ?_⟩
  · intro hp
    rw [List.isPrefixOf_iff_prefix.mpr hp] at h1
    cases h1
  · intro hn
    rcases h4 with (h4 | h4) | h4
    · exfalso
      have : (decide (a.1 = ascii "href") || decide (a.1 = ascii "src") || decide (a.1 = ascii "action") ||
        decide (a.1 = ascii "formaction")) = true := by
        rcases hn with hn | hn | hn | hn <;> simp [hn]
      rw [this] at h4
      cases h4
    · left
      split at h4
      · rename_i rest heq
        exact ⟨rest, heq, of_decide_eq_true h4⟩
      · cases h4
    · exact Or.inr h4

/-- `Safe`, computed. -/
def safeB : Token → Bool
  | .start name attrs =>
    !(name ∈ [ascii "script", ascii "style", ascii "iframe", ascii "object", ascii "embed", ascii "base", ascii "form",
      ascii "svg", ascii "math"]) && attrs.all safeAttrB
  | _ => true

theorem safeB_spec {t : Token} (h : safeB t = true) : Safe t := by
  cases t with
  | start name attrs =>
    unfold safeB at h
    rw [Bool.and_eq_true] at h
    refine ⟨?_, fun a ha => safeAttrB_spec (List.all_eq_true.mp h.2 a ha)⟩
    intro hm
    rw [decide_eq_true hm] at h
    cases h.1
  | char c => trivial
  | close n => trivial
  | decl => trivial

/-- Every token is safe. -/
def AllSafe (o : List Token) : Prop := ∀ t ∈ o, Safe t

theorem allSafe_of {o : List Token} (h : o.all safeB = true) : AllSafe o :=
  fun t ht => safeB_spec (List.all_eq_true.mp h t ht)

theorem AllSafe.append {a b : List Token} (ha : AllSafe a) (hb : AllSafe b) : AllSafe (a ++ b) := by
  intro t ht
  rcases List.mem_append.mp ht with h | h
  · exact ha t h
  · exact hb t h

theorem allSafe_text (s : Str) : AllSafe (text s) := by
  intro t ht
  obtain ⟨c, _, rfl⟩ := List.mem_map.mp ht
  trivial

/-! ## Local links -/

theorem urlFilter_local {u : Str} (h : Local u) : urlFilter u = u := by
  obtain ⟨rest, rfl, _⟩ := h
  have : isSafeURL (47 :: rest) = true := by
    simp [isSafeURL, List.takeWhile_cons]
  unfold urlFilter
  rw [if_pos this]

theorem urlNorm_local {u : Str} (h : Local u) : Local (urlNorm u) := by
  obtain ⟨rest, rfl, h⟩ := h
  refine ⟨urlNorm rest, by simp [urlNorm, keeps], ?_⟩
  cases rest with
  | nil => simp [urlNorm]
  | cons c r =>
    simp only [List.head?_cons, ne_eq, Option.some.injEq] at h
    rw [urlNorm]
    split
    · simpa using h
    · simp

/-! ## Following a link -/

open Pg

theorem isHex_unhex {c : Nat} (h : isHex c = true) : ∃ x, unhex c = some x := by
  simp only [isHex, Bool.or_eq_true, Bool.and_eq_true, decide_eq_true_eq] at h
  unfold unhex
  split
  · exact ⟨_, rfl⟩
  · split
    · exact ⟨_, rfl⟩
    · split
      · exact ⟨_, rfl⟩
      · omega

theorem isHex_keeps {c : Nat} (r : Str) (h : isHex c = true) : keeps c r = true := by
  have : isAlnum c = true := by
    simp only [isHex, Bool.or_eq_true, Bool.and_eq_true, decide_eq_true_eq] at h
    simp only [isAlnum, Bool.or_eq_true, Bool.and_eq_true, decide_eq_true_eq]
    omega
  simp [keeps, this]

theorem unhex_hexLower {n : Nat} (h : n < 16) : unhex (hexLower n) = some n := by
  unfold hexLower
  split
  · rw [unhex, if_pos (by omega)]; congr 1; omega
  · rw [unhex, if_neg (by omega), if_pos (by omega)]; congr 1; omega

/-- The text starts with two hexadecimal digits. -/
def hexPair : Str → Bool
  | a :: b :: _ => isHex a && isHex b
  | _ => false

/-- The text has a '%' that is followed by two hexadecimal digits. -/
def hasEscape : Str → Bool
  | [] => false
  | c :: rest => (c = 37 && hexPair rest) || hasEscape rest

theorem keeps_eq (c : Nat) (r : Str) : keeps c r =
    (decide (c ∈ [33, 35, 36, 38, 42, 43, 44, 47, 58, 59, 61, 63, 64, 91, 93]) || decide (c ∈ [45, 46, 95, 126]) ||
      isAlnum c || (decide (c = 37) && hexPair r)) := by
  match r with
  | [] => rfl
  | [_] => rfl
  | _ :: _ :: _ => rfl

theorem keeps_percent (r : Str) : keeps 37 r = hexPair r := by
  rw [keeps_eq]
  cases hexPair r <;> decide

theorem unescape_percent (a b x y : Nat) (r : Str) (ha : unhex a = some x) (hb : unhex b = some y) :
    unescape false (37 :: a :: b :: r) = (unescape false r).map ((x * 16 + y) :: ·) := by
  rw [unescape, if_pos rfl]
  simp only [ha, hb]

theorem unescape_other (c : Nat) (r : Str) (h : c ≠ 37) : unescape false (c :: r) = (unescape false r).map (c :: ·) := by
  conv => lhs; unfold unescape
  rw [if_neg h]
  simp

/-- Without such a sequence the normalised name is decoded to the name. -/
theorem unescape_urlNorm (s : Str) (hb : ∀ c ∈ s, c < 256) (h : hasEscape s = false) :
    unescape false (urlNorm s) = some s := by
  induction s with
  | nil => rfl
  | cons c r ih =>
    rw [hasEscape, Bool.or_eq_false_iff] at h
    have ihr := ih (fun x hx => hb x (by simp [hx])) h.2
    rw [urlNorm]
    by_cases hk : keeps c r = true
    · rw [if_pos hk]
      have hc : c ≠ 37 := by
        rintro rfl
        have h1 := h.1
        rw [keeps_percent] at hk
        simp only [decide_true, Bool.true_and] at h1
        rw [hk] at h1
        cases h1
      simp only [List.singleton_append]
      rw [unescape_other _ _ hc, ihr]
      rfl
    · rw [if_neg hk]
      have hc : c < 256 := hb c (by simp)
      simp only [List.cons_append, List.nil_append]
      rw [unescape_percent _ _ (c / 16) (c % 16) _ (unhex_hexLower (by omega)) (unhex_hexLower (by omega)), ihr]
      simp only [Option.map_some, Option.some.injEq, List.cons.injEq, and_true]
      omega

/-- The decoded text is never longer than the name, and shorter if the name has such a sequence. -/
theorem unescape_urlNorm_length : ∀ (n : Nat) (s t : Str), s.length ≤ n → unescape false (urlNorm s) = some t →
    t.length ≤ s.length ∧ (hasEscape s = true → t.length < s.length) := by
  intro n
  induction n with
  | zero =>
    intro s t hn ht
    have : s = [] := List.length_eq_zero_iff.mp (by omega)
    subst this
    obtain rfl := Option.some.inj ht
    simp [hasEscape]
  | succ n ih =>
    intro s t hn ht
    cases s with
    | nil =>
      obtain rfl := Option.some.inj ht
      simp [hasEscape]
    | cons c r =>
      simp only [List.length_cons] at hn ⊢
      rw [urlNorm] at ht
      by_cases hk : keeps c r = true
      · rw [if_pos hk] at ht
        simp only [List.singleton_append] at ht
        by_cases hc : c = 37
        · subst hc
          rw [keeps_percent] at hk
          match r, hk with
          | a :: b :: r', hk =>
            simp only [hexPair, Bool.and_eq_true] at hk
            obtain ⟨x, hx⟩ := isHex_unhex hk.1
            obtain ⟨y, hy⟩ := isHex_unhex hk.2
            rw [urlNorm, if_pos (isHex_keeps _ hk.1), urlNorm, if_pos (isHex_keeps _ hk.2)] at ht
            simp only [List.singleton_append] at ht
            rw [unescape_percent _ _ x y _ hx hy, Option.map_eq_some_iff] at ht
            obtain ⟨t', ht', rfl⟩ := ht
            simp only [List.length_cons] at hn ⊢
            have := (ih r' t' (by omega) ht').1
            exact ⟨by omega, fun _ => by omega⟩
        · rw [unescape_other _ _ hc, Option.map_eq_some_iff] at ht
          obtain ⟨t', ht', rfl⟩ := ht
          have := ih r t' (by omega) ht'
          refine ⟨by simp; omega, fun h => ?_⟩
          rw [hasEscape, show decide (c = 37) = false from decide_eq_false hc] at h
          simp only [Bool.false_and, Bool.false_or] at h
          have := this.2 h
          simp; omega
      · rw [if_neg hk] at ht
        simp only [List.cons_append, List.nil_append] at ht
        have h2 : ∃ v, ∃ t', unescape false (urlNorm r) = some t' ∧ t = v :: t' := by
          unfold unescape at ht
          rw [if_pos rfl] at ht
          simp only at ht
          split at ht
          · rename_i x y _ _
            rw [Option.map_eq_some_iff] at ht
            obtain ⟨t', ht', rfl⟩ := ht
            exact ⟨_, t', ht', rfl⟩
          · cases ht
        obtain ⟨v, t', ht', rfl⟩ := h2
        have := ih r t' (by omega) ht'
        refine ⟨by simp; omega, fun h => ?_⟩
        rw [hasEscape, Bool.or_eq_true] at h
        rcases h with h | h
        · exfalso
          apply hk
          rw [Bool.and_eq_true, decide_eq_true_eq] at h
          obtain ⟨rfl, h⟩ := h
          rw [keeps_percent]
          exact h
        · have := this.2 h
          simp; omega

theorem keeps_append (c d : Nat) (r q : Str) (h : isHex d = false) : keeps c (r ++ d :: q) = keeps c r := by
  have : hexPair (r ++ d :: q) = hexPair r := by
    match r with
    | [] => cases q <;> simp [hexPair, h]
    | [a] => simp [hexPair, h]
    | a :: b :: r' => rfl
  rw [keeps_eq, keeps_eq, this]

theorem urlNorm_append (p q : Str) (d : Nat) (h : isHex d = false) :
    urlNorm (p ++ d :: q) = urlNorm p ++ urlNorm (d :: q) := by
  induction p with
  | nil => rfl
  | cons c p ih =>
    simp only [List.cons_append]
    rw [urlNorm, keeps_append _ _ _ _ h, ih]
    conv => rhs; rw [urlNorm]
    rw [List.append_assoc]

theorem hexLower_mem {n d : Nat} (hd : d = 35 ∨ d = 63) : hexLower n = d → False := by
  unfold hexLower
  split
  · omega
  · omega

theorem urlNorm_free {s : Str} {d : Nat} (hd : d = 35 ∨ d = 63) (h : d ∉ s) : d ∉ urlNorm s := by
  induction s with
  | nil => simp [urlNorm]
  | cons c r ih =>
    rw [urlNorm, List.mem_append, not_or]
    simp only [List.mem_cons, not_or] at h
    refine ⟨?_, ih h.2⟩
    split
    · simpa using h.1
    · simp only [List.mem_cons, List.not_mem_nil, or_false, not_or]
      exact ⟨by omega, fun he => hexLower_mem hd he.symm, fun he => hexLower_mem hd he.symm⟩

/-- The links of a page stay below the prefix of its base. -/
theorem withQuery_local {d : Nat} {name q u : Str} (hd : d = 115 ∨ d = 97) (h : withQuery (47 :: d :: 47 :: name) q = some u) :
    ∃ rest, u = 47 :: d :: rest := by
  unfold withQuery at h
  split at h
  · cases h
  · have cut_pre : ∀ (c : Nat) (s : Str), c = 35 ∨ c = 63 → ∃ s', (cutAt c (47 :: d :: s)).1 = 47 :: d :: s' := by
      intro c s hc
      by_cases hm : c ∈ s
      · obtain ⟨a, b, rfl, ha⟩ := List.eq_append_cons_of_mem hm
        have : c ∉ 47 :: d :: a := by
          simp only [List.mem_cons, not_or]
          exact ⟨by omega, by omega, ha⟩
        refine ⟨a, ?_⟩
        have := cutAt_some b this
        simp only [List.cons_append] at this
        rw [this]
      · have : c ∉ 47 :: d :: s := by
          simp only [List.mem_cons, not_or]
          exact ⟨by omega, by omega, hm⟩
        exact ⟨s, by rw [cutAt_none this]⟩
    obtain ⟨s1, h1⟩ := cut_pre 35 (47 :: name) (Or.inl rfl)
    obtain ⟨s2, h2⟩ := cut_pre 63 s1 (Or.inr rfl)
    revert h
    simp only
    rw [h1, h2]
    rw [unescape_other 47 _ (by decide), unescape_other d _ (by omega)]
    cases hu : unescape false s2 with
    | none => intro h; simp at h
    | some p =>
      simp only [Option.map_some]
      intro h
      split at h
      · rename_i p' f hp hf
        obtain rfl := Option.some.inj hp
        obtain rfl := Option.some.inj h
        unfold reEscape
        split
        · exact ⟨_, rfl⟩
        · have e1 : escapeByte .path 47 = [47] := by decide
          have e2 : escapeByte .path d = [d] := by rcases hd with rfl | rfl <;> decide
          refine ⟨escape .path p ++ [63] ++ q ++ (if f = [] then [] else 35 :: (if (cutAt 35 (47 :: d :: 47 :: name)).2.all (validByte .fragment) then (cutAt 35 (47 :: d :: 47 :: name)).2 else escape .fragment f)), ?_⟩
          simp only [escape, List.flatMap_cons, e1, e2, List.append_assoc, List.cons_append, List.nil_append]
      · cases h

theorem isHex_iff (c : Nat) : isHex c = true ↔ c ∈ ascii "0123456789abcdefABCDEF" := by
  rw [show ascii "0123456789abcdefABCDEF" = [48, 49, 50, 51, 52, 53, 54, 55, 56, 57, 97, 98, 99, 100, 101, 102, 65, 66, 67,
    68, 69, 70] by decide +kernel]
  simp only [isHex, Bool.or_eq_true, Bool.and_eq_true, decide_eq_true_eq, List.mem_cons, List.not_mem_nil, or_false]
  omega

theorem hasEscape_iff (s : Str) : hasEscape s = true ↔ PercentPair s := by
  induction s with
  | nil =>
    constructor
    · intro h; cases h
    · rintro ⟨p, a, b, q, h, _⟩; cases p <;> cases h
  | cons c r ih =>
    rw [hasEscape, Bool.or_eq_true, ih, Bool.and_eq_true, decide_eq_true_eq]
    constructor
    · rintro (⟨rfl, h⟩ | ⟨p, a, b, q, rfl, ha, hb⟩)
      · match r, h with
        | a :: b :: q, h =>
          rw [hexPair, Bool.and_eq_true] at h
          exact ⟨[], a, b, q, rfl, (isHex_iff a).mp h.1, (isHex_iff b).mp h.2⟩
      · exact ⟨c :: p, a, b, q, rfl, ha, hb⟩
    · rintro ⟨p, a, b, q, h, ha, hb⟩
      cases p with
      | nil =>
        simp only [List.nil_append, List.cons.injEq] at h
        obtain ⟨rfl, rfl⟩ := h
        left
        exact ⟨rfl, by simp [hexPair, (isHex_iff a).mpr ha, (isHex_iff b).mpr hb]⟩
      | cons d p =>
        simp only [List.cons_append, List.cons.injEq] at h
        obtain ⟨rfl, rfl⟩ := h
        exact Or.inr ⟨p, a, b, q, rfl, ha, hb⟩

end RangeDB.Html

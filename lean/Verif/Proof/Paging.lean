import Verif.Model.Paging
import Verif.Proof.Text
import Verif.Thm.Iterator

/-!
# Proofs about paging links
-/

namespace RangeDB.Pg

open Txt

/-! ## Percent encoding -/

theorem unhex_hex {n : Nat} (h : n < 16) : unhex (hex n) = some n := by
  unfold hex unhex
  repeat' split
  all_goals first | omega | (simp only [Option.some.injEq]; omega)

theorem unescape_append_byte (plus : Bool) (c : Nat) (rest : Str) (h : c ≠ 37) :
    unescape plus (c :: rest) = (unescape plus rest).map ((if plus && c = 43 then 32 else c) :: ·) := by
  rw [unescape.eq_def]
  simp [h]

/-- Text without '%' (and without '+', where '+' means a space) is its own decoding. -/
theorem unescape_plain (plus : Bool) (s : Str) (h : 37 ∉ s) (hp : plus = true → 43 ∉ s) :
    unescape plus s = some s := by
  induction s with
  | nil => rfl
  | cons c cs ih =>
    simp only [List.mem_cons, not_or] at h
    rw [unescape_append_byte plus c cs (fun e => h.1 e.symm), ih h.2 (fun e => by
      have := hp e; simp only [List.mem_cons, not_or] at this; exact this.2)]
    cases plus with
    | false => simp
    | true =>
      have := hp rfl
      simp only [List.mem_cons, not_or] at this
      simp
      omega

theorem unescape_escapeByte_path (c : Nat) (hc : c < 256) (rest : Str) (out : Str)
    (h : unescape false rest = some out) :
    unescape false (escapeByte .path c ++ rest) = some (c :: out) := by
  unfold escapeByte
  rw [if_neg (by simp)]
  split
  · simp only [List.cons_append, List.nil_append]
    rw [unescape.eq_def]
    simp only [if_true]
    rw [unhex_hex (by omega : c / 16 < 16), unhex_hex (by omega : c % 16 < 16)]
    simp only [h, Option.map_some]
    congr 2
    omega
  · rename_i hs
    have hne : c ≠ 37 := by
      intro e; subst e; exact hs (by decide)
    simp only [List.cons_append, List.nil_append]
    rw [unescape_append_byte _ _ _ hne, h]
    simp

theorem unescape_escape_path (s : Str) (h : ∀ c ∈ s, c < 256) :
    unescape false (escape .path s) = some s := by
  induction s with
  | nil => rfl
  | cons c cs ih =>
    have : escape .path (c :: cs) = escapeByte .path c ++ escape .path cs := rfl
    rw [this]
    exact unescape_escapeByte_path c (h c (by simp)) _ _ (ih (fun d hd => h d (by simp [hd])))

theorem unescape_escapeByte_query (c : Nat) (hc : c < 256) (rest : Str) (out : Str)
    (h : unescape true rest = some out) :
    unescape true (escapeByte .query c ++ rest) = some (c :: out) := by
  unfold escapeByte
  split
  · rename_i h32
    simp only [List.cons_append, List.nil_append]
    rw [unescape_append_byte _ _ _ (by decide), h]
    simp [h32.1]
  · split
    · simp only [List.cons_append, List.nil_append]
      rw [unescape.eq_def]
      simp only [if_true]
      rw [unhex_hex (by omega : c / 16 < 16), unhex_hex (by omega : c % 16 < 16)]
      simp only [h, Option.map_some]
      congr 2
      omega
    · rename_i hs
      have hne : c ≠ 37 := by
        intro e; subst e; exact hs (by decide)
      have hne2 : c ≠ 43 := by
        intro e; subst e; exact hs (by decide)
      simp only [List.cons_append, List.nil_append]
      rw [unescape_append_byte _ _ _ hne, h]
      simp [hne2]

theorem unescape_escape_query (s : Str) (h : ∀ c ∈ s, c < 256) :
    unescape true (escape .query s) = some s := by
  induction s with
  | nil => rfl
  | cons c cs ih =>
    have : escape .query (c :: cs) = escapeByte .query c ++ escape .query cs := rfl
    rw [this]
    exact unescape_escapeByte_query c (h c (by simp)) _ _ (ih (fun d hd => h d (by simp [hd])))

theorem hex_range {n : Nat} (h : n < 16) : (48 ≤ hex n ∧ hex n ≤ 57) ∨ (65 ≤ hex n ∧ hex n ≤ 70) := by
  unfold hex; split <;> omega

/-- Escaped text has no byte with a meaning of its own in a URL or in a query. -/
theorem escape_query_clean {s : Str} (h : ∀ c ∈ s, c < 256) {d : Nat} (hd : d ∈ escape .query s) :
    d ≠ 38 ∧ d ≠ 61 ∧ d ≠ 59 ∧ d ≠ 35 ∧ d ≠ 63 := by
  unfold escape at hd
  rw [List.mem_flatMap] at hd
  obtain ⟨c, hc, hd⟩ := hd
  have hlt := h c hc
  unfold escapeByte at hd
  split at hd
  · simp at hd; omega
  · split at hd
    · simp only [List.mem_cons, List.not_mem_nil, or_false] at hd
      have h1 := hex_range (by omega : c / 16 < 16)
      have h2 := hex_range (by omega : c % 16 < 16)
      rcases hd with hd | hd | hd <;> omega
    · rename_i hs
      simp only [List.mem_cons, List.not_mem_nil, or_false] at hd
      subst hd
      refine ⟨?_, ?_, ?_, ?_, ?_⟩ <;> (intro e; subst e; exact hs (by decide))

theorem escape_path_clean {s : Str} (h : ∀ c ∈ s, c < 256) {d : Nat} (hd : d ∈ escape .path s) :
    d ≠ 35 ∧ d ≠ 63 := by
  unfold escape at hd
  rw [List.mem_flatMap] at hd
  obtain ⟨c, hc, hd⟩ := hd
  have hlt := h c hc
  unfold escapeByte at hd
  split at hd
  · simp at hd; omega
  · split at hd
    · simp only [List.mem_cons, List.not_mem_nil, or_false] at hd
      have h1 := hex_range (by omega : c / 16 < 16)
      have h2 := hex_range (by omega : c % 16 < 16)
      rcases hd with hd | hd | hd <;> omega
    · rename_i hs
      simp only [List.mem_cons, List.not_mem_nil, or_false] at hd
      subst hd
      refine ⟨?_, ?_⟩ <;> (intro e; subst e; exact hs (by decide))

/-- Escaped text is printable ASCII without spaces, quotes or angle brackets. -/
theorem escape_path_printable {s : Str} (h : ∀ c ∈ s, c < 256) {d : Nat} (hd : d ∈ escape .path s) :
    33 ≤ d ∧ d < 127 ∧ d ≠ 34 ∧ d ≠ 60 ∧ d ≠ 62 := by
  unfold escape at hd
  rw [List.mem_flatMap] at hd
  obtain ⟨c, hc, hd⟩ := hd
  have hlt := h c hc
  unfold escapeByte at hd
  split at hd
  · simp at hd; omega
  · split at hd
    · simp only [List.mem_cons, List.not_mem_nil, or_false] at hd
      have h1 := hex_range (by omega : c / 16 < 16)
      have h2 := hex_range (by omega : c % 16 < 16)
      rcases hd with hd | hd | hd <;> omega
    · rename_i hs
      simp only [List.mem_cons, List.not_mem_nil, or_false] at hd
      subst hd
      have := (by decide +kernel : ∀ d < 256, ¬ shouldEscape .path d = true →
        33 ≤ d ∧ d < 127 ∧ d ≠ 34 ∧ d ≠ 60 ∧ d ≠ 62) d hlt hs
      exact this

theorem validByte_printable {d : Nat} (hlt : d < 256) (hd : validByte .path d = true) :
    33 ≤ d ∧ d < 127 ∧ d ≠ 34 ∧ d ≠ 60 ∧ d ≠ 62 :=
  (by decide +kernel : ∀ d < 256, validByte .path d = true →
    33 ≤ d ∧ d < 127 ∧ d ≠ 34 ∧ d ≠ 60 ∧ d ≠ 62) d hlt hd

theorem cutAt_none {c : Nat} {s : Str} (h : c ∉ s) : cutAt c s = (s, []) := by
  unfold cutAt; rw [cut_byte_none h]; rfl

theorem cutAt_some {c : Nat} {a : Str} (b : Str) (h : c ∉ a) : cutAt c (a ++ c :: b) = (a, b) := by
  unfold cutAt; rw [cut_byte b h]; rfl

/-- A path that a link can carry: bytes, none of them a control character, '%', '?' or '#'. -/
def Safe (s : Str) : Prop := ∀ c ∈ s, 32 ≤ c ∧ c < 256 ∧ c ≠ 127 ∧ c ≠ 37 ∧ c ≠ 63 ∧ c ≠ 35

/-- The link built from a safe path and a query: a text that decodes to the same path and query. -/
theorem withQuery_safe {base : Str} (query : Str) (h : Safe base) :
    ∃ p, withQuery base query = some (p ++ 63 :: query) ∧ 35 ∉ p ∧ 63 ∉ p ∧
      unescape false p = some base := by
  have h35 : 35 ∉ base := fun e => (h _ e).2.2.2.2.2 rfl
  have h63 : 63 ∉ base := fun e => (h _ e).2.2.2.2.1 rfl
  have h37 : 37 ∉ base := fun e => (h _ e).2.2.2.1 rfl
  have h256 : ∀ c ∈ base, c < 256 := fun c hc => (h c hc).2.1
  have hctl : base.any (fun c => decide (c < 32) || decide (c = 127)) = false := by
    rw [Bool.eq_false_iff, Ne, List.any_eq_true]
    rintro ⟨c, hc, h'⟩
    have := h c hc
    simp at h'
    omega
  have hu := unescape_plain false base h37 (by simp)
  refine ⟨reEscape .path base base, ?_, ?_, ?_, ?_⟩
  · unfold withQuery
    rw [if_neg (by rw [hctl]; simp)]
    simp only [cutAt_none h35, cutAt_none h63, hu]
    simp [unescape]
  · unfold reEscape
    split
    · exact h35
    · intro e; exact (escape_path_clean h256 e).1 rfl
  · unfold reEscape
    split
    · exact h63
    · intro e; exact (escape_path_clean h256 e).2 rfl
  · unfold reEscape
    split
    · exact hu
    · exact unescape_escape_path base h256

/-- The path part of the link is printable ASCII, and it is the path itself if the path is a valid
encoding. -/
theorem withQuery_printable {base : Str} (query : Str) (h : Safe base) :
    ∃ p, withQuery base query = some (p ++ 63 :: query) ∧
      (∀ c ∈ p, 33 ≤ c ∧ c < 127 ∧ c ≠ 34 ∧ c ≠ 60 ∧ c ≠ 62) ∧ unescape false p = some base ∧
      ((∀ c ∈ base, validByte .path c = true) → p = base) := by
  have h35 : 35 ∉ base := fun e => (h _ e).2.2.2.2.2 rfl
  have h63 : 63 ∉ base := fun e => (h _ e).2.2.2.2.1 rfl
  have h37 : 37 ∉ base := fun e => (h _ e).2.2.2.1 rfl
  have h256 : ∀ c ∈ base, c < 256 := fun c hc => (h c hc).2.1
  have hctl : base.any (fun c => decide (c < 32) || decide (c = 127)) = false := by
    rw [Bool.eq_false_iff, Ne, List.any_eq_true]
    rintro ⟨c, hc, h'⟩
    have := h c hc
    simp at h'
    omega
  have hu := unescape_plain false base h37 (by simp)
  refine ⟨reEscape .path base base, ?_, ?_, ?_, ?_⟩
  · unfold withQuery
    rw [if_neg (by rw [hctl]; simp)]
    simp only [cutAt_none h35, cutAt_none h63, hu]
    simp [unescape]
  · unfold reEscape
    split
    · rename_i hv
      rw [List.all_eq_true] at hv
      exact fun c hc => validByte_printable (h256 c hc) (hv c hc)
    · exact fun c hc => escape_path_printable h256 hc
  · unfold reEscape
    split
    · exact hu
    · exact unescape_escape_path base h256
  · intro hv
    unfold reEscape
    rw [if_pos (by rw [List.all_eq_true]; exact hv)]

/-! ## The list of previous indices as text -/

theorem natText_bytes (n : Nat) : ∀ c ∈ Dec.natText n, c < 256 := by
  intro c hc
  have := natText_all hc
  omega

theorem natText_not {n d : Nat} (h : d < 48 ∨ 57 < d) : d ∉ Dec.natText n := by
  intro e; have := natText_all e; omega

theorem join_cons_head (sep : Str) (x : Nat) (t : Str) (ts : List Str) :
    x :: join sep (t :: ts) = join sep ((x :: t) :: ts) := by
  cases ts <;> simp [join]

theorem join_snoc_tail (sep : Str) (ts : List Str) (t x : Str) :
    join sep (ts ++ [t]) ++ x = join sep (ts ++ [t ++ x]) := by
  induction ts with
  | nil => simp [join]
  | cons a as ih =>
    cases as with
    | nil => simp [join]
    | cons b bs =>
      have h1 : join sep (a :: b :: bs ++ [t]) = a ++ sep ++ join sep (b :: bs ++ [t]) := by
        simp [join]
      have h2 : join sep (a :: b :: bs ++ [t ++ x]) = a ++ sep ++ join sep (b :: bs ++ [t ++ x]) := by
        simp [join]
      rw [h1, h2, ← ih]
      simp

/-- The bracketed list, split at spaces and joined with commas. -/
theorem join_fields_sprint (l : List Nat) (hl : l ≠ []) :
    join [44] (fields (sprint l)) = [91] ++ join [44] (l.map Dec.natText) ++ [93] := by
  obtain ⟨init, last, rfl⟩ : ∃ init last, l = init ++ [last] := ⟨_, _, (List.dropLast_concat_getLast hl).symm⟩
  -- the pieces with their brackets
  have pieces : ∀ sep : Str, ∃ ps : List Str, (∀ s', [91] ++ join s' ((init ++ [last]).map Dec.natText) ++ [93] = join s' ps)
      ∧ ps ≠ [] ∧ (∀ p ∈ ps, 32 ∉ p ∧ p ≠ []) := by
    intro _
    cases init with
    | nil =>
      refine ⟨[91 :: (Dec.natText last ++ [93])], ?_, by simp, ?_⟩
      · intro s'; simp [join]
      · intro p hp
        simp only [List.mem_cons, List.not_mem_nil, or_false] at hp
        subst hp
        refine ⟨?_, by simp⟩
        simp [natText_not (n := last) (d := 32) (by omega)]
    | cons a as =>
      refine ⟨(91 :: Dec.natText a) :: (as.map Dec.natText ++ [Dec.natText last ++ [93]]), ?_, by simp, ?_⟩
      · intro s'
        have e1 : [91] ++ join s' ((a :: as ++ [last]).map Dec.natText)
            = join s' (((91 :: Dec.natText a) :: as.map Dec.natText) ++ [Dec.natText last]) := by
          rw [List.singleton_append]
          simp only [List.cons_append, List.map_cons, List.map_append, List.map_nil]
          rw [join_cons_head]
        rw [e1, join_snoc_tail]
        simp
      · intro p hp
        simp only [List.mem_cons, List.mem_append, List.mem_map, List.not_mem_nil, or_false] at hp
        rcases hp with hp | ⟨n, _, hp⟩ | hp
        · subst hp
          refine ⟨?_, by simp⟩
          simp [natText_not (n := a) (d := 32) (by omega)]
        · subst hp
          exact ⟨natText_not (by omega), Dec.natText_ne n⟩
        · subst hp
          refine ⟨?_, by simp⟩
          simp [natText_not (n := last) (d := 32) (by omega)]
  obtain ⟨ps, h1, h2, h3⟩ := pieces []
  unfold fields sprint
  rw [h1 [32], split_join ps h2 (fun p hp => (h3 p hp).1), h1 [44]]
  congr 1
  rw [List.filter_eq_self]
  intro p hp
  simp [(h3 p hp).2]

theorem join_digits_ends (l : List Nat) (hl : l ≠ []) :
    (∃ c cs, join [44] (l.map Dec.natText) = c :: cs ∧ 48 ≤ c ∧ c ≤ 57) ∧
    (∃ c cs, join [44] (l.map Dec.natText) = cs ++ [c] ∧ 48 ≤ c ∧ c ≤ 57) := by
  constructor
  · cases l with
    | nil => exact absurd rfl hl
    | cons a as =>
      obtain ⟨c, cs, h, h1, h2⟩ := Dec.natText_head a
      cases as with
      | nil => exact ⟨c, cs, by simp [join, h], h1, h2⟩
      | cons b bs =>
        exact ⟨c, cs ++ [44] ++ join [44] ((b :: bs).map Dec.natText), by simp [join, h], h1, h2⟩
  · obtain ⟨init, last, rfl⟩ : ∃ init last, l = init ++ [last] := ⟨_, _, (List.dropLast_concat_getLast hl).symm⟩
    have hne := Dec.natText_ne last
    have e : Dec.natText last = (Dec.natText last).dropLast ++ [(Dec.natText last).getLast hne] :=
      (List.dropLast_concat_getLast hne).symm
    have hd := natText_all (List.getLast_mem hne)
    clear hl
    have : join [44] ((init ++ [last]).map Dec.natText)
        = join [44] (init.map Dec.natText ++ [(Dec.natText last).dropLast]) ++ [(Dec.natText last).getLast hne] := by
      rw [join_snoc_tail, List.map_append, List.map_singleton, ← e]
    exact ⟨_, _, this, hd.1, hd.2⟩

theorem csv_eq (l : List Nat) (hl : l ≠ []) : csv l = join [44] (l.map Dec.natText) := by
  unfold csv
  rw [join_fields_sprint l hl]
  obtain ⟨⟨c, cs, h1, h2, h3⟩, ⟨d, ds, h4, h5, h6⟩⟩ := join_digits_ends l hl
  unfold trimBrackets
  generalize join [44] (l.map Dec.natText) = t at *
  have e1 : ([91] ++ t ++ [93]).dropWhile (fun c => decide (c = 91) || decide (c = 93)) = t ++ [93] := by
    rw [h1]
    simp only [List.cons_append, List.nil_append]
    rw [List.dropWhile_cons_of_pos (by simp), List.dropWhile_cons_of_neg]
    simp; omega
  rw [e1]
  have e2 : (t ++ [93]).reverse.dropWhile (fun c => decide (c = 91) || decide (c = 93)) = t.reverse := by
    rw [h4]
    simp only [List.reverse_append, List.reverse_cons, List.reverse_nil, List.nil_append, List.cons_append]
    rw [List.dropWhile_cons_of_pos (by simp), List.dropWhile_cons_of_neg]
    simp; omega
  rw [e2, List.reverse_reverse]

theorem parseIndices_texts (l : List Nat) (h : ∀ n ∈ l, n < 2 ^ 64) :
    parseIndices (l.map Dec.natText) = l := by
  induction l with
  | nil => rfl
  | cons a as ih =>
    simp only [List.map_cons, parseIndices, Dec.parseUint_natText a (h a (by simp))]
    rw [ih (fun n hn => h n (by simp [hn]))]

theorem parse_csv (l : List Nat) (hl : l ≠ []) (h : ∀ n ∈ l, n < 2 ^ 64) :
    parseIndices (split [44] (csv l)) = l := by
  rw [csv_eq l hl, split_join]
  · exact parseIndices_texts l h
  · simp [hl]
  · intro x hx
    rw [List.mem_map] at hx
    obtain ⟨n, _, rfl⟩ := hx
    exact natText_not (by omega)

theorem csv_bytes (l : List Nat) (hl : l ≠ []) : ∀ c ∈ csv l, c < 256 := by
  rw [csv_eq l hl]
  have : ∀ (ts : List Str), (∀ t ∈ ts, ∀ c ∈ t, c < 256) → ∀ c ∈ join [44] ts, c < 256 := by
    intro ts
    induction ts with
    | nil => intro _ c hc; simp [join] at hc
    | cons t ts ih =>
      intro h c hc
      cases ts with
      | nil => exact h t (by simp) c hc
      | cons u us =>
        simp only [join, List.mem_append, List.mem_singleton] at hc
        rcases hc with (hc | hc) | hc
        · exact h t (by simp) c hc
        · omega
        · exact ih (fun t ht => h t (by simp [List.mem_cons] at ht ⊢; exact Or.inr ht)) c hc
  apply this
  intro t ht
  rw [List.mem_map] at ht
  obtain ⟨n, _, rfl⟩ := ht
  exact natText_bytes n

/-! ## Queries -/

/-- Reading a parameter out of a query made of clean `key=value` pairs. -/
theorem queryGet_pairs (ps : List (Str × Str)) (hne : ps ≠ [])
    (hk : ∀ p ∈ ps, p.1 ≠ [] ∧ (∀ c ∈ p.1, Pg.isAlnum c = true))
    (hv : ∀ p ∈ ps, ∀ c ∈ p.2, c < 256) (key : Str) :
    queryGet (join [38] (ps.map (fun p => p.1 ++ 61 :: escape .query p.2))) key
      = ((ps.filter (fun p => p.1 = key)).map (·.2)).head?.getD [] := by
  have alnum : ∀ c, isAlnum c = true → c ≠ 38 ∧ c ≠ 61 ∧ c ≠ 59 ∧ c ≠ 37 ∧ c ≠ 43 := by
    intro c hc
    refine ⟨?_, ?_, ?_, ?_, ?_⟩ <;> (intro e; subst e; exact absurd hc (by decide))
  unfold queryGet
  rw [split_join]
  · congr 1
    clear hne
    induction ps with
    | nil => rfl
    | cons p ps ih =>
      have ih' := ih (fun q hq => hk q (by simp [hq])) (fun q hq => hv q (by simp [hq]))
      obtain ⟨k, v⟩ := p
      have hk1 := hk (k, v) (by simp)
      have hv1 := hv (k, v) (by simp)
      simp only at hk1 hv1
      have h61 : 61 ∉ k := fun e => (alnum _ (hk1.2 _ e)).2.1 rfl
      have h37 : 37 ∉ k := fun e => (alnum _ (hk1.2 _ e)).2.2.2.1 rfl
      have h43 : 43 ∉ k := fun e => (alnum _ (hk1.2 _ e)).2.2.2.2 rfl
      have h59 : 59 ∉ k ++ 61 :: escape .query v := by
        simp only [List.mem_append, List.mem_cons, not_or]
        exact ⟨fun e => (alnum _ (hk1.2 _ e)).2.2.1 rfl, by decide,
          fun e => (escape_query_clean hv1 e).2.2.1 rfl⟩
      simp only [List.map_cons, List.filterMap_cons]
      rw [if_neg (by simp [h59])]
      simp only [cutAt_some _ h61, unescape_plain true k h37 (fun _ => h43), unescape_escape_query v hv1]
      by_cases hkk : k = key
      · simp [hkk]
      · simp only [hkk, if_false]
        rw [ih', List.filter_cons_of_neg (by simpa using hkk)]
  · simpa using hne
  · intro x hx
    rw [List.mem_map] at hx
    obtain ⟨p, hp, rfl⟩ := hx
    simp only [List.mem_append, List.mem_cons, not_or]
    exact ⟨fun e => (alnum _ ((hk p hp).2 _ e)).1 rfl, by decide,
      fun e => (escape_query_clean (hv p hp) e).1 rfl⟩

/-- The page described by a link's query. -/
theorem fromQuery_encode (items cur : Nat) (prev : List Nat) (hi : 1 ≤ items ∧ items ≤ 1000)
    (hc : cur < 2 ^ 64) (hp : ∀ n ∈ prev, n < 2 ^ 64) :
    newPaginationFromQuery (encodeQuery items cur (if prev.length > 0 then some (csv prev) else none))
      = ⟨items, cur, prev⟩ := by
  have hki : ∀ c ∈ kItems, isAlnum c = true := by decide
  have hkp : ∀ c ∈ kPrevious, isAlnum c = true := by decide
  have hkc : ∀ c ∈ kCurrent, isAlnum c = true := by decide
  have hit : Dec.parseUint (Dec.natText items) = some items := Dec.parseUint_natText _ (by omega)
  have hct := Dec.parseUint_natText cur hc
  have hnp : newPagination items cur prev = ⟨items, cur, prev⟩ := by
    unfold newPagination
    have e : (if items ≤ 0 then 10 else items) = items := if_neg (by omega)
    simp only [e]
    rw [if_neg (by omega)]
  unfold newPaginationFromQuery newPaginationFromString
  by_cases h : prev = []
  · subst h
    have e : encodeQuery items cur (if ([] : List Nat).length > 0 then some (csv []) else none)
        = join [38] ([(kCurrent, Dec.natText cur), (kItems, Dec.natText items)].map
            (fun p => p.1 ++ 61 :: escape .query p.2)) := by
      simp [encodeQuery]
    rw [e]
    have hk : ∀ p ∈ [(kCurrent, Dec.natText cur), (kItems, Dec.natText items)],
        p.1 ≠ [] ∧ (∀ c ∈ p.1, isAlnum c = true) := by
      intro p hp
      simp only [List.mem_cons, List.not_mem_nil, or_false] at hp
      rcases hp with rfl | rfl
      · exact ⟨by simp [kCurrent], hkc⟩
      · exact ⟨by simp [kItems], hki⟩
    have hv : ∀ p ∈ [(kCurrent, Dec.natText cur), (kItems, Dec.natText items)], ∀ c ∈ p.2, c < 256 := by
      intro p hp
      simp only [List.mem_cons, List.not_mem_nil, or_false] at hp
      rcases hp with rfl | rfl <;> exact natText_bytes _
    rw [queryGet_pairs _ (by simp) hk hv, queryGet_pairs _ (by simp) hk hv, queryGet_pairs _ (by simp) hk hv]
    have e1 : ([(kCurrent, Dec.natText cur), (kItems, Dec.natText items)].filter (fun p => p.1 = kItems))
        = [(kItems, Dec.natText items)] := by
      simp [kItems, kCurrent]
    have e2 : ([(kCurrent, Dec.natText cur), (kItems, Dec.natText items)].filter (fun p => p.1 = kCurrent))
        = [(kCurrent, Dec.natText cur)] := by
      simp [kItems, kCurrent]
    have e3 : ([(kCurrent, Dec.natText cur), (kItems, Dec.natText items)].filter (fun p => p.1 = kPrevious))
        = [] := by
      simp [kItems, kCurrent, kPrevious]
    rw [e1, e2, e3]
    simp only [List.map_cons, List.map_nil, List.head?_cons, Option.getD_some, List.head?_nil,
      Option.getD_none, hit, hct]
    have e4 : parseIndices (split [44] []) = [] := by decide
    rw [e4, hnp]
  · have hlen : prev.length > 0 := List.length_pos_iff.mpr h
    rw [if_pos hlen]
    have e : encodeQuery items cur (some (csv prev))
        = join [38] ([(kCurrent, Dec.natText cur), (kItems, Dec.natText items), (kPrevious, csv prev)].map
            (fun p => p.1 ++ 61 :: escape .query p.2)) := by
      simp [encodeQuery]
    rw [e]
    have hk : ∀ p ∈ [(kCurrent, Dec.natText cur), (kItems, Dec.natText items), (kPrevious, csv prev)],
        p.1 ≠ [] ∧ (∀ c ∈ p.1, isAlnum c = true) := by
      intro p hp
      simp only [List.mem_cons, List.not_mem_nil, or_false] at hp
      rcases hp with rfl | rfl | rfl
      · exact ⟨by simp [kCurrent], hkc⟩
      · exact ⟨by simp [kItems], hki⟩
      · exact ⟨by simp [kPrevious], hkp⟩
    have hv : ∀ p ∈ [(kCurrent, Dec.natText cur), (kItems, Dec.natText items), (kPrevious, csv prev)],
        ∀ c ∈ p.2, c < 256 := by
      intro p hp
      simp only [List.mem_cons, List.not_mem_nil, or_false] at hp
      rcases hp with rfl | rfl | rfl
      · exact natText_bytes _
      · exact natText_bytes _
      · exact csv_bytes prev h
    rw [queryGet_pairs _ (by simp) hk hv, queryGet_pairs _ (by simp) hk hv, queryGet_pairs _ (by simp) hk hv]
    have e1 : ([(kCurrent, Dec.natText cur), (kItems, Dec.natText items), (kPrevious, csv prev)].filter
        (fun p => p.1 = kItems)) = [(kItems, Dec.natText items)] := by
      simp [kItems, kCurrent, kPrevious]
    have e2 : ([(kCurrent, Dec.natText cur), (kItems, Dec.natText items), (kPrevious, csv prev)].filter
        (fun p => p.1 = kCurrent)) = [(kCurrent, Dec.natText cur)] := by
      simp [kItems, kCurrent, kPrevious]
    have e3 : ([(kCurrent, Dec.natText cur), (kItems, Dec.natText items), (kPrevious, csv prev)].filter
        (fun p => p.1 = kPrevious)) = [(kPrevious, csv prev)] := by
      simp [kItems, kCurrent, kPrevious]
    rw [e1, e2, e3]
    simp only [List.map_cons, List.map_nil, List.head?_cons, Option.getD_some, hit, hct]
    rw [parse_csv prev h hp, hnp]

end RangeDB.Pg

import Verif.Proof.Indent

/-!
# Every valid text is the text of a value
-/

namespace RangeDB.Ind

open RangeDB.Json (isSpace)

/-- The scanner accepts the rest `t` of a text. -/
def ok (s : Scan) (t : Str) : Prop := (toks s t).isSome = true

theorem ok_cons {s : Scan} {c : Nat} {t : Str} : ok s (c :: t) ↔ ∃ s' v, step s c = some (s', v) ∧ ok s' t := by
  simp only [ok, toks]
  cases hs : step s c with
  | none => simp
  | some p =>
    obtain ⟨s', v⟩ := p
    by_cases hv : v = .skipSpace <;> simp [hv]

theorem ok_nil {s : Scan} : ok s [] ↔ s.eof = true := by
  simp only [ok, toks]
  split <;> simp_all

/-- A byte of a text without white space. -/
theorem step_bare {s s' : Scan} {c : Nat} {v : Code} {t : Str} (hs : step s c = some (s', v)) (hb : bareM s.st.mode (c :: t) = c :: t) :
    v ≠ .skipSpace ∧ v ≠ .ended ∧ bareM s'.st.mode t = t := by
  have hm := step_mode hs
  have hlen := bare_length t
  revert hm hb
  cases s.st.mode
  · intro hb hm
    simp only at hm
    cases hsp : isSpace c with
    | true =>
      exfalso
      simp only [bareM, bare, white_eq, hsp, if_true] at hb
      have := congrArg List.length hb
      simp at this
      omega
    | false =>
      rw [hsp] at hm
      simp only [Bool.false_eq_true, false_iff, not_or] at hm
      refine ⟨hm.1.1, hm.1.2, ?_⟩
      rw [hm.2]
      simp only [bareM, bare, white_eq, hsp] at hb
      by_cases h34 : c = 34
      · simp only [h34, if_true] at hb ⊢
        simpa [bareM] using hb
      · simp only [h34, if_false] at hb ⊢
        simpa [bareM] using hb
  · intro hb hm
    simp only at hm
    refine ⟨by rw [hm.1]; simp, by rw [hm.1]; simp, ?_⟩
    rw [hm.2]
    simp only [bareM, bareString] at hb
    by_cases h34 : c = 34
    · simp only [h34, if_true] at hb ⊢
      simpa [bareM] using hb
    · by_cases h92 : c = 92
      · simp only [h92] at hb ⊢
        simpa [bareM] using hb
      · simp only [h34, h92, if_false] at hb ⊢
        simpa [bareM] using hb
  · intro hb hm
    simp only at hm
    refine ⟨by rw [hm.1]; simp, by rw [hm.1]; simp, ?_⟩
    rw [hm.2]
    simpa [bareM, bareEscaped] using hb

theorem step_bare_back {s s' : Scan} {c : Nat} {v : Code} {t : Str} (hs : step s c = some (s', v)) (h1 : v ≠ .skipSpace)
    (h2 : v ≠ .ended) (hb : bareM s'.st.mode t = t) : bareM s.st.mode (c :: t) = c :: t := by
  have hm := step_mode hs
  revert hm
  cases s.st.mode
  · intro hm
    simp only at hm
    have hsp : isSpace c = false := by
      cases hh : isSpace c with
      | false => rfl
      | true => rcases hm.1.1 hh with h | h <;> contradiction
    rw [hm.2] at hb
    simp only [bareM, bare, white_eq, hsp]
    by_cases h34 : c = 34
    · simp only [h34, if_true] at hb ⊢
      simpa [bareM] using hb
    · simp only [h34, if_false] at hb ⊢
      simpa [bareM] using hb
  · intro hm
    simp only at hm
    rw [hm.2] at hb
    simp only [bareM, bareString]
    by_cases h34 : c = 34
    · simp only [h34, if_true] at hb ⊢
      simpa [bareM] using hb
    · by_cases h92 : c = 92
      · simp only [h92] at hb ⊢
        simpa [bareM] using hb
      · simp only [h34, h92, if_false] at hb ⊢
        simpa [bareM] using hb
  · intro hm
    simp only at hm
    rw [hm.2] at hb
    simpa [bareM, bareEscaped] using hb

/-- What is left behind a value under the open brackets `S`. -/
def Rest (S : List Ps) (u : Str) : Prop := bare u = u ∧ (S ≠ [] → ok ⟨.endValue, S⟩ u) ∧ (S = [] → u = [])

theorem rest_pop {S : List Ps} {u : Str} (h : ok (pop S) u) (hb : bare u = u) : Rest S u := by
  refine ⟨hb, fun hS => by simpa [pop, hS] using h, fun hS => ?_⟩
  subst hS
  cases u with
  | nil => rfl
  | cons c u =>
    exfalso
    obtain ⟨s', v, hs, _⟩ := ok_cons.1 h
    have hb' : bareM (pop []).st.mode (c :: u) = c :: u := hb
    have := step_bare hs hb'
    simp only [pop, if_true, step] at hs
    split at hs <;> simp at hs
    exact this.2.1 hs.2.symm

theorem eof_stack {st : St} {S : List Ps} (h : (Scan.mk st S).eof = true) (ht : st ≠ .endTop) : S = [] := by
  cases S with
  | nil => rfl
  | cons p ps =>
    exfalso
    cases st <;> simp_all [Scan.eof, step, beginValue, beginString, endValue, isSpace, go, Digit, Hex]

theorem last_eof {st : St} (h : st.last = true) : (Scan.mk st []).eof = true := by
  cases st <;> simp_all [Scan.eof, step, endValue, isSpace, Digit, St.last]

/-- The rest of a literal ends where the scanner leaves it. -/
theorem literal_parse (t : Str) : ∀ {st : St} {S : List Ps}, ok ⟨st, S⟩ t → bareM st.mode t = t → st.first = false → st ≠ .endTop →
    ∃ r u, t = r ++ u ∧ ok ⟨st, []⟩ r ∧ bareM st.mode r = r ∧ Rest S u := by
  induction t with
  | nil =>
    intro st S h hb _ ht
    have := eof_stack (ok_nil.1 h) ht
    subst this
    exact ⟨[], [], rfl, h, hb, rfl, by simp, by simp⟩
  | cons c t ih =>
    intro st S h hb hf ht
    obtain ⟨s', v, hs, h'⟩ := ok_cons.1 h
    obtain ⟨n1, n2, n3⟩ := step_bare hs hb
    by_cases hc : v = .cont
    · subst hc
      obtain ⟨g1, g2, g3⟩ := cont_stack hs
      have hstk : s' = ⟨s'.st, S⟩ := by
        have := g3 S
        rw [hs] at this
        simpa using this
      rw [hstk] at h'
      obtain ⟨r, u, k1, k2, k3, k4⟩ := ih h' n3 g1 g2
      exact ⟨c :: r, u, by rw [k1]; rfl, ok_cons.2 ⟨_, _, g3 [], k2⟩, step_bare_back (g3 []) n1 n2 k3, k4⟩
    · have hl : st.last = true ∧ endValue S c = some (s', v) := by
        rcases step_cases hs with ⟨hl, he⟩ | ⟨h1, _⟩ | ⟨_, _, h1, _⟩ | ⟨h1, _⟩ | ⟨h1, _⟩ | ⟨h1, _⟩ | ⟨h1, _⟩
        · exact ⟨hl, he⟩
        · simp only at h1; rw [h1] at hf; simp [St.first] at hf
        · simp only at h1; rw [h1] at hf; simp [St.first] at hf
        · simp only at h1; rcases h1 with h1 | h1 <;> rw [h1] at hf <;> simp [St.first] at hf
        · simp only at h1; rcases h1 with h1 | h1 <;> rw [h1] at hf <;> simp [St.first] at hf
        · exact absurd h1 ht
        · exact absurd h1 hc
      have hmode := (last_mode hl.1).1
      rw [hmode] at hb
      refine ⟨[], c :: t, rfl, ok_nil.2 (last_eof hl.1), by rw [hmode]; rfl, hb, fun _ => ?_, fun hS => ?_⟩
      · exact ok_cons.2 ⟨s', v, hl.2, h'⟩
      · exfalso
        subst hS
        have := hl.2
        simp only [endValue] at this
        split at this <;> simp at this
        exact n2 this.2.symm

theorem ok_valid {t : Str} : ok Scan.start t ↔ valid t = true := by
  rw [ok, toks_isSome]

/-- A literal that begins with `c`. -/
theorem leaf_parse {c : Nat} {t : Str} {st0 : St} {S : List Ps} (hstep : ∀ S', step ⟨.beginValue, S'⟩ c = some (⟨st0, S'⟩, .beginLiteral))
    (h : ok ⟨st0, S⟩ t) (hb : bareM st0.mode t = t) (hf : st0.first = false) (ht : st0 ≠ .endTop) (h91 : c ≠ 91) (h123 : c ≠ 123) :
    ∃ r u, c :: t = (c :: r) ++ u ∧ IsLeaf (c :: r) ∧ Rest S u := by
  obtain ⟨r, u, k1, k2, k3, k4⟩ := literal_parse t h hb hf ht
  refine ⟨r, u, by rw [k1]; rfl, (leaf_iff _).2 ⟨ok_valid.1 (ok_cons.2 ⟨_, _, hstep [], k2⟩), ?_, by simpa using h91, by simpa using h123⟩, k4⟩
  have hs := hstep []
  exact step_bare_back (s := ⟨.beginValue, []⟩) hs (by simp) (by simp) k3

theorem begin_step {st : St} (h : Begins st) {S : List Ps} {c : Nat} (h93 : st = .beginValueOrEmpty → c ≠ 93) :
    step ⟨st, S⟩ c = beginValue st S c := by
  rcases h with rfl | rfl
  · rfl
  · simp [step, h93 rfl]

/-- What a value can begin with. -/
theorem begin_cases {st : St} {S : List Ps} {c : Nat} {s' : Scan} {v : Code} (h : beginValue st S c = some (s', v))
    (hv : v ≠ .skipSpace) :
    (c = 91 ∧ S.length + 1 ≤ maxNesting ∧ s' = ⟨.beginValueOrEmpty, .arrayValue :: S⟩) ∨
    (c = 123 ∧ S.length + 1 ≤ maxNesting ∧ s' = ⟨.beginStringOrEmpty, .objectKey :: S⟩) ∨
    (c ≠ 91 ∧ c ≠ 123 ∧ s'.stack = S ∧ s'.st.first = false ∧ s'.st ≠ .endTop ∧
      ∀ S', step ⟨.beginValue, S'⟩ c = some (⟨s'.st, S'⟩, .beginLiteral)) := by
  unfold beginValue at h
  split at h
  · simp at h; exact absurd h.2.symm hv
  split at h
  · rename_i h123
    unfold push at h
    split at h <;> simp at h
    rename_i hn
    exact Or.inr (Or.inl ⟨h123, hn, h.1.symm⟩)
  split at h
  · rename_i h91
    unfold push at h
    split at h <;> simp at h
    rename_i hn
    exact Or.inl ⟨h91, hn, h.1.symm⟩
  refine Or.inr (Or.inr ?_)
  rename_i hsp h123 h91
  refine ⟨h91, h123, ?_⟩
  simp only [step, beginValue, hsp, h123, h91, if_false]
  revert h
  repeat' split
  all_goals (intro h; simp at h; try (obtain ⟨rfl, rfl⟩ := h; simp_all [St.first]))

/-- A text that begins with a value. -/
def V (t : Str) : Prop := ∀ (st : St) (S : List Ps), Begins st → ok ⟨st, S⟩ t → bare t = t → (st = .beginValueOrEmpty → t.head? ≠ some 93) →
  S.length ≤ maxNesting →
  ∃ (v : Tree) (u : Str), t = v.text ++ u ∧ v.Good ∧ S.length + v.depth ≤ maxNesting ∧ Rest S u ∧ u.length < t.length

/-- A text that begins behind an element of an array. -/
def E (t : Str) : Prop := ∀ S : List Ps, ok ⟨.endValue, .arrayValue :: S⟩ t → bare t = t → S.length + 1 ≤ maxNesting →
  ∃ (vs : List Tree) (u : Str), t = textElems vs ++ u ∧ Goods vs ∧ S.length + 1 + depths vs ≤ maxNesting ∧ Rest S u ∧ u.length < t.length

/-- A text that begins with a key. -/
def K (t : Str) : Prop := ∀ (st : St) (S : List Ps), st = .beginString ∨ st = .beginStringOrEmpty → ok ⟨st, .objectKey :: S⟩ t → bare t = t →
  (st = .beginStringOrEmpty → t.head? ≠ some 125) → S.length + 1 ≤ maxNesting →
  ∃ (k : Str) (v : Tree) (u : Str), t = k ++ 58 :: (v.text ++ u) ∧ IsKey k ∧ v.Good ∧ S.length + 1 + v.depth ≤ maxNesting ∧ Rest (.objectValue :: S) u ∧
    u.length < t.length

/-- A text that begins behind a field of an object. -/
def F (t : Str) : Prop := ∀ S : List Ps, ok ⟨.endValue, .objectValue :: S⟩ t → bare t = t → S.length + 1 ≤ maxNesting →
  ∃ (fs : List (Str × Tree)) (u : Str), t = textFields fs ++ u ∧ Goodf fs ∧ S.length + 1 + depthf fs ≤ maxNesting ∧ Rest S u ∧ u.length < t.length

theorem parse_value {t : Str} (ih : ∀ t', t'.length < t.length → V t' ∧ E t' ∧ K t' ∧ F t') : V t := by
  intro st S hst h hb h93 hn
  cases t with
  | nil =>
    exfalso
    have := ok_nil.1 h
    rcases hst with rfl | rfl <;> simp [Scan.eof, step, beginValue, isSpace] at this
  | cons c t =>
    obtain ⟨s', v, hs, h'⟩ := ok_cons.1 h
    have hmode : (Scan.mk st S).st.mode = .out := by rcases hst with rfl | rfl <;> rfl
    have hb0 : bareM (Scan.mk st S).st.mode (c :: t) = c :: t := by rw [hmode]; exact hb
    obtain ⟨n1, n2, n3⟩ := step_bare hs hb0
    rw [begin_step hst (fun h => by simpa using h93 h)] at hs
    rcases begin_cases hs n1 with ⟨rfl, hl, rfl⟩ | ⟨rfl, hl, rfl⟩ | ⟨h91, h123, hstk, hf, ht, hst'⟩
    · have hbt : bare t = t := n3
      by_cases he : t.head? = some 93
      · cases t with
        | nil => simp at he
        | cons x u =>
          have hx : x = 93 := by simpa using he
          subst hx
          obtain ⟨s2, v2, hs2, h2⟩ := ok_cons.1 h'
          have hp : s2 = pop S ∧ v2 = .endArray := by simpa [step, endValue, isSpace, eq_comm] using hs2
          have hu := (step_bare hs2 n3).2.2
          rw [hp.1] at h2 hu
          rw [(pop_mode S).1] at hu
          exact ⟨.array [], u, by simp [Tree.text], by simp [Tree.Good, Goods], by simp [Tree.depth, depths]; omega, rest_pop h2 hu,
            by simp; omega⟩
      · obtain ⟨w, u1, e1, g1, d1, r1, l1⟩ := (ih t (by simp)).1 .beginValueOrEmpty (.arrayValue :: S) (Or.inr rfl) h' hbt
          (fun _ => he) (by simpa using hl)
        obtain ⟨vs, u, e2, g2, d2, r2, l2⟩ := (ih u1 (by simp; omega)).2.1 S (r1.2.1 (by simp)) r1.1 hl
        refine ⟨.array (w :: vs), u, ?_, by simp [Tree.Good, Goods, g1, g2], ?_, r2, by simp; omega⟩
        · rw [e1, e2]; simp [Tree.text]
        · simp only [Tree.depth, depths, List.length_cons] at d1 ⊢; omega
    · have hbt : bare t = t := n3
      by_cases he : t.head? = some 125
      · cases t with
        | nil => simp at he
        | cons x u =>
          have hx : x = 125 := by simpa using he
          subst hx
          obtain ⟨s2, v2, hs2, h2⟩ := ok_cons.1 h'
          have hp : s2 = pop S ∧ v2 = .endObject := by simpa [step, endValue, isSpace, eq_comm] using hs2
          have hu := (step_bare hs2 n3).2.2
          rw [hp.1] at h2 hu
          rw [(pop_mode S).1] at hu
          exact ⟨.object [], u, by simp [Tree.text], by simp [Tree.Good, Goodf], by simp [Tree.depth, depthf]; omega, rest_pop h2 hu,
            by simp; omega⟩
      · obtain ⟨k, w, u1, e1, gk, g1, d1, r1, l1⟩ := (ih t (by simp)).2.2.1 .beginStringOrEmpty S (Or.inr rfl) h' hbt
          (fun _ => he) hl
        obtain ⟨fs, u, e2, g2, d2, r2, l2⟩ := (ih u1 (by simp; omega)).2.2.2 S (r1.2.1 (by simp)) r1.1 hl
        refine ⟨.object ((k, w) :: fs), u, ?_, by simp [Tree.Good, Goodf, gk, g1, g2], ?_, r2, by simp; omega⟩
        · rw [e1, e2]; simp [Tree.text]
        · simp only [Tree.depth, depthf] at d1 ⊢; omega
    · have hs'' : s' = ⟨s'.st, S⟩ := by rw [← hstk]
      rw [hs''] at h'
      obtain ⟨r, u, e1, g1, r1⟩ := leaf_parse hst' h' n3 hf ht h91 h123
      have hlen := congrArg List.length e1
      simp only [List.length_cons, List.length_append] at hlen
      exact ⟨.leaf (c :: r), u, by rw [e1]; simp [Tree.text], by simpa [Tree.Good] using g1, by simpa [Tree.depth] using hn, r1,
        by simp; omega⟩

theorem parse_elems {t : Str} (ih : ∀ t', t'.length < t.length → V t' ∧ E t' ∧ K t' ∧ F t') : E t := by
  intro S h hb hn
  cases t with
  | nil => have := ok_nil.1 h; simp [Scan.eof, step, endValue, isSpace] at this
  | cons c t =>
    obtain ⟨s', v, hs, h'⟩ := ok_cons.1 h
    have hb0 : bareM (Scan.mk .endValue (.arrayValue :: S)).st.mode (c :: t) = c :: t := hb
    obtain ⟨n1, n2, n3⟩ := step_bare hs hb0
    have hs0 : endValue (.arrayValue :: S) c = some (s', v) := hs
    rcases endValue_cases hs0 with ⟨_, _, _, hq⟩ | ⟨_, _, _, hq⟩ | ⟨_, hq, _⟩ | ⟨_, hq, _⟩ | ⟨_, hq, _⟩ | ⟨ps, hq, rfl, rfl, _⟩ |
      ⟨ps, hq, rfl, rfl, _⟩
    · exact absurd hq n2
    · exact absurd hq n1
    · simp at hq
    · simp at hq
    · simp at hq
    · have hps : S = ps := by simpa using hq
      subst hps
      have hbt : bare t = t := n3
      obtain ⟨w, u1, e1, g1, d1, r1, l1⟩ := (ih t (by simp)).1 .beginValue (.arrayValue :: S) (Or.inl rfl) h' hbt (by simp)
        (by simpa using hn)
      obtain ⟨vs, u, e2, g2, d2, r2, l2⟩ := (ih u1 (by simp; omega)).2.1 S (r1.2.1 (by simp)) r1.1 hn
      refine ⟨w :: vs, u, ?_, by simp [Goods, g1, g2], ?_, r2, by simp; omega⟩
      · rw [e1, e2]; simp [textElems]
      · simp only [depths, List.length_cons] at d1 ⊢; omega
    · have hps : S = ps := by simpa using hq
      subst hps
      rw [(pop_mode S).1] at n3
      exact ⟨[], t, by simp [textElems], by simp [Goods], by simpa [depths] using hn, rest_pop h' n3, by simp⟩

theorem parse_fields {t : Str} (ih : ∀ t', t'.length < t.length → V t' ∧ E t' ∧ K t' ∧ F t') : F t := by
  intro S h hb hn
  cases t with
  | nil => have := ok_nil.1 h; simp [Scan.eof, step, endValue, isSpace] at this
  | cons c t =>
    obtain ⟨s', v, hs, h'⟩ := ok_cons.1 h
    have hb0 : bareM (Scan.mk .endValue (.objectValue :: S)).st.mode (c :: t) = c :: t := hb
    obtain ⟨n1, n2, n3⟩ := step_bare hs hb0
    have hs0 : endValue (.objectValue :: S) c = some (s', v) := hs
    rcases endValue_cases hs0 with ⟨_, _, _, hq⟩ | ⟨_, _, _, hq⟩ | ⟨_, hq, _⟩ | ⟨ps, hq, rfl, rfl, _⟩ | ⟨ps, hq, rfl, rfl, _⟩ | ⟨_, hq, _⟩ |
      ⟨_, hq, _⟩
    · exact absurd hq n2
    · exact absurd hq n1
    · simp at hq
    · have hps : S = ps := by simpa using hq
      subst hps
      have hbt : bare t = t := n3
      obtain ⟨k, w, u1, e1, gk, g1, d1, r1, l1⟩ := (ih t (by simp)).2.2.1 .beginString S (Or.inl rfl) h' hbt (by simp) hn
      obtain ⟨fs, u, e2, g2, d2, r2, l2⟩ := (ih u1 (by simp; omega)).2.2.2 S (r1.2.1 (by simp)) r1.1 hn
      refine ⟨(k, w) :: fs, u, ?_, by simp [Goodf, gk, g1, g2], ?_, r2, by simp; omega⟩
      · rw [e1, e2]; simp [textFields]
      · simp only [depthf] at d1 ⊢; omega
    · have hps : S = ps := by simpa using hq
      subst hps
      rw [(pop_mode S).1] at n3
      exact ⟨[], t, by simp [textFields], by simp [Goodf], by simpa [depthf] using hn, rest_pop h' n3, by simp⟩
    · simp at hq
    · simp at hq

theorem parse_key {t : Str} (ih : ∀ t', t'.length < t.length → V t' ∧ E t' ∧ K t' ∧ F t') : K t := by
  intro st S hst h hb h125 hn
  cases t with
  | nil =>
    exfalso
    have := ok_nil.1 h
    rcases hst with rfl | rfl <;> simp [Scan.eof, step, beginString, isSpace] at this
  | cons c t =>
    obtain ⟨s', v, hs, h'⟩ := ok_cons.1 h
    have hmode : (Scan.mk st (.objectKey :: S)).st.mode = .out := by rcases hst with rfl | rfl <;> rfl
    have hb0 : bareM (Scan.mk st (.objectKey :: S)).st.mode (c :: t) = c :: t := by rw [hmode]; exact hb
    obtain ⟨n1, n2, n3⟩ := step_bare hs hb0
    have hs0 : beginString st (.objectKey :: S) c = some (s', v) := by
      rcases hst with rfl | rfl
      · exact hs
      · have : c ≠ 125 := by simpa using h125 rfl
        simpa [step, this] using hs
    have hq : c = 34 ∧ s' = ⟨.inString, .objectKey :: S⟩ := by
      unfold beginString at hs0
      split at hs0
      · simp at hs0; exact absurd hs0.2.symm n1
      split at hs0 <;> simp at hs0
      rename_i hc
      exact ⟨hc, hs0.1.symm⟩
    obtain ⟨rfl, rfl⟩ := hq
    obtain ⟨r, u1, e1, g1, r1⟩ := leaf_parse (c := 34) (st0 := .inString) (fun S' => by simp [step, beginValue, isSpace]) h' n3 rfl
      (by simp) (by simp) (by simp)
    have hlen := congrArg List.length e1
    simp only [List.length_cons, List.length_append] at hlen
    have h1 := r1.2.1 (by simp)
    have hu := r1.1
    cases u1 with
    | nil => have := ok_nil.1 h1; simp [Scan.eof, step, endValue, isSpace] at this
    | cons x u2 =>
      obtain ⟨s2, v2, hs2, h2⟩ := ok_cons.1 h1
      obtain ⟨m1, m2, m3⟩ := step_bare (s := ⟨.endValue, .objectKey :: S⟩) hs2 hu
      have hs3 : endValue (.objectKey :: S) x = some (s2, v2) := hs2
      rcases endValue_cases hs3 with ⟨_, _, _, hq⟩ | ⟨_, _, _, hq⟩ | ⟨ps, hq, rfl, rfl, _⟩ | ⟨_, hq, _⟩ | ⟨_, hq, _⟩ | ⟨_, hq, _⟩ |
        ⟨_, hq, _⟩
      · exact absurd hq m2
      · exact absurd hq m1
      · have hps : S = ps := by simpa using hq
        subst hps
        have hbt : bare u2 = u2 := m3
        simp only [List.length_cons] at hlen
        obtain ⟨w, u, e2, g2, d2, r2, l2⟩ := (ih u2 (by simp; omega)).1 .beginValue (.objectValue :: S) (Or.inl rfl) h2 hbt (by simp)
          (by simpa using hn)
        refine ⟨34 :: r, w, u, ?_, (key_iff _).2 ⟨(leaf_iff _).1 g1, rfl⟩, g2, ?_, r2, by simp; omega⟩
        · rw [e1, e2]
        · simpa using d2
      · simp at hq
      · simp at hq
      · simp at hq
      · simp at hq

theorem parse_all (n : Nat) : ∀ t : Str, t.length < n → V t ∧ E t ∧ K t ∧ F t := by
  induction n with
  | zero => intro t h; omega
  | succ n ih =>
    intro t h
    have hi : ∀ t', t'.length < t.length → V t' ∧ E t' ∧ K t' ∧ F t' := fun t' h' => ih t' (by omega)
    exact ⟨parse_value hi, parse_elems hi, parse_key hi, parse_fields hi⟩

/-- Every valid text is, up to white space, the text of a value. -/
theorem valid_tree {t : Str} (h : valid t = true) : ∃ v : Tree, v.Good ∧ v.depth ≤ maxNesting ∧ bare t = v.text ∧ bare v.text = v.text := by
  obtain ⟨l, hl⟩ := valid_toks h
  have hb := toks_bare _ hl
  have hl2 := toks_bytes _ hl
  have hb2 := toks_bare _ hl2
  simp only [Scan.start, St.mode, bareM] at hb hb2
  have hss : bytes (strip l) = bytes l := by simp [bytes, strip]
  rw [hss] at hb2
  have hok : ok Scan.start (bytes l) := by rw [ok, hl2]; rfl
  obtain ⟨v, u, e, g, d, r, _⟩ := (parse_all ((bytes l).length + 1) (bytes l) (by omega)).1 .beginValue [] (Or.inl rfl) hok hb2 (by simp)
    (by simp)
  have hu := r.2.2 rfl
  subst hu
  rw [List.append_nil] at e
  exact ⟨v, g, by simpa using d, by rw [hb, e], by rw [← e]; exact hb2⟩

end RangeDB.Ind

import Verif.Spec.Indent
import Verif.Proof.IndentTree

/-!
# C162: the pretty printer of JSON texts

`bare t` is the text `t` without the white space outside its string literals, and `Tree.layout` is how a value has to be laid
out: both are in `Spec/Indent.lean`.
-/

namespace RangeDB.Ind

/-- The pretty text of a JSON text is a JSON text, and it differs from it in the white space outside of strings only: keys keep
their order and numbers, strings and words their spelling. -/
theorem C162_same {t : Str} (h : valid t = true) : valid (prettyJSON t) = true ∧ bare (prettyJSON t) = bare t := by
  obtain ⟨l, l', h1, h2, h3, _⟩ := pretty_toks h
  refine ⟨by rw [← toks_isSome, h2]; rfl, ?_⟩
  have e1 := toks_bare _ h1
  have e2 := toks_bare _ h2
  simp only [Scan.start, St.mode, bareM] at e1 e2
  rw [e1, e2, bytes, bytes, h3]

/-- Two JSON texts have the same pretty text exactly when they differ in white space only, so that comparing pretty texts is
comparing the texts up to white space. -/
theorem C162_normal {a b : Str} (ha : valid a = true) (hb : valid b = true) :
    prettyJSON a = prettyJSON b ↔ bare a = bare b := by
  constructor
  · intro h
    rw [← (C162_same ha).2, ← (C162_same hb).2, h]
  · intro h
    obtain ⟨l, _, h1, _, _, h4⟩ := pretty_toks ha
    obtain ⟨k, _, k1, _, _, k4⟩ := pretty_toks hb
    have e1 := toks_bare _ h1
    have e2 := toks_bare _ k1
    simp only [Scan.start, St.mode, bareM] at e1 e2
    have t1 := toks_bytes _ h1
    have t2 := toks_bytes _ k1
    rw [← e1, h, e2, t2] at t1
    rw [h4, k4, Option.some.inj t1]

/-- A pretty text stays as it is. -/
theorem C162_idempotent {t : Str} (h : valid t = true) : prettyJSON (prettyJSON t) = prettyJSON t :=
  (C162_normal (C162_same h).1 h).2 (C162_same h).2

/-- What is no JSON text has the empty pretty text, so that any two such texts compare as equal. -/
theorem C162_invalid {t : Str} (h : valid t = false) : prettyJSON t = [] := by
  have := toks_isSome t
  rw [h] at this
  have hn : toks Scan.start t = none := by simpa using this
  simp [prettyJSON, indentLoop_eq, hn, trimSpace]

/-- The layout: every element and every field is on a line of its own, indented by two spaces for each level. It holds for every
value whose nesting is within what `encoding/json` accepts. -/
theorem C162_layout (v : Tree) (hg : v.Good) (hd : v.depth ≤ 10000) : valid v.text = true ∧ prettyJSON v.text = v.layout 0 := by
  obtain ⟨st', l, _, h2, h3, h4⟩ := tree_run v hg [] .beginValue (by simpa [maxNesting] using hd) (Or.inl rfl)
  have h5 := h3 []
  rw [List.append_nil] at h5
  have h6 : toks Scan.start v.text = some l := by
    rw [Scan.start, h5]
    simp [toks, h2 rfl]
  refine ⟨by rw [← toks_isSome, h6]; rfl, ?_⟩
  have h7 := h4 false 0 []
  simp only [List.append_nil] at h7
  have h8 : render false 0 l = v.layout 0 := by rw [h7]; simp [due, inner, render]
  rw [prettyJSON, indentLoop_eq, h6]
  simp only [Option.map_some, Option.getD_some]
  rw [h8, layout_trim v hg]

/-- Together: whatever white space a text of the value has, its pretty text is the layout of the value. -/
theorem C162_canonical (v : Tree) (hg : v.Good) (hd : v.depth ≤ 10000) {t : Str} (ht : valid t = true) (hb : bare t = bare v.text) :
    prettyJSON t = v.layout 0 := by
  have h := C162_layout v hg hd
  rw [(C162_normal ht h.1).2 hb, h.2]

/-- And every JSON text has such a layout: it is, up to white space, the text of a value within the limit, made of literals, arrays
and objects, and its pretty text is the layout of that value. -/
theorem C162_every {t : Str} (h : valid t = true) :
    ∃ v : Tree, v.Good ∧ v.depth ≤ 10000 ∧ bare t = v.text ∧ prettyJSON t = v.layout 0 := by
  obtain ⟨v, g, d, e, eb⟩ := valid_tree h
  exact ⟨v, g, d, e, C162_canonical v g d h (by rw [e, eb])⟩

/-- **C162**: which texts without white space are literals to the scanner: the strings, numbers and words of RFC 8259. -/
theorem C162_literals (l : Str) :
    IsLeaf l ↔ valid l = true ∧ bare l = l ∧ l.head? ≠ some 91 ∧ l.head? ≠ some 123 := leaf_iff l

/-! ### The hypotheses are met, and what the theorems say of concrete texts -/

/-- `{"a b":[1, true ],"":{}}`. -/
def demoText : Str := [123, 34, 97, 32, 98, 34, 58, 91, 49, 44, 32, 116, 114, 117, 101, 32, 93, 44, 34, 34, 58, 123, 125, 125]
def demoTree : Tree := .object [([34, 97, 32, 98, 34], .array [.leaf [49], .leaf [116, 114, 117, 101]]), ([34, 34], .object [])]

theorem demo_good : demoTree.Good := by
  simp only [demoTree, Tree.Good, Goodf, Goods]
  refine ⟨⟨_, rfl, ?_⟩, ⟨.inr (.inl ?_), .inr (.inr (.inl rfl)), trivial⟩, ⟨_, rfl, .close⟩, trivial, trivial⟩
  · exact .plain (by decide) (by decide) (by decide) (.plain (by decide) (by decide) (by decide)
      (.plain (by decide) (by decide) (by decide) .close))
  · exact ⟨[], [49], [], [], rfl, .inl rfl, .inr ⟨49, [], rfl, by decide, by decide, by simp⟩, .inl rfl, .inl rfl⟩

example : valid demoText = true ∧ demoTree.depth ≤ 10000 ∧ bare demoText = bare demoTree.text ∧ demoText ≠ demoTree.text := by
  decide +kernel

/-- The blank within the string is kept. -/
example : prettyJSON demoText = demoTree.layout 0 :=
  C162_canonical demoTree demo_good (by decide +kernel) (by decide +kernel) (by decide +kernel)

/-- `{` and `oops` are no JSON texts. -/
example : valid [123] = false ∧ valid [111, 111, 112, 115] = false := by decide +kernel

/-- A comparison by pretty texts accepts a broken reply where another broken text is expected. -/
theorem C162_broken_equal : ∃ a b : Str, a ≠ b ∧ prettyJSON a = prettyJSON b :=
  ⟨[123], [111, 111, 112, 115], by decide, by rw [C162_invalid (by decide +kernel), C162_invalid (by decide +kernel)]⟩

end RangeDB.Ind

import Verif.Model.Indent
import Verif.Proof.IndentLiteral

/-! # Proofs about pretty-printed JSON -/

namespace RangeDB.Ind

open RangeDB.Json (isSpace)

/-- The bytes that are not skipped, with their codes, if the text is valid from state `s` on. -/
def toks : Scan → Str → Option (List (Code × Nat))
  | s, [] => if s.eof then some [] else none
  | s, c :: t =>
    match step s c with
    | none => none
    | some (s', v) => if v = .skipSpace then toks s' t else (toks s' t).map ((v, c) :: ·)

/-- What `json.Indent` writes for them. -/
def render : (need : Bool) → (depth : Nat) → List (Code × Nat) → Str
  | _, _, [] => []
  | need, d, (v, c) :: l => (emit need d v c).1 ++ render (emit need d v c).2.1 (emit need d v c).2.2 l

theorem indentLoop_eq (t : Str) : ∀ s need d, indentLoop s need d t = (toks s t).map (render need d) := by
  induction t with
  | nil => intro s need d; simp only [indentLoop, toks]; split <;> simp [render]
  | cons c t ih =>
    intro s need d
    simp only [indentLoop, toks]
    cases step s c with
    | none => simp
    | some p =>
      obtain ⟨s', v⟩ := p
      simp only
      split
      · exact ih s' need d
      · rw [ih]
        cases toks s' t <;> simp [render]

theorem toks_valid (t : Str) : ∀ s, (toks s t).isSome = (match scanAll s t with | some s' => s'.eof | none => false) := by
  induction t with
  | nil => intro s; simp only [toks, scanAll]; split <;> simp_all
  | cons c t ih =>
    intro s
    simp only [toks, scanAll]
    cases step s c with
    | none => simp
    | some p =>
      obtain ⟨s', v⟩ := p
      simp only
      split
      · exact ih s'
      · rw [Option.isSome_map]; exact ih s'

/-- In which part of a text a state is. -/
inductive Mode where
  | out | str | esc
deriving DecidableEq

def St.mode : St → Mode
  | .inString | .escU | .escU1 | .escU12 | .escU123 => .str
  | .esc => .esc
  | _ => .out

theorem isSpace_iff (c : Nat) : isSpace c = true ↔ c = 32 ∨ c = 9 ∨ c = 10 ∨ c = 13 := by
  simp [isSpace, or_assoc]

theorem isSpace_false (c : Nat) : isSpace c = false ↔ ¬ (c = 32 ∨ c = 9 ∨ c = 10 ∨ c = 13) := by
  rw [← isSpace_iff]; simp

theorem push_eq {st : St} {stack : List Ps} {p : Ps} {k : Code} {r : Scan × Code} (h : push st stack p k = some r) :
    r = (⟨st, p :: stack⟩, k) := by
  unfold push at h; split at h <;> simp_all

theorem go_eq {ok : Prop} [Decidable ok] {st : St} {stack : List Ps} {r : Scan × Code} (h : go ok st stack = some r) :
    ok ∧ r = (⟨st, stack⟩, .cont) := by
  unfold go at h; split at h <;> simp_all

/-- What a step at the end of a value does. -/
theorem endValue_cases {stack : List Ps} {c : Nat} {s' : Scan} {v : Code} (h : endValue stack c = some (s', v)) :
    (stack = [] ∧ isSpace c = true ∧ s' = ⟨.endTop, []⟩ ∧ v = .ended) ∨
    (stack ≠ [] ∧ isSpace c = true ∧ s' = ⟨.endValue, stack⟩ ∧ v = .skipSpace) ∨
    (∃ ps, stack = .objectKey :: ps ∧ c = 58 ∧ s' = ⟨.beginValue, .objectValue :: ps⟩ ∧ v = .objectKey) ∨
    (∃ ps, stack = .objectValue :: ps ∧ c = 44 ∧ s' = ⟨.beginString, .objectKey :: ps⟩ ∧ v = .objectValue) ∨
    (∃ ps, stack = .objectValue :: ps ∧ c = 125 ∧ s' = pop ps ∧ v = .endObject) ∨
    (∃ ps, stack = .arrayValue :: ps ∧ c = 44 ∧ s' = ⟨.beginValue, .arrayValue :: ps⟩ ∧ v = .arrayValue) ∨
    (∃ ps, stack = .arrayValue :: ps ∧ c = 93 ∧ s' = pop ps ∧ v = .endArray) := by
  unfold endValue at h
  split at h
  · split at h
    · simp_all
    · simp at h
  · rename_i p ps
    split at h
    · simp_all
    · split at h <;> (repeat' split at h) <;> simp_all

theorem beginValue_cases {st : St} {stack : List Ps} {c : Nat} {s' : Scan} {v : Code}
    (h : beginValue st stack c = some (s', v)) :
    (isSpace c = true ∧ s' = ⟨st, stack⟩ ∧ v = .skipSpace) ∨
    (c = 123 ∧ s' = ⟨.beginStringOrEmpty, .objectKey :: stack⟩ ∧ v = .beginObject) ∨
    (c = 91 ∧ s' = ⟨.beginValueOrEmpty, .arrayValue :: stack⟩ ∧ v = .beginArray) ∨
    (isSpace c = false ∧ v = .beginLiteral ∧ s'.stack = stack ∧ ((c = 34 ∧ s'.st = .inString) ∨
      (c ≠ 34 ∧ c ≠ 123 ∧ c ≠ 91 ∧ c ≠ 44 ∧ c ≠ 58 ∧ c ≠ 125 ∧ c ≠ 93 ∧
        (s'.st = .neg ∨ s'.st = .zero ∨ s'.st = .t ∨ s'.st = .f ∨ s'.st = .n ∨ s'.st = .one)))) := by
  unfold beginValue at h
  split at h
  · simp_all
  · rename_i hs
    have hs' : isSpace c = false := by simpa using hs
    repeat' split at h
    all_goals first
      | (have := push_eq h; simp_all; done)
      | (simp at h; done)
      | (simp only [Option.some.injEq, Prod.mk.injEq] at h
         obtain ⟨rfl, rfl⟩ := h
         right; right; right
         refine ⟨hs', rfl, rfl, ?_⟩
         simp_all
         done)
      | (simp only [Option.some.injEq, Prod.mk.injEq] at h
         obtain ⟨rfl, rfl⟩ := h
         right; right; right
         refine ⟨hs', rfl, rfl, ?_⟩
         right
         refine ⟨?_, ?_, ?_, ?_, ?_, ?_, ?_, ?_⟩ <;> first | omega | simp)

theorem beginString_cases {st : St} {stack : List Ps} {c : Nat} {s' : Scan} {v : Code}
    (h : beginString st stack c = some (s', v)) :
    (isSpace c = true ∧ s' = ⟨st, stack⟩ ∧ v = .skipSpace) ∨ (c = 34 ∧ s' = ⟨.inString, stack⟩ ∧ v = .beginLiteral) := by
  unfold beginString at h
  repeat' split at h
  all_goals simp_all

/-- The states in which a byte may end the value. -/
def St.last : St → Bool
  | .endValue | .one | .zero | .dot0 | .exp0 => true
  | _ => false

/-- The states in which a value, a key or a closing bracket is expected. -/
def St.first : St → Bool
  | .beginValueOrEmpty | .beginValue | .beginStringOrEmpty | .beginString => true
  | _ => false

/-- All that a step can do. -/
theorem step_cases {s s' : Scan} {c : Nat} {v : Code} (h : step s c = some (s', v)) :
    (s.st.last = true ∧ endValue s.stack c = some (s', v)) ∨
    (s.st = .beginValueOrEmpty ∧ c = 93 ∧ endValue s.stack c = some (s', v)) ∨
    (∃ p ps, s.st = .beginStringOrEmpty ∧ c = 125 ∧ s.stack = p :: ps ∧ s' = pop ps ∧ v = .endObject) ∨
    ((s.st = .beginValue ∨ s.st = .beginValueOrEmpty) ∧ beginValue s.st s.stack c = some (s', v)) ∨
    ((s.st = .beginString ∨ s.st = .beginStringOrEmpty) ∧ beginString s.st s.stack c = some (s', v)) ∨
    (s.st = .endTop ∧ isSpace c = true ∧ s' = s ∧ v = .ended) ∨
    (v = .cont ∧ s'.stack = s.stack ∧ s.st.first = false ∧ s.st ≠ .endTop ∧ s.st ≠ .endValue ∧
      match s.st.mode with
      | .out => isSpace c = false ∧ c ≠ 34 ∧ s'.st.mode = .out ∧ s'.st.first = false ∧ s'.st ≠ .endTop
      | .str => s'.st.mode = if c = 34 then .out else if c = 92 then .esc else .str
      | .esc => s'.st.mode = .str) := by
  obtain ⟨st, stack⟩ := s
  cases st <;> simp only [step] at h
  case beginStringOrEmpty =>
    split at h
    · cases stack with
      | nil => simp at h
      | cons p ps =>
        rename_i hc
        subst hc
        simp only [endValue, isSpace] at h
        simp at h
        exact Or.inr (Or.inr (Or.inl ⟨p, ps, rfl, rfl, rfl, h.1.symm, h.2.symm⟩))
    · simp_all
  all_goals (repeat' split at h)
  all_goals first
    | exact Or.inl ⟨rfl, h⟩
    | (simp_all [St.last]; done)
    | (obtain ⟨hok, he⟩ := go_eq h
       simp only [Prod.mk.injEq] at he
       obtain ⟨rfl, rfl⟩ := he
       first
         | (simp [St.mode, St.first, isSpace_false] <;> omega)
         | (have h1 : c ≠ 34 := by omega
            have h2 : c ≠ 92 := by omega
            simp [St.mode, St.first, h1, h2]))
    | (simp only [Option.some.injEq, Prod.mk.injEq] at h
       obtain ⟨rfl, rfl⟩ := h
       simp [St.mode, St.first, isSpace_false] <;> first | omega | (split <;> simp_all) | simp_all)

theorem last_step {st : St} {stack : List Ps} {c : Nat} (h : st.last = true) (hd : ¬ Digit c) (h46 : c ≠ 46) (h101 : c ≠ 101)
    (h69 : c ≠ 69) : step ⟨st, stack⟩ c = endValue stack c := by
  cases st <;> simp only [St.last, Bool.false_eq_true] at h <;> simp only [step, hd, h46, h101, h69, or_self, if_false]

theorem last_mode {st : St} (h : st.last = true) : st.mode = .out ∧ st.first = false ∧ st ≠ .endTop := by
  cases st <;> simp_all [St.last, St.mode, St.first]

theorem pop_mode (ps : List Ps) : (pop ps).st.mode = .out ∧ (pop ps).st.first = false := by
  simp only [pop]; split <;> simp [St.mode, St.first]

/-- White space outside strings, and what strings are. -/
theorem step_mode {s s' : Scan} {c : Nat} {v : Code} (h : step s c = some (s', v)) :
    match s.st.mode with
    | .out => (isSpace c = true ↔ v = .skipSpace ∨ v = .ended) ∧ s'.st.mode = if c = 34 then .str else .out
    | .str => v = .cont ∧ s'.st.mode = if c = 34 then .out else if c = 92 then .esc else .str
    | .esc => v = .cont ∧ s'.st.mode = .str := by
  have hend : ∀ {s' : Scan} {v : Code}, endValue s.stack c = some (s', v) →
      (isSpace c = true ↔ v = .skipSpace ∨ v = .ended) ∧ s'.st.mode = if c = 34 then .str else .out := by
    intro s' v h
    rcases endValue_cases h with ⟨_, hs, rfl, rfl⟩ | ⟨_, hs, rfl, rfl⟩ | ⟨ps, _, rfl, rfl, rfl⟩ | ⟨ps, _, rfl, rfl, rfl⟩ |
      ⟨ps, _, rfl, rfl, rfl⟩ | ⟨ps, _, rfl, rfl, rfl⟩ | ⟨ps, _, rfl, rfl, rfl⟩
    · have : c ≠ 34 := by rw [isSpace_iff] at hs; omega
      simp [hs, St.mode, this]
    · have : c ≠ 34 := by rw [isSpace_iff] at hs; omega
      simp [hs, St.mode, this]
    all_goals first | (rw [(pop_mode _).1]; simp [isSpace]) | simp [isSpace, St.mode]
  rcases step_cases h with ⟨hl, he⟩ | ⟨hst, rfl, he⟩ | ⟨p, ps, hst, rfl, hstk, rfl, rfl⟩ | ⟨hst, hb⟩ | ⟨hst, hb⟩ | ⟨hst, hs, rfl, rfl⟩ |
    ⟨rfl, _, _, _, _, hm⟩
  · rw [(last_mode hl).1]; exact hend he
  · rw [hst]; exact hend he
  · rw [hst, (pop_mode _).1]; simp [isSpace, St.mode]
  · have hm : s.st.mode = .out := by rcases hst with h | h <;> rw [h] <;> rfl
    rw [hm]
    rcases beginValue_cases hb with ⟨hs, rfl, rfl⟩ | ⟨rfl, rfl, rfl⟩ | ⟨rfl, rfl, rfl⟩ | ⟨hs, rfl, _, ⟨rfl, h2⟩ | ⟨h1, _, _, _, _, _, _, h2⟩⟩
    · have : c ≠ 34 := by rw [isSpace_iff] at hs; omega
      simp [hs, hm, this]
    · simp [isSpace, St.mode]
    · simp [isSpace, St.mode]
    · simp [isSpace, h2, St.mode]
    · simp only [hs, h1]
      rcases h2 with h2 | h2 | h2 | h2 | h2 | h2 <;> simp [h2, St.mode]
  · have hm : s.st.mode = .out := by rcases hst with h | h <;> rw [h] <;> rfl
    rw [hm]
    rcases beginString_cases hb with ⟨hs, rfl, rfl⟩ | ⟨rfl, rfl, rfl⟩
    · have : c ≠ 34 := by rw [isSpace_iff] at hs; omega
      simp [hs, hm, this]
    · simp [isSpace, St.mode]
  · rw [hst]
    have : c ≠ 34 := by rw [isSpace_iff] at hs; omega
    simp [hs, St.mode, hst, this]
  · revert hm
    cases s.st.mode <;> simp
    · intro h1 h2 h3 _ _
      simp [h1, h2, h3]

/-- A state that only skips white space. -/
def Waits (s : Scan) : Prop := s.eof = false ∧ ∀ x, isSpace x = true → step s x = some (s, .skipSpace)

theorem waits_first {s : Scan} (h : s.st.first = true) : Waits s := by
  obtain ⟨st, stack⟩ := s
  constructor
  · cases st <;> simp_all [St.first, Scan.eof, step, beginValue, beginString, isSpace]
  · intro x hx
    have : x ≠ 93 ∧ x ≠ 125 := by rw [isSpace_iff] at hx; omega
    cases st <;> simp_all [St.first, step, beginValue, beginString]

theorem waits_endValue (p : Ps) (ps : List Ps) : Waits ⟨.endValue, p :: ps⟩ := by
  constructor
  · simp [Scan.eof, step, endValue, isSpace]
  · intro x hx; simp [step, endValue, hx]

/-- A skipped byte: afterwards only less is possible than before. -/
theorem step_skip {s s' : Scan} {c : Nat} (h : step s c = some (s', .skipSpace)) :
    isSpace c = true ∧ Waits s' ∧ (∀ x r, step s' x = some r → step s x = some r) ∧ (s'.st.first = true → s' = s) := by
  have hend : s.st.last = true → ∀ {s' : Scan}, endValue s.stack c = some (s', .skipSpace) →
      isSpace c = true ∧ Waits s' ∧ (∀ x r, step s' x = some r → step s x = some r) ∧ (s'.st.first = true → s' = s) := by
    intro hl s' h
    rcases endValue_cases h with ⟨_, _, _, h⟩ | ⟨hne, hs, rfl, _⟩ | ⟨ps, _, _, _, h⟩ | ⟨ps, _, _, _, h⟩ | ⟨ps, _, _, _, h⟩ |
      ⟨ps, _, _, _, h⟩ | ⟨ps, _, _, _, h⟩ <;> try simp at h
    refine ⟨hs, ?_, ?_, by simp [St.first]⟩
    · cases hstk : s.stack with
      | nil => exact absurd hstk hne
      | cons p ps => exact waits_endValue p ps
    · intro x r hx
      obtain ⟨st, stack⟩ := s
      have hx' : endValue stack x = some r := hx
      obtain ⟨r1, r2⟩ := r
      have : isSpace x = true ∨ x = 58 ∨ x = 44 ∨ x = 125 ∨ x = 93 := by
        rcases endValue_cases hx' with h | h | ⟨_, h⟩ | ⟨_, h⟩ | ⟨_, h⟩ | ⟨_, h⟩ | ⟨_, h⟩ <;> simp [h]
      rw [isSpace_iff] at this
      rw [last_step hl, hx'] <;> omega
  rcases step_cases h with ⟨hl, he⟩ | ⟨hst, rfl, he⟩ | ⟨p, ps, hst, rfl, hstk, _, h⟩ | ⟨hst, hb⟩ | ⟨hst, hb⟩ | ⟨_, _, _, h⟩ | ⟨h, _⟩ <;>
    try simp at h
  · exact hend hl he
  · rcases endValue_cases he with ⟨_, h, _⟩ | ⟨_, h, _⟩ | ⟨_, _, h, _⟩ | ⟨_, _, h, _⟩ | ⟨_, _, h, _⟩ | ⟨_, _, h, _⟩ | ⟨_, _, _, _, h⟩ <;>
      simp [isSpace] at h
  · have hf : s.st.first = true := by rcases hst with h | h <;> rw [h] <;> rfl
    rcases beginValue_cases hb with ⟨hs, rfl, _⟩ | ⟨_, _, h⟩ | ⟨_, _, h⟩ | ⟨_, h, _⟩ <;> try simp at h
    exact ⟨hs, waits_first hf, fun _ _ h => h, fun _ => rfl⟩
  · have hf : s.st.first = true := by rcases hst with h | h <;> rw [h] <;> rfl
    rcases beginString_cases hb with ⟨hs, rfl, _⟩ | ⟨_, _, h⟩ <;> try simp at h
    exact ⟨hs, waits_first hf, fun _ _ h => h, fun _ => rfl⟩

/-- A closing bracket may be preceded by white space. -/
theorem step_close {s s' : Scan} {c : Nat} {v : Code} (h : step s c = some (s', v)) (hv : v = .endObject ∨ v = .endArray) :
    (c = 125 ∨ c = 93) ∧ ∀ x, isSpace x = true → ∃ s1, step s x = some (s1, .skipSpace) ∧ step s1 c = some (s', v) ∧ Waits s1 := by
  have hfst : s.st.first = true → ∀ x, isSpace x = true →
      ∃ s1, step s x = some (s1, .skipSpace) ∧ step s1 c = some (s', v) ∧ Waits s1 :=
    fun hf x hx => ⟨s, (waits_first hf).2 x hx, h, waits_first hf⟩
  have hchar : ∀ {s' : Scan} {v : Code}, endValue s.stack c = some (s', v) → v = .endObject ∨ v = .endArray →
      (c = 125 ∨ c = 93) ∧ s.stack ≠ [] := by
    intro s' v he hv
    rcases endValue_cases he with ⟨_, _, _, h⟩ | ⟨_, _, _, h⟩ | ⟨_, _, _, _, h⟩ | ⟨_, _, _, _, h⟩ | ⟨_, hs, h, _, _⟩ | ⟨_, _, _, _, h⟩ |
      ⟨_, hs, h, _, _⟩ <;> first | (rw [h] at hv; simp at hv; done) | exact ⟨by omega, by rw [hs]; simp⟩
  rcases step_cases h with ⟨hl, he⟩ | ⟨hst, rfl, he⟩ | ⟨p, ps, hst, rfl, hstk, rfl, rfl⟩ | ⟨hst, hb⟩ | ⟨hst, hb⟩ | ⟨_, _, _, h⟩ | ⟨h, _⟩
  · obtain ⟨hc, hne⟩ := hchar he hv
    refine ⟨hc, fun x hx => ?_⟩
    obtain ⟨st, stack⟩ := s
    cases stack with
    | nil => simp at hne
    | cons p ps =>
      refine ⟨⟨.endValue, p :: ps⟩, ?_, he, waits_endValue p ps⟩
      have hx' := hx
      rw [isSpace_iff] at hx'
      rw [last_step hl] <;> first | omega | simp [endValue, hx]
  · exact ⟨(hchar he hv).1, hfst (by rw [hst]; rfl)⟩
  · exact ⟨Or.inl rfl, hfst (by rw [hst]; rfl)⟩
  · exfalso
    rcases beginValue_cases hb with ⟨_, _, rfl⟩ | ⟨_, _, rfl⟩ | ⟨_, _, rfl⟩ | ⟨_, rfl, _⟩ <;> simp at hv
  · exfalso
    rcases beginString_cases hb with ⟨_, _, rfl⟩ | ⟨_, _, rfl⟩ <;> simp at hv
  · rw [h] at hv; simp at hv
  · rw [h] at hv; simp at hv

/-- What follows an opening bracket, a comma and a colon. -/
theorem step_punct {s s' : Scan} {c : Nat} {v : Code} (h : step s c = some (s', v)) (hv : v ≠ .cont)
    (hc : c = 123 ∨ c = 91 ∨ c = 44 ∨ c = 58) : s'.st.first = true := by
  have hend : ∀ {s' : Scan} {v : Code}, endValue s.stack c = some (s', v) → s'.st.first = true := by
    intro s' v h
    rcases endValue_cases h with ⟨_, hs, _⟩ | ⟨_, hs, _⟩ | ⟨ps, _, rfl, rfl, rfl⟩ | ⟨ps, _, rfl, rfl, rfl⟩ |
      ⟨ps, _, rfl, rfl, rfl⟩ | ⟨ps, _, rfl, rfl, rfl⟩ | ⟨ps, _, rfl, rfl, rfl⟩
    · rw [isSpace_iff] at hs; omega
    · rw [isSpace_iff] at hs; omega
    all_goals first | omega | simp [St.first]
  rcases step_cases h with ⟨hl, he⟩ | ⟨hst, rfl, he⟩ | ⟨p, ps, hst, rfl, hstk, rfl, rfl⟩ | ⟨hst, hb⟩ | ⟨hst, hb⟩ | ⟨_, hs, _⟩ | ⟨h, _⟩
  · exact hend he
  · omega
  · omega
  · rcases beginValue_cases hb with ⟨hs, rfl, rfl⟩ | ⟨rfl, rfl, rfl⟩ | ⟨rfl, rfl, rfl⟩ | ⟨hs, rfl, _, ⟨rfl, h2⟩ | ⟨h1, _, _, _, _, _, _, h2⟩⟩
    · rw [isSpace_iff] at hs; omega
    · rfl
    · rfl
    · omega
    · omega
  · rcases beginString_cases hb with ⟨hs, rfl, rfl⟩ | ⟨rfl, rfl, rfl⟩
    · rw [isSpace_iff] at hs; omega
    · omega
  · rw [isSpace_iff] at hs; omega
  · exact absurd h hv

theorem step_bracket {s s' : Scan} {c : Nat} {v : Code} (h : step s c = some (s', v)) (hv : v ≠ .cont)
    (hc : c = 125 ∨ c = 93) : v = .endObject ∨ v = .endArray := by
  have hend : ∀ {s' : Scan} {v : Code}, endValue s.stack c = some (s', v) → v = .endObject ∨ v = .endArray := by
    intro s' v h
    rcases endValue_cases h with ⟨_, hs, _⟩ | ⟨_, hs, _⟩ | ⟨ps, _, rfl, rfl, rfl⟩ | ⟨ps, _, rfl, rfl, rfl⟩ |
      ⟨ps, _, rfl, rfl, rfl⟩ | ⟨ps, _, rfl, rfl, rfl⟩ | ⟨ps, _, rfl, rfl, rfl⟩
    · rw [isSpace_iff] at hs; omega
    · rw [isSpace_iff] at hs; omega
    all_goals first | omega | simp
  rcases step_cases h with ⟨hl, he⟩ | ⟨hst, rfl, he⟩ | ⟨p, ps, hst, rfl, hstk, rfl, rfl⟩ | ⟨hst, hb⟩ | ⟨hst, hb⟩ | ⟨_, hs, _⟩ | ⟨h, _⟩
  · exact hend he
  · exact hend he
  · simp
  · rcases beginValue_cases hb with ⟨hs, rfl, rfl⟩ | ⟨rfl, rfl, rfl⟩ | ⟨rfl, rfl, rfl⟩ | ⟨hs, rfl, _, ⟨rfl, h2⟩ | ⟨h1, _, _, _, _, _, _, h2⟩⟩
    · rw [isSpace_iff] at hs; omega
    all_goals omega
  · rcases beginString_cases hb with ⟨hs, rfl, rfl⟩ | ⟨rfl, rfl, rfl⟩
    · rw [isSpace_iff] at hs; omega
    · omega
  · rw [isSpace_iff] at hs; omega
  · exact absurd h hv

/-- White space after the value. -/
theorem step_ended {s s' : Scan} {c : Nat} (h : step s c = some (s', .ended)) :
    isSpace c = true ∧ s'.st = .endTop ∧ s.eof = true ∧ s.st.first = false := by
  rcases step_cases h with ⟨hl, he⟩ | ⟨hst, rfl, he⟩ | ⟨p, ps, hst, rfl, hstk, _, h⟩ | ⟨hst, hb⟩ | ⟨hst, hb⟩ | ⟨hst, hs, rfl, _⟩ | ⟨h, _⟩
  case inr.inr.inl => simp at h
  case inr.inr.inr.inr.inr.inr => simp at h
  · rcases endValue_cases he with ⟨hstk, hs, rfl, _⟩ | ⟨_, _, _, h⟩ | ⟨ps, _, _, _, h⟩ | ⟨ps, _, _, _, h⟩ | ⟨ps, _, _, _, h⟩ |
      ⟨ps, _, _, _, h⟩ | ⟨ps, _, _, _, h⟩ <;> try simp at h
    refine ⟨hs, rfl, ?_, (last_mode hl).2.1⟩
    obtain ⟨st, stack⟩ := s
    simp only at hstk
    subst hstk
    simp only [Scan.eof]
    rw [last_step hl (by omega) (by omega) (by omega) (by omega)]
    simp [endValue, isSpace]
  · rcases endValue_cases he with ⟨_, h, _⟩ | ⟨_, h, _⟩ | ⟨_, _, h, _⟩ | ⟨_, _, h, _⟩ | ⟨_, _, h, _⟩ | ⟨_, _, h, _⟩ | ⟨_, _, _, _, h⟩ <;>
      simp [isSpace] at h
  · clear h
    rcases beginValue_cases hb with ⟨_, _, hq⟩ | ⟨_, _, hq⟩ | ⟨_, _, hq⟩ | ⟨_, hq, _⟩ <;> cases hq
  · clear h
    rcases beginString_cases hb with ⟨_, _, hq⟩ | ⟨_, _, hq⟩ <;> cases hq
  · exact ⟨hs, hst, by simp [Scan.eof, hst], by rw [hst]; rfl⟩

/-- The bytes that a scanner accepts. -/
theorem step_byte {s s' : Scan} {c : Nat} {v : Code} (h : step s c = some (s', v)) : c ≠ 11 ∧ c ≠ 12 := by
  have he : ∀ (stack : List Ps) (c : Nat), c = 11 ∨ c = 12 → endValue stack c = none := by
    intro stack c hc
    cases hh : endValue stack c with
    | none => rfl
    | some r =>
      obtain ⟨r1, r2⟩ := r
      exfalso
      rcases endValue_cases hh with ⟨_, h, _⟩ | ⟨_, h, _⟩ | ⟨_, _, h, _⟩ | ⟨_, _, h, _⟩ | ⟨_, _, h, _⟩ | ⟨_, _, h, _⟩ | ⟨_, _, h, _⟩ <;>
        first | omega | (rw [isSpace_iff] at h; omega)
  obtain ⟨st, stack⟩ := s
  constructor
  · rintro rfl
    cases st <;> simp [step, beginValue, beginString, he, isSpace, go, Digit, Hex] at h
  · rintro rfl
    cases st <;> simp [step, beginValue, beginString, he, isSpace, go, Digit, Hex] at h

/-! ## White space in a text -/

theorem white_eq (c : Nat) : white c = isSpace c := rfl

def bareM : Mode → Str → Str
  | .out => bare
  | .str => bareString
  | .esc => bareEscaped

/-- Without the white space after the value. -/
def strip (l : List (Code × Nat)) : List (Code × Nat) := l.filter (fun p => p.1 ≠ .ended)

def bytes (l : List (Code × Nat)) : Str := (strip l).map (·.2)

/-- The bytes that are not skipped are those of the bare text. -/
theorem toks_bare (t : Str) : ∀ {s : Scan} {l}, toks s t = some l → bareM s.st.mode t = bytes l := by
  induction t with
  | nil =>
    intro s l h
    simp only [toks] at h
    split at h <;> simp at h
    subst h
    cases s.st.mode <;> simp [bareM, bare, bareString, bareEscaped, bytes, strip]
  | cons c t ih =>
    intro s l h
    simp only [toks] at h
    cases hs : step s c with
    | none => simp [hs] at h
    | some p =>
      obtain ⟨s', v⟩ := p
      simp only [hs] at h
      have hm := step_mode hs
      by_cases hv : v = .skipSpace
      · rw [if_pos hv] at h
        have := ih h
        revert hm
        cases hmode : s.st.mode <;> simp [hv]
        intro h1 h2
        have h34 : c ≠ 34 := by rw [isSpace_iff] at h1; omega
        rw [h2] at this
        simp only [h34, if_false] at this
        simp only [bareM, bare, white_eq, h1, if_true]
        exact this
      · rw [if_neg hv] at h
        cases hl : toks s' t with
        | none => simp [hl] at h
        | some l' =>
          simp only [hl, Option.map_some, Option.some.injEq] at h
          subst h
          have := ih hl
          revert hm
          cases hmode : s.st.mode
          · intro hm
            obtain ⟨h1, h2⟩ := hm
            by_cases hen : v = .ended
            · have hsp : isSpace c = true := h1.2 (Or.inr hen)
              have h34 : c ≠ 34 := by rw [isSpace_iff] at hsp; omega
              rw [h2] at this
              simp only [h34, if_false] at this
              simp only [bareM, bare, white_eq, hsp, if_true]
              simpa [bytes, strip, hen, bareM] using this
            · have hsp : isSpace c = false := by
                cases hh : isSpace c with
                | false => rfl
                | true => rcases h1.1 hh with h | h <;> contradiction
              rw [h2] at this
              simp only [bareM, bare, white_eq, hsp]
              by_cases h34 : c = 34
              · simp only [h34, if_true] at this ⊢
                simpa [bytes, strip, hen, bareM] using this
              · simp only [h34, if_false] at this ⊢
                simpa [bytes, strip, hen, bareM] using this
          · rintro ⟨rfl, h2⟩
            rw [h2] at this
            simp only [bareM, bareString]
            by_cases h34 : c = 34
            · simp only [h34, if_true] at this ⊢
              simpa [bytes, strip, bareM] using this
            · by_cases h92 : c = 92
              · simp only [h34, h92, if_true, if_false] at this ⊢
                simpa [bytes, strip, bareM] using this
              · simp only [h34, h92, if_false] at this ⊢
                simpa [bytes, strip, bareM] using this
          · rintro ⟨rfl, h2⟩
            rw [h2] at this
            simp only [bareM, bareEscaped]
            simpa [bytes, strip, bareM] using this

theorem waits_toks {s : Scan} (h : Waits s) (ws : Str) (hw : ∀ x ∈ ws, isSpace x = true) (u : Str) :
    toks s (ws ++ u) = toks s u := by
  induction ws with
  | nil => rfl
  | cons x ws ih =>
    simp only [List.cons_append, toks, h.2 x (hw x (by simp)), if_true]
    exact ih (fun y hy => hw y (by simp [hy]))

theorem skip_back {s s' : Scan} {c : Nat} (h : step s c = some (s', .skipSpace)) {u : Str} {l} (hu : toks s' u = some l) :
    toks s u = some l := by
  obtain ⟨_, hw, hb, _⟩ := step_skip h
  cases u with
  | nil => simp [toks, hw.1] at hu
  | cons x u =>
    simp only [toks] at hu ⊢
    cases hx : step s' x with
    | none => simp [hx] at hu
    | some r => rw [hb x r hx]; simpa [hx] using hu

/-! ## What `json.Indent` writes -/

theorem newline_space (d : Nat) : ∀ x ∈ newline d, isSpace x = true := by
  intro x hx
  simp only [newline, List.mem_cons, List.mem_replicate] at hx
  rcases hx with rfl | ⟨_, rfl⟩ <;> rfl

/-- The shape of what is written for a byte. -/
theorem emit_shape (need : Bool) (d : Nat) {s s' : Scan} {v : Code} {c : Nat} (h : step s c = some (s', v))
    (hn : need = true → s.st.first = true) :
    ∃ pre post, (emit need d v c).1 = pre ++ c :: post ∧ (∀ x ∈ pre, isSpace x = true) ∧ (∀ x ∈ post, isSpace x = true) ∧
      (pre ≠ [] → s.st.first = true ∨ v = .endObject ∨ v = .endArray) ∧ (post ≠ [] → Waits s') ∧
      ((emit need d v c).2.1 = true → s'.st.first = true) := by
  have hpre : ∀ x ∈ (if (need && v ≠ .endObject && v ≠ .endArray) = true then newline (d + 1) else []), isSpace x = true := by
    intro x hx
    split at hx
    · exact newline_space _ x hx
    · simp at hx
  have hpre' : (if (need && v ≠ .endObject && v ≠ .endArray) = true then newline (d + 1) else []) ≠ [] → s.st.first = true := by
    intro hx
    split at hx
    · rename_i hh
      simp at hh
      exact hn hh.1.1
    · simp at hx
  have hneed : (if (need && v ≠ .endObject && v ≠ .endArray) = true then false else need) = true →
      v = .endObject ∨ v = .endArray := by
    intro hh
    cases need <;> simp at hh
    exact hh
  unfold emit
  by_cases hv : v = .cont
  · simp only [if_pos hv]
    refine ⟨_, [], rfl, hpre, by simp, fun hh => Or.inl (hpre' hh), by simp, fun hh => ?_⟩
    rcases hneed hh with h' | h' <;> rw [hv] at h' <;> simp at h'
  simp only [hv, if_false]
  by_cases h1 : c = 123 ∨ c = 91
  · simp only [h1, if_true]
    refine ⟨_, [], rfl, hpre, by simp, fun hh => Or.inl (hpre' hh), by simp, fun _ => step_punct h hv (by omega)⟩
  simp only [h1, if_false]
  have hcl : v = .endObject ∨ v = .endArray → c = 125 ∨ c = 93 := fun hh => (step_close h hh).1
  by_cases h2 : c = 44
  · simp only [h2, if_true]
    refine ⟨_, newline _, rfl, hpre, newline_space _, fun hh => Or.inl (hpre' hh),
      fun _ => waits_first (step_punct h hv (by omega)), fun _ => step_punct h hv (by omega)⟩
  simp only [h2, if_false]
  by_cases h3 : c = 58
  · simp only [h3, if_true]
    refine ⟨_, [32], rfl, hpre, by simp [isSpace], fun hh => Or.inl (hpre' hh),
      fun _ => waits_first (step_punct h hv (by omega)), fun _ => step_punct h hv (by omega)⟩
  simp only [h3, if_false]
  by_cases h4 : c = 125 ∨ c = 93
  · have hb := step_bracket h hv h4
    have hbf : (need && v ≠ .endObject && v ≠ .endArray) = false := by
      rcases hb with rfl | rfl <;> simp
    simp only [h4, if_true, hbf]
    cases need
    · refine ⟨newline (d - 1), [], by simp, newline_space _, by simp, fun _ => Or.inr hb, by simp, by simp⟩
    · exact ⟨[], [], by simp, by simp, by simp, by simp, by simp, by simp⟩
  · simp only [h4, if_false]
    refine ⟨_, [], rfl, hpre, by simp, fun hh => Or.inl (hpre' hh), by simp, ?_⟩
    intro hh
    exact absurd (hcl (hneed hh)) h4

/-- What is written is read as the same bytes. -/
theorem toks_render (t : Str) : ∀ {s : Scan} {l} (need : Bool) (d : Nat), toks s t = some l → (need = true → s.st.first = true) →
    toks s (render need d l) = some l := by
  induction t with
  | nil =>
    intro s l need d h _
    have := h
    simp only [toks] at h
    split at h <;> simp at h
    subst h
    simpa [render] using this
  | cons c t ih =>
    intro s l need d h hn
    simp only [toks] at h
    cases hs : step s c with
    | none => simp [hs] at h
    | some p =>
      obtain ⟨s', v⟩ := p
      simp only [hs] at h
      by_cases hv : v = .skipSpace
      · subst hv
        rw [if_pos rfl] at h
        refine skip_back hs (ih need d h ?_)
        intro hh
        have := (waits_first (hn hh)).2 c (step_skip hs).1
        rw [hs] at this
        simp only [Option.some.injEq, Prod.mk.injEq, and_true] at this
        rw [this]; exact hn hh
      · rw [if_neg hv] at h
        cases hl : toks s' t with
        | none => simp [hl] at h
        | some l' =>
          simp only [hl, Option.map_some, Option.some.injEq] at h
          subst h
          obtain ⟨pre, post, he, hp1, hp2, hp3, hp4, hp5⟩ := emit_shape need d hs hn
          simp only [render, he]
          have hrest := ih (emit need d v c).2.1 (emit need d v c).2.2 hl hp5
          have hpost : toks s' (post ++ render (emit need d v c).2.1 (emit need d v c).2.2 l') = some l' := by
            by_cases hpn : post = []
            · subst hpn; simpa using hrest
            · rw [waits_toks (hp4 hpn) post hp2]; exact hrest
          have hcore : ∀ s1, step s1 c = some (s', v) →
              toks s1 (c :: (post ++ render (emit need d v c).2.1 (emit need d v c).2.2 l')) = some ((v, c) :: l') := by
            intro s1 h1
            simp [toks, h1, hv, hpost]
          simp only [List.append_assoc, List.cons_append]
          cases hpre : pre with
          | nil => simpa using hcore s hs
          | cons x pre' =>
            rcases hp3 (by simp [hpre]) with hf | hf
            · rw [← hpre, waits_toks (waits_first hf) pre hp1]; exact hcore s hs
            · obtain ⟨_, hcl⟩ := step_close hs hf
              obtain ⟨s1, h1, h2, h3⟩ := hcl x (hp1 x (by simp [hpre]))
              simp only [List.cons_append, toks, h1, if_true]
              rw [waits_toks h3 pre' (fun y hy => hp1 y (by simp [hpre, hy]))]
              exact hcore s1 h2

theorem toks_top (t : Str) : ∀ {s : Scan} {l}, s.st = .endTop → toks s t = some l →
    ∀ p ∈ l, p.1 = .ended ∧ isSpace p.2 = true := by
  induction t with
  | nil =>
    intro s l _ h
    simp only [toks] at h
    split at h <;> simp at h
    subst h; simp
  | cons c t ih =>
    intro s l hst h
    obtain ⟨st, stack⟩ := s
    simp only at hst
    subst hst
    simp only [toks, step] at h
    split at h
    · simp at h
    · rename_i s' v hh
      split at hh
      · rename_i hsp
        simp only [Option.some.injEq, Prod.mk.injEq] at hh
        obtain ⟨rfl, rfl⟩ := hh
        simp only [reduceCtorEq, if_false] at h
        cases hl : toks ⟨.endTop, stack⟩ t with
        | none => simp [hl] at h
        | some l' =>
          simp only [hl, Option.map_some, Option.some.injEq] at h
          subst h
          intro p hp
          simp only [List.mem_cons] at hp
          rcases hp with rfl | hp
          · exact ⟨rfl, hsp⟩
          · exact ih rfl hl p hp
      · simp at hh

theorem strip_top {l : List (Code × Nat)} (h : ∀ p ∈ l, p.1 = Code.ended ∧ isSpace p.2 = true) : strip l = [] := by
  simp only [strip, List.filter_eq_nil_iff]
  intro p hp
  simp [(h p hp).1]

theorem emit_ended (d : Nat) {c : Nat} (h : isSpace c = true) : emit false d .ended c = ([c], false, d) := by
  rw [isSpace_iff] at h
  have h1 : ¬ (c = 123 ∨ c = 91) := by omega
  have h2 : ¬ c = 44 := by omega
  have h3 : ¬ c = 58 := by omega
  have h4 : ¬ (c = 125 ∨ c = 93) := by omega
  simp [emit, h1, h2, h3, h4]

theorem render_top (d : Nat) : ∀ {l : List (Code × Nat)}, (∀ p ∈ l, p.1 = Code.ended ∧ isSpace p.2 = true) →
    ∀ x ∈ render false d l, isSpace x = true := by
  intro l
  induction l with
  | nil => intro _ x hx; simp [render] at hx
  | cons p l ih =>
    intro h x hx
    obtain ⟨v, c⟩ := p
    have hp := h (v, c) (by simp)
    simp only at hp
    rw [hp.1] at hx
    simp only [render, emit_ended d hp.2, List.cons_append, List.nil_append, List.mem_cons] at hx
    rcases hx with rfl | hx
    · exact hp.2
    · exact ih (fun q hq => h q (by simp [hq])) x hx

/-- White space after the value is written as it is. -/
theorem render_strip (t : Str) : ∀ {s : Scan} {l} (need : Bool) (d : Nat), toks s t = some l → (need = true → s.st.first = true) →
    ∃ ws, (∀ x ∈ ws, isSpace x = true) ∧ render need d l = render need d (strip l) ++ ws := by
  induction t with
  | nil =>
    intro s l need d h _
    simp only [toks] at h
    split at h <;> simp at h
    subst h
    exact ⟨[], by simp, by simp [render, strip]⟩
  | cons c t ih =>
    intro s l need d h hn
    simp only [toks] at h
    cases hs : step s c with
    | none => simp [hs] at h
    | some p =>
      obtain ⟨s', v⟩ := p
      simp only [hs] at h
      by_cases hv : v = .skipSpace
      · subst hv
        rw [if_pos rfl] at h
        refine ih need d h ?_
        intro hh
        have := (waits_first (hn hh)).2 c (step_skip hs).1
        rw [hs] at this
        simp only [Option.some.injEq, Prod.mk.injEq, and_true] at this
        rw [this]; exact hn hh
      · rw [if_neg hv] at h
        cases hl : toks s' t with
        | none => simp [hl] at h
        | some l' =>
          simp only [hl, Option.map_some, Option.some.injEq] at h
          subst h
          by_cases hen : v = .ended
          · subst hen
            obtain ⟨h1, h2, h3, h4⟩ := step_ended hs
            have hnf : need = false := by
              cases need with
              | false => rfl
              | true => rw [hn rfl] at h4; simp at h4
            subst hnf
            have hall : ∀ p ∈ ((Code.ended, c) :: l'), p.1 = Code.ended ∧ isSpace p.2 = true := by
              intro p hp
              simp only [List.mem_cons] at hp
              rcases hp with rfl | hp
              · exact ⟨rfl, h1⟩
              · exact toks_top t h2 hl p hp
            refine ⟨render false d ((Code.ended, c) :: l'), render_top d hall, ?_⟩
            rw [strip_top hall]; simp [render]
          · obtain ⟨pre, post, he, hp1, hp2, hp3, hp4, hp5⟩ := emit_shape need d hs hn
            obtain ⟨ws, hw, hr⟩ := ih (emit need d v c).2.1 (emit need d v c).2.2 hl hp5
            refine ⟨ws, hw, ?_⟩
            have : strip ((v, c) :: l') = (v, c) :: strip l' := by simp [strip, hen]
            rw [this]
            simp only [render, hr, List.append_assoc]

/-- The bare text is read as the same bytes. -/
theorem toks_bytes (t : Str) : ∀ {s : Scan} {l}, toks s t = some l → toks s (bytes l) = some (strip l) := by
  induction t with
  | nil =>
    intro s l h
    have := h
    simp only [toks] at h
    split at h <;> simp at h
    subst h
    simpa [bytes, strip] using this
  | cons c t ih =>
    intro s l h
    simp only [toks] at h
    cases hs : step s c with
    | none => simp [hs] at h
    | some p =>
      obtain ⟨s', v⟩ := p
      simp only [hs] at h
      by_cases hv : v = .skipSpace
      · subst hv
        rw [if_pos rfl] at h
        exact skip_back hs (ih h)
      · rw [if_neg hv] at h
        cases hl : toks s' t with
        | none => simp [hl] at h
        | some l' =>
          simp only [hl, Option.map_some, Option.some.injEq] at h
          subst h
          by_cases hen : v = .ended
          · subst hen
            obtain ⟨h1, h2, h3, h4⟩ := step_ended hs
            have hall : strip ((Code.ended, c) :: l') = [] := by
              apply strip_top
              intro p hp
              simp only [List.mem_cons] at hp
              rcases hp with rfl | hp
              · exact ⟨rfl, h1⟩
              · exact toks_top t h2 hl p hp
            simp [bytes, hall, toks, h3]
          · have h1 : strip ((v, c) :: l') = (v, c) :: strip l' := by simp [strip, hen]
            have := ih hl
            simp only [bytes] at this
            simp [bytes, h1, toks, hs, hv, this]

/-! ## Trimming -/

theorem space_trimmed {c : Nat} (h : isSpace c = true) : trimmed c = true := by
  rw [isSpace_iff] at h
  rcases h with rfl | rfl | rfl | rfl <;> rfl

theorem trimmed_space {c : Nat} (h : trimmed c = true) : isSpace c = true ∨ c = 11 ∨ c = 12 := by
  simp [trimmed, trimmed.btw] at h
  rw [isSpace_iff]; omega

theorem dropWhile_append_all {p : Nat → Bool} (a b : Str) (h : ∀ x ∈ a, p x = true) :
    (a ++ b).dropWhile p = b.dropWhile p := by
  induction a with
  | nil => rfl
  | cons x a ih => simp [List.dropWhile_cons, h x (by simp), ih (fun y hy => h y (by simp [hy]))]

theorem dropWhile_all {p : Nat → Bool} (a : Str) (h : ∀ x ∈ a, p x = true) : a.dropWhile p = [] := by
  have := dropWhile_append_all (p := p) a [] h
  simpa using this

theorem dropWhile_append_some {p : Nat → Bool} (a b : Str) (h : ∃ x ∈ a, p x = false) :
    (a ++ b).dropWhile p = a.dropWhile p ++ b := by
  induction a with
  | nil => simp at h
  | cons x a ih =>
    cases hx : p x with
    | false => simp [List.dropWhile_cons, hx]
    | true =>
      have : ∃ y ∈ a, p y = false := by
        obtain ⟨y, hy, hpy⟩ := h
        simp only [List.mem_cons] at hy
        rcases hy with rfl | hy
        · rw [hx] at hpy; simp at hpy
        · exact ⟨y, hy, hpy⟩
      simp [List.dropWhile_cons, hx, ih this]

theorem trim_append (x ws : Str) (h : ∀ y ∈ ws, trimmed y = true) : trimSpace (x ++ ws) = trimSpace x := by
  unfold trimSpace
  by_cases hx : ∃ y ∈ x, trimmed y = false
  · rw [dropWhile_append_some x ws hx, List.reverse_append, dropWhile_append_all _ _ (by simpa using h)]
  · have hx' : ∀ y ∈ x, trimmed y = true := by
      intro y hy
      cases hh : trimmed y with
      | true => rfl
      | false => exact absurd ⟨y, hy, hh⟩ hx
    rw [dropWhile_append_all _ _ hx', dropWhile_all ws h, dropWhile_all x hx']

theorem takeWhile_all {p : Nat → Bool} {x : Nat} : ∀ {u : Str}, x ∈ u.takeWhile p → p x = true := by
  intro u
  induction u with
  | nil => simp
  | cons y u ih =>
    rw [List.takeWhile_cons]
    split
    · intro h
      simp only [List.mem_cons] at h
      rcases h with rfl | h
      · assumption
      · exact ih h
    · simp

theorem trim_split (u : Str) : ∃ pre post, u = pre ++ trimSpace u ++ post ∧ (∀ x ∈ pre, trimmed x = true) ∧
    ∀ x ∈ post, trimmed x = true := by
  refine ⟨u.takeWhile trimmed, ((u.dropWhile trimmed).reverse.takeWhile trimmed).reverse, ?_, ?_, ?_⟩
  · unfold trimSpace
    rw [List.append_assoc, ← List.reverse_append, List.takeWhile_append_dropWhile, List.reverse_reverse,
      List.takeWhile_append_dropWhile]
  · intro x hx; exact takeWhile_all hx
  · intro x hx; exact takeWhile_all (List.mem_reverse.1 hx)

/-- A trailing byte that is trimmed is white space after the value. -/
theorem toks_last (u : Str) (x : Nat) (hx : trimmed x = true) : ∀ {s : Scan} {l}, toks s (u ++ [x]) = some l →
    isSpace x = true ∧ ∃ l', toks s u = some l' ∧ strip l' = strip l := by
  induction u with
  | nil =>
    intro s l h
    simp only [List.nil_append, toks] at h
    cases hs : step s x with
    | none => simp [hs] at h
    | some p =>
      obtain ⟨s', v⟩ := p
      simp only [hs] at h
      have hsp : isSpace x = true := by
        rcases trimmed_space hx with h | h | h
        · exact h
        · exact absurd h (step_byte hs).1
        · exact absurd h (step_byte hs).2
      refine ⟨hsp, ?_⟩
      have heof : s'.eof = true := by
        cases he : s'.eof with
        | true => rfl
        | false => simp [he] at h
      have hm := step_mode hs
      by_cases hv : v = .skipSpace
      · subst hv
        have := (step_skip hs).2.1.1
        rw [heof] at this; simp at this
      · by_cases hen : v = .ended
        · subst hen
          simp [heof] at h
          subst h
          exact ⟨[], by simp [toks, (step_ended hs).2.2.1], by simp [strip]⟩
        · exfalso
          have h34 : x ≠ 34 ∧ x ≠ 92 := by rw [isSpace_iff] at hsp; omega
          have hno : ∀ st : St, ∀ stack, st.mode ≠ .out → Scan.eof ⟨st, stack⟩ = false := by
            intro st stack hm
            cases st <;> simp [St.mode] at hm <;> simp [Scan.eof, step, go, Hex, Digit]
          have hm' : s'.st.mode ≠ .out := by
            revert hm
            cases s.st.mode <;> simp [hsp, hv, hen, h34]
            intro _ h; simp [h]
            intro _ h; simp [h]
          have := hno s'.st s'.stack hm'
          rw [show (⟨s'.st, s'.stack⟩ : Scan) = s' from rfl, heof] at this
          simp at this
  | cons c u ih =>
    intro s l h
    simp only [List.cons_append, toks] at h ⊢
    cases hs : step s c with
    | none => simp [hs] at h
    | some p =>
      obtain ⟨s', v⟩ := p
      simp only [hs] at h ⊢
      by_cases hv : v = .skipSpace
      · rw [if_pos hv] at h ⊢
        exact ih h
      · rw [if_neg hv] at h ⊢
        cases hl : toks s' (u ++ [x]) with
        | none => simp [hl] at h
        | some l1 =>
          simp only [hl, Option.map_some, Option.some.injEq] at h
          subst h
          obtain ⟨h1, l', h2, h3⟩ := ih hl
          refine ⟨h1, (v, c) :: l', by simp [h2], ?_⟩
          simp only [strip, List.filter_cons] at h3 ⊢
          rw [h3]

theorem toks_post (post : Str) (hp : ∀ x ∈ post, trimmed x = true) : ∀ {u : Str} {s : Scan} {l}, toks s (u ++ post) = some l →
    ∃ l', toks s u = some l' ∧ strip l' = strip l := by
  induction post with
  | nil => intro u s l h; exact ⟨l, by simpa using h, rfl⟩
  | cons x post ih =>
    intro u s l h
    obtain ⟨l1, h1, h2⟩ := ih (fun y hy => hp y (by simp [hy])) (u := u ++ [x]) (by simpa using h)
    obtain ⟨_, l2, h3, h4⟩ := toks_last u x (hp x (by simp)) h1
    exact ⟨l2, h3, by rw [h4, h2]⟩

theorem toks_pre (pre : Str) (hp : ∀ x ∈ pre, trimmed x = true) {u : Str} {l} (h : toks Scan.start (pre ++ u) = some l) :
    toks Scan.start u = some l := by
  induction pre with
  | nil => simpa using h
  | cons x pre ih =>
    apply ih (fun y hy => hp y (by simp [hy]))
    simp only [List.cons_append, toks] at h
    cases hs : step Scan.start x with
    | none => simp [hs] at h
    | some p =>
      have hsp : isSpace x = true := by
        rcases trimmed_space (hp x (by simp)) with h | h | h
        · exact h
        · exact absurd h (step_byte (hs : step Scan.start x = some (p.1, p.2))).1
        · exact absurd h (step_byte (hs : step Scan.start x = some (p.1, p.2))).2
      have := (waits_first (s := Scan.start) rfl).2 x hsp
      simpa [this] using h

theorem toks_isSome (t : Str) : (toks Scan.start t).isSome = valid t := by
  rw [toks_valid]
  simp only [valid]
  cases scanAll Scan.start t <;> rfl

/-- A valid text and its pretty form. -/
theorem pretty_toks {t : Str} (h : valid t = true) :
    ∃ l l', toks Scan.start t = some l ∧ toks Scan.start (prettyJSON t) = some l' ∧ strip l' = strip l ∧
      prettyJSON t = trimSpace (render false 0 (strip l)) := by
  have hv := toks_isSome t
  cases hl : toks Scan.start t with
  | none => rw [hl, h] at hv; simp at hv
  | some l =>
    have hpr : prettyJSON t = trimSpace (render false 0 l) := by simp [prettyJSON, indentLoop_eq, hl]
    obtain ⟨ws, hw, hr⟩ := render_strip t false 0 hl (by simp)
    have hu := toks_render t false 0 hl (by simp)
    obtain ⟨pre, post, hs, h1, h2⟩ := trim_split (render false 0 l)
    rw [hs, List.append_assoc] at hu
    obtain ⟨l', h3, h4⟩ := toks_post post h2 (toks_pre pre h1 hu)
    refine ⟨l, l', rfl, ?_, h4, ?_⟩
    · rw [hpr]; exact h3
    · rw [hpr, hr, trim_append _ _ (fun y hy => space_trimmed (hw y hy))]

/-! ## Layout -/

theorem newline_line (d : Nat) : newline d = line d := by
  simp only [newline, line]
  congr 1
  induction d with
  | zero => rfl
  | succ d ih =>
    rw [show 2 * (d + 1) = 2 * d + 1 + 1 by omega, List.replicate_succ, List.replicate_succ, List.replicate_succ]
    simp [ih]

theorem bare_length (t : Str) : (bare t).length ≤ t.length ∧ (bareString t).length ≤ t.length ∧ (bareEscaped t).length ≤ t.length := by
  induction t with
  | nil => simp [bare, bareString, bareEscaped]
  | cons c t ih =>
    refine ⟨?_, ?_, ?_⟩
    · simp only [bare]; split
      · simp; omega
      · split <;> simp <;> omega
    · simp only [bareString]; split
      · simp; omega
      · split <;> simp <;> omega
    · simp only [bareEscaped]; simp; omega

/-- A byte in the middle of a literal is taken whatever values are open. -/
theorem cont_stack {st : St} {stack : List Ps} {s' : Scan} {c : Nat} (h : step ⟨st, stack⟩ c = some (s', .cont)) :
    s'.st.first = false ∧ s'.st ≠ .endTop ∧ ∀ S, step ⟨st, S⟩ c = some (⟨s'.st, S⟩, .cont) := by
  have hend : ∀ stack, ∀ s', endValue stack c = some (s', .cont) → False := by
    intro stack s' h
    rcases endValue_cases h with ⟨_, _, _, h⟩ | ⟨_, _, _, h⟩ | ⟨_, _, _, _, h⟩ | ⟨_, _, _, _, h⟩ | ⟨_, _, _, _, h⟩ | ⟨_, _, _, _, h⟩ |
      ⟨_, _, _, _, h⟩ <;> cases h
  have hbv : ∀ st, ∀ s', beginValue st stack c = some (s', .cont) → False := by
    intro st s' h
    rcases beginValue_cases h with ⟨_, _, h⟩ | ⟨_, _, h⟩ | ⟨_, _, h⟩ | ⟨_, h, _⟩ <;> cases h
  have hbs : ∀ st, ∀ s', beginString st stack c = some (s', .cont) → False := by
    intro st s' h
    rcases beginString_cases h with ⟨_, _, h⟩ | ⟨_, _, h⟩ <;> cases h
  cases st <;> simp only [step] at h ⊢
  case beginStringOrEmpty =>
    exfalso
    split at h
    · cases stack with
      | nil => simp at h
      | cons p ps => exact hend _ _ h
    · exact hbs _ _ h
  all_goals (repeat' split at h)
  all_goals first
    | exact (hend _ _ h).elim
    | exact (hbv _ _ h).elim
    | exact (hbs _ _ h).elim
    | (obtain ⟨hok, he⟩ := go_eq h
       simp only [Prod.mk.injEq, and_true] at he
       subst he
       simp_all [St.first, go]
       done)
    | (simp only [Option.some.injEq, Prod.mk.injEq, and_true] at h
       subst h
       simp_all [St.first, go]
       done)
    | (simp at h; done)

/-- The bytes of a literal after the first. -/
def conts (r : Str) : List (Code × Nat) := r.map (fun c => (.cont, c))

theorem eof_last {st : St} (h : (Scan.mk st []).eof = true) (ht : st ≠ .endTop) : st.last = true := by
  cases st <;> simp_all [Scan.eof, step, beginValue, beginString, endValue, isSpace, go, Digit, Hex, St.last]

theorem literal_run (r : Str) : ∀ {st : St} {l}, toks ⟨st, []⟩ r = some l → bareM st.mode r = r → st.first = false → st ≠ .endTop →
    ∃ st', st'.last = true ∧ (Scan.mk st' []).eof = true ∧
      ∀ S u, toks ⟨st, S⟩ (r ++ u) = (toks ⟨st', S⟩ u).map (conts r ++ ·) := by
  induction r with
  | nil =>
    intro st l h _ _ ht
    simp only [toks] at h
    split at h
    · rename_i he
      exact ⟨st, eof_last he ht, he, fun S u => by simp [conts]⟩
    · simp at h
  | cons c r ih =>
    intro st l h hb hf ht
    simp only [toks] at h
    cases hs : step ⟨st, []⟩ c with
    | none => simp [hs] at h
    | some p =>
      obtain ⟨s', v⟩ := p
      simp only [hs] at h
      have hm := step_mode hs
      have hlen := bare_length r
      by_cases hsp : v = .skipSpace ∨ v = .ended
      · exfalso
        revert hm hb
        simp only
        cases st.mode
        · intro hb hm
          have := hm.1.2 hsp
          simp only [bareM, bare, white_eq, this, if_true] at hb
          have := congrArg List.length hb
          simp at this
          omega
        · intro _ hm; rcases hsp with h | h <;> rw [hm.1] at h <;> simp at h
        · intro _ hm; rcases hsp with h | h <;> rw [hm.1] at h <;> simp at h
      · have hcont : v = .cont := by
          rcases step_cases hs with ⟨hl, he⟩ | ⟨h1, _⟩ | ⟨_, _, h1, _⟩ | ⟨h1, _⟩ | ⟨h1, _⟩ | ⟨h1, _⟩ | ⟨h1, _⟩
          · rcases endValue_cases he with ⟨_, _, _, h⟩ | ⟨_, _, _, h⟩ | ⟨_, h, _⟩ | ⟨_, h, _⟩ | ⟨_, h, _⟩ | ⟨_, h, _⟩ | ⟨_, h, _⟩ <;>
              first | (simp at h; done) | (rw [h] at hsp; simp at hsp)
          · simp only at h1; rw [h1] at hf; simp [St.first] at hf
          · simp only at h1; rw [h1] at hf; simp [St.first] at hf
          · simp only at h1; rcases h1 with h1 | h1 <;> rw [h1] at hf <;> simp [St.first] at hf
          · simp only at h1; rcases h1 with h1 | h1 <;> rw [h1] at hf <;> simp [St.first] at hf
          · exact absurd h1 ht
          · exact h1
        subst hcont
        obtain ⟨h1, h2, h3⟩ := cont_stack hs
        have hstk : s' = ⟨s'.st, []⟩ := by
          have := h3 []
          rw [hs] at this
          simpa using this
        have hb' : bareM s'.st.mode r = r := by
          revert hm hb
          simp only
          cases st.mode
          · intro hb hm
            have hns : isSpace c = false := by
              cases hh : isSpace c with
              | false => rfl
              | true => have := hm.1.1 hh; simp at this
            simp only [bareM, bare, white_eq, hns] at hb
            rw [hm.2]
            by_cases h34 : c = 34
            · simp only [h34, if_true] at hb ⊢
              simpa [bareM] using hb
            · simp only [h34, if_false] at hb ⊢
              simpa [bareM] using hb
          · intro hb hm
            rw [hm.2]
            simp only [bareM, bareString] at hb
            by_cases h34 : c = 34
            · simp only [h34, if_true] at hb ⊢
              simpa [bareM] using hb
            · by_cases h92 : c = 92
              · simp only [h92] at hb ⊢
                simpa [bareM] using hb
              · simp only [h34, h92, if_false] at hb ⊢
                simpa [bareM] using hb
          · intro hb hm
            rw [hm.2]
            simpa [bareM, bareEscaped] using hb
        simp only [reduceCtorEq, if_false] at h
        cases hl : toks s' r with
        | none => simp [hl] at h
        | some l' =>
          rw [hstk] at hl
          obtain ⟨st', g1, g2, g3⟩ := ih hl hb' h1 h2
          refine ⟨st', g1, g2, fun S u => ?_⟩
          simp only [List.cons_append, toks, h3 S, reduceCtorEq, if_false]
          rw [g3 S u]
          cases toks ⟨st', S⟩ u <;> simp [conts]

/-- The bytes of a literal. -/
def lits : Str → List (Code × Nat)
  | [] => []
  | c :: r => (.beginLiteral, c) :: conts r

theorem valid_toks {t : Str} (h : valid t = true) : ∃ l, toks Scan.start t = some l := by
  have := toks_isSome t
  rw [h] at this
  exact Option.isSome_iff_exists.1 this

theorem leaf_run {l : Str} (h : IsLeaf l) : ∃ c r st', l = c :: r ∧ isSpace c = false ∧ c ≠ 123 ∧ c ≠ 91 ∧ c ≠ 44 ∧ c ≠ 58 ∧
    c ≠ 125 ∧ c ≠ 93 ∧ St.last st' = true ∧ (Scan.mk st' []).eof = true ∧
    (∀ st S u, st = .beginValue ∨ st = .beginValueOrEmpty ∨ (c = 34 ∧ st.first = true) →
      toks ⟨st, S⟩ (l ++ u) = (toks ⟨st', S⟩ u).map (lits l ++ ·)) := by
  obtain ⟨hv, hb, h91, h123⟩ := (leaf_iff l).1 h
  obtain ⟨l1, hl1⟩ := valid_toks hv
  cases l with
  | nil => simp [toks, Scan.eof, Scan.start, step, beginValue, isSpace] at hl1
  | cons c r =>
    have h91' : c ≠ 91 := by simpa using h91
    have h123' : c ≠ 123 := by simpa using h123
    simp only [toks] at hl1
    cases hs : step Scan.start c with
    | none => simp [hs] at hl1
    | some p =>
      obtain ⟨s', v⟩ := p
      simp only [hs] at hl1
      have hb0 : beginValue .beginValue [] c = some (s', v) := hs
      have hm := step_mode hs
      rcases beginValue_cases hb0 with ⟨hsp, _, _⟩ | ⟨h, _⟩ | ⟨h, _⟩ | ⟨hns, rfl, hstk, hc⟩
      · exfalso
        simp only [bare, white_eq, hsp, if_true] at hb
        have h1 := congrArg List.length hb
        have h2 := (bare_length r).1
        simp at h1
        omega
      · exact absurd h h123'
      · exact absurd h h91'
      · have hst : s' = ⟨s'.st, []⟩ := by cases s'; simp_all
        simp only [reduceCtorEq, if_false] at hl1
        cases hl : toks s' r with
        | none => simp [hl] at hl1
        | some l' =>
          rw [hst] at hl
          have hbr : bareM s'.st.mode r = r := by
            have hm' : (isSpace c = true ↔ Code.beginLiteral = .skipSpace ∨ Code.beginLiteral = .ended) ∧
              s'.st.mode = if c = 34 then .str else .out := hm
            rw [hm'.2]
            simp only [bare, white_eq, hns] at hb
            by_cases h34 : c = 34
            · simp only [h34, if_true] at hb ⊢
              simpa [bareM] using hb
            · simp only [h34, if_false] at hb ⊢
              simpa [bareM] using hb
          have hff : s'.st.first = false ∧ s'.st ≠ .endTop := by
            rcases hc with ⟨_, h⟩ | ⟨_, _, _, _, _, _, _, h⟩
            · simp [h, St.first]
            · rcases h with h | h | h | h | h | h <;> simp [h, St.first]
          obtain ⟨st', g1, g2, g3⟩ := literal_run r hl hbr hff.1 hff.2
          have hchar : c ≠ 44 ∧ c ≠ 58 ∧ c ≠ 125 ∧ c ≠ 93 := by
            rcases hc with ⟨h, _⟩ | ⟨_, _, _, h1, h2, h3, h4, _⟩
            · omega
            · exact ⟨h1, h2, h3, h4⟩
          refine ⟨c, r, st', rfl, hns, h123', h91', hchar.1, hchar.2.1, hchar.2.2.1, hchar.2.2.2, g1, g2, ?_⟩
          intro st S u hst'
          have hstep : step ⟨st, S⟩ c = some (⟨s'.st, S⟩, .beginLiteral) := by
            have hbS : ∀ st0, beginValue st0 S c = some (⟨s'.st, S⟩, .beginLiteral) := by
              intro st0
              revert hb0
              unfold beginValue
              simp only [hns, Bool.false_eq_true, if_false, h123', h91']
              repeat' split
              all_goals simp
              all_goals (intro h; rw [← h])
            rcases hst' with rfl | rfl | ⟨h34, hf⟩
            · exact hbS _
            · simp only [step, hchar.2.2.2, if_false]; exact hbS _
            · have hin : s'.st = .inString := by
                rcases hc with ⟨_, h⟩ | ⟨h, _⟩
                · exact h
                · exact absurd h34 h
              cases st <;> simp [St.first] at hf
              · simp only [step, hchar.2.2.2, if_false]; exact hbS _
              · exact hbS _
              · simp [step, hchar.2.2.1, beginString, hns, h34, hin, isSpace]
              · simp [step, beginString, h34, hin, isSpace]
          simp only [List.cons_append, toks, hstep, reduceCtorEq, if_false]
          rw [g3 S u]
          cases toks ⟨st', S⟩ u <;> simp [lits]

theorem render_conts (r : Str) (d : Nat) (rest : List (Code × Nat)) :
    render false d (conts r ++ rest) = r ++ render false d rest := by
  induction r with
  | nil => rfl
  | cons c r ih => simp only [conts, List.map_cons, List.cons_append, render]; simp [emit]; simpa [conts] using ih

/-- The new line that is due before an element. -/
def due (need : Bool) (d : Nat) : Str := if need then newline (d + 1) else []

/-- The depth of an element. -/
def inner (need : Bool) (d : Nat) : Nat := if need then d + 1 else d

theorem render_lits {l : Str} {c : Nat} {r : Str} (hl : l = c :: r) (h1 : c ≠ 123) (h2 : c ≠ 91) (h3 : c ≠ 44) (h4 : c ≠ 58)
    (h5 : c ≠ 125) (h6 : c ≠ 93) (need : Bool) (d : Nat) (rest : List (Code × Nat)) :
    render need d (lits l ++ rest) = due need d ++ l ++ render false (inner need d) rest := by
  subst hl
  simp only [lits, List.cons_append, render]
  cases need <;> simp [emit, h1, h2, h3, h4, h5, h6, due, inner, render_conts]

theorem pop_eq (S : List Ps) : pop S = ⟨(pop S).st, S⟩ := rfl

theorem pop_after (S : List Ps) : (S ≠ [] → (pop S).st.last = true) ∧ (S = [] → (Scan.mk (pop S).st []).eof = true) := by
  constructor
  · intro h; simp [pop, h, St.last]
  · intro h; simp [pop, h, Scan.eof]

theorem bind_append (x : Option (List (Code × Nat))) (a b : List (Code × Nat)) :
    (x.map (b ++ ·)).map (a ++ ·) = x.map ((a ++ b) ++ ·) := by
  cases x <;> simp

/-- Being at the start of a value. -/
def Begins (st : St) : Prop := st = .beginValue ∨ st = .beginValueOrEmpty

theorem step_open_array {st : St} (h : Begins st) {S : List Ps} (hn : S.length + 1 ≤ maxNesting) :
    step ⟨st, S⟩ 91 = some (⟨.beginValueOrEmpty, .arrayValue :: S⟩, .beginArray) := by
  rcases h with rfl | rfl <;> simp [step, beginValue, isSpace, push, hn]

theorem step_open_object {st : St} (h : Begins st) {S : List Ps} (hn : S.length + 1 ≤ maxNesting) :
    step ⟨st, S⟩ 123 = some (⟨.beginStringOrEmpty, .objectKey :: S⟩, .beginObject) := by
  rcases h with rfl | rfl <;> simp [step, beginValue, isSpace, push, hn]

/-- What the scanner and the printer do with a value that starts in `st` under the open brackets `S`. -/
def Runs (v : Tree) (S : List Ps) (st : St) : Prop :=
  ∃ st' l, (S ≠ [] → St.last st' = true) ∧ (S = [] → (Scan.mk st' []).eof = true) ∧
    (∀ u, toks ⟨st, S⟩ (v.text ++ u) = (toks ⟨st', S⟩ u).map (l ++ ·)) ∧
    ∀ need d rest, render need d (l ++ rest) = due need d ++ v.layout (inner need d) ++ render false (inner need d) rest

theorem field_run (k : Str) (v : Tree) (hk : IsKey k) (S : List Ps) (hv : Runs v (.objectValue :: S) .beginValue) (st : St)
    (hst : St.first st = true) :
    ∃ l, (∃ st', St.last st' = true ∧
      ∀ u, toks ⟨st, .objectKey :: S⟩ (k ++ 58 :: (v.text ++ u)) = (toks ⟨st', .objectValue :: S⟩ u).map (l ++ ·)) ∧
      ∀ need d rest, render need d (l ++ rest) =
        due need d ++ k ++ 58 :: 32 :: v.layout (inner need d) ++ render false (inner need d) rest := by
    obtain ⟨c, r, sk, h1, h2, h3, h4, h5, h6, h7, h8, h9, h10, h11⟩ := leaf_run (.inl hk)
    have h34 : c = 34 := by have := ((key_iff k).1 hk).2; rw [h1] at this; simpa using this
    obtain ⟨st1, lv, g1, _, g3, g4⟩ := hv
    refine ⟨lits k ++ (.objectKey, 58) :: lv, ⟨st1, g1 (by simp), fun u => ?_⟩, fun need d rest => ?_⟩
    · rw [h11 st (.objectKey :: S) _ (Or.inr (Or.inr ⟨h34, hst⟩))]
      have : toks ⟨sk, .objectKey :: S⟩ (58 :: (v.text ++ u)) =
          (toks ⟨st1, .objectValue :: S⟩ u).map ((Code.objectKey, 58) :: lv ++ ·) := by
        simp only [toks]
        rw [last_step h9 (by omega) (by omega) (by omega) (by omega)]
        simp only [endValue, isSpace]
        simp only [show (58 : Nat) = 32 ↔ False by simp, show (58 : Nat) = 9 ↔ False by simp, show (58 : Nat) = 10 ↔ False by simp,
          show (58 : Nat) = 13 ↔ False by simp, decide_false, Bool.or_self, Bool.false_eq_true, if_false, if_true, reduceCtorEq]
        rw [g3]
        cases toks ⟨st1, .objectValue :: S⟩ u <;> simp
      rw [this, bind_append]
    · simp only [List.append_assoc, List.cons_append]
      rw [render_lits h1 h3 h4 h5 h6 h7 h8]
      have he : ∀ d, emit false d .objectKey 58 = ([58, 32], false, d) := by intro d; simp [emit]
      simp only [render, he]
      rw [g4]
      simp [due, inner]

mutual
theorem tree_run : (v : Tree) → v.Good → ∀ (S : List Ps) (st : St), S.length + v.depth ≤ maxNesting → Begins st → Runs v S st
  | .leaf t, hg, S, st, _, hst => by
    simp only [Tree.Good] at hg
    obtain ⟨c, r, st', h1, h2, h3, h4, h5, h6, h7, h8, h9, h10, h11⟩ := leaf_run hg
    refine ⟨st', lits t, fun _ => h9, fun _ => h10, fun u => ?_, fun need d rest => ?_⟩
    · simp only [Tree.text]
      exact h11 st S u (by rcases hst with h | h <;> simp [h])
    · rw [render_lits h1 h3 h4 h5 h6 h7 h8]; simp [Tree.layout]
  | .array [], _, S, st, hd, hst => by
    have hn : S.length + 1 ≤ maxNesting := by simp only [Tree.depth, depths] at hd; omega
    refine ⟨(pop S).st, [(.beginArray, 91), (.endArray, 93)], (pop_after S).1, (pop_after S).2, fun u => ?_, fun need d rest => ?_⟩
    · simp only [Tree.text, List.cons_append, List.nil_append, toks, step_open_array hst hn]
      simp only [reduceCtorEq, if_false]
      simp [step, endValue, isSpace, ← pop_eq]
      cases toks (pop S) u <;> rfl
    · simp only [List.cons_append, List.nil_append, render]
      cases need <;> simp [emit, due, inner, Tree.layout]
  | .array (v :: vs), hg, S, st, hd, hst => by
    simp only [Tree.Good, Goods] at hg
    have hdep : S.length + 1 + v.depth ≤ maxNesting ∧ S.length + 1 + depths vs ≤ maxNesting := by
      simp only [Tree.depth, depths] at hd; omega
    have hn : S.length + 1 ≤ maxNesting := by omega
    obtain ⟨st1, lv, g1, _, g3, g4⟩ := tree_run v hg.1 (.arrayValue :: S) .beginValueOrEmpty (by simp; omega) (Or.inr rfl)
    obtain ⟨le, k1, k2⟩ := elems_run vs hg.2 S st1 (by omega) (g1 (by simp))
    refine ⟨(pop S).st, (.beginArray, 91) :: (lv ++ le), (pop_after S).1, (pop_after S).2, fun u => ?_, fun need d rest => ?_⟩
    · simp only [Tree.text, List.cons_append, List.append_assoc, toks, step_open_array hst hn]
      simp only [reduceCtorEq, if_false]
      rw [g3, k1, bind_append, ← pop_eq]
      cases toks (pop S) u <;> simp
    · have he : emit need d .beginArray 91 = (due need d ++ [91], true, inner need d) := by
        cases need <;> simp [emit, due, inner]
      simp only [List.cons_append, List.append_assoc, render, he]
      rw [g4]
      simp only [due, inner, if_true]
      rw [k2]
      simp [Tree.layout, newline_line]
  | .object [], _, S, st, hd, hst => by
    have hn : S.length + 1 ≤ maxNesting := by simp only [Tree.depth, depthf] at hd; omega
    refine ⟨(pop S).st, [(.beginObject, 123), (.endObject, 125)], (pop_after S).1, (pop_after S).2, fun u => ?_, fun need d rest => ?_⟩
    · simp only [Tree.text, List.cons_append, List.nil_append, toks, step_open_object hst hn]
      simp only [reduceCtorEq, if_false]
      simp [step, endValue, isSpace, ← pop_eq]
      cases toks (pop S) u <;> rfl
    · simp only [List.cons_append, List.nil_append, render]
      cases need <;> simp [emit, due, inner, Tree.layout]
  | .object ((k, v) :: fs), hg, S, st, hd, hst => by
    simp only [Tree.Good, Goodf] at hg
    have hdep : S.length + 1 + v.depth ≤ maxNesting ∧ S.length + 1 + depthf fs ≤ maxNesting := by
      simp only [Tree.depth, depthf] at hd; omega
    have hn : S.length + 1 ≤ maxNesting := by omega
    obtain ⟨lf, m1, m2⟩ := field_run k v hg.1 S
      (tree_run v hg.2.1 (.objectValue :: S) .beginValue (by simp; omega) (Or.inl rfl)) .beginStringOrEmpty rfl
    obtain ⟨st1, m3, m4⟩ := m1
    obtain ⟨le, k1, k2⟩ := fields_run fs hg.2.2 S st1 (by omega) m3
    refine ⟨(pop S).st, (.beginObject, 123) :: (lf ++ le), (pop_after S).1, (pop_after S).2, fun u => ?_, fun need d rest => ?_⟩
    · have := m4 (textFields fs ++ u)
      simp only [Tree.text, List.cons_append, List.append_assoc, toks, step_open_object hst hn]
      simp only [reduceCtorEq, if_false]
      rw [this, k1, bind_append, ← pop_eq]
      cases toks (pop S) u <;> simp
    · have he : emit need d .beginObject 123 = (due need d ++ [123], true, inner need d) := by
        cases need <;> simp [emit, due, inner]
      simp only [List.cons_append, List.append_assoc, render, he]
      rw [m2]
      simp only [due, inner, if_true]
      rw [k2]
      simp [Tree.layout, newline_line]
theorem elems_run : (vs : List Tree) → Goods vs → ∀ (S : List Ps) (st : St), S.length + 1 + depths vs ≤ maxNesting → st.last = true →
    ∃ l, (∀ u, toks ⟨st, .arrayValue :: S⟩ (textElems vs ++ u) = (toks (pop S) u).map (l ++ ·)) ∧
      ∀ d rest, render false (d + 1) (l ++ rest) = layoutElems d vs ++ render false d rest
  | [], _, S, st, _, hst => by
    refine ⟨[(.endArray, 93)], fun u => ?_, fun d rest => ?_⟩
    · simp only [textElems, List.cons_append, List.nil_append, toks]
      rw [last_step hst (by omega) (by omega) (by omega) (by omega)]
      simp [endValue, isSpace]
    · simp only [List.cons_append, List.nil_append, render]
      simp [emit, layoutElems, newline_line]
  | v :: vs, hg, S, st, hd, hst => by
    simp only [Goods] at hg
    have hdep : S.length + 1 + v.depth ≤ maxNesting ∧ S.length + 1 + depths vs ≤ maxNesting := by
      simp only [depths] at hd; omega
    obtain ⟨st1, lv, g1, _, g3, g4⟩ := tree_run v hg.1 (.arrayValue :: S) .beginValue (by simp; omega) (Or.inl rfl)
    obtain ⟨le, k1, k2⟩ := elems_run vs hg.2 S st1 (by omega) (g1 (by simp))
    refine ⟨(.arrayValue, 44) :: (lv ++ le), fun u => ?_, fun d rest => ?_⟩
    · simp only [textElems, List.cons_append, List.append_assoc, toks]
      rw [last_step hst (by omega) (by omega) (by omega) (by omega)]
      simp only [endValue, isSpace]
      simp only [show (44 : Nat) = 32 ↔ False by simp, show (44 : Nat) = 9 ↔ False by simp, show (44 : Nat) = 10 ↔ False by simp,
        show (44 : Nat) = 13 ↔ False by simp, decide_false, Bool.or_self, Bool.false_eq_true, if_false, if_true, reduceCtorEq]
      rw [g3, k1, bind_append]
      cases toks (pop S) u <;> simp
    · have he : emit false (d + 1) .arrayValue 44 = (44 :: newline (d + 1), false, d + 1) := by simp [emit]
      simp only [List.cons_append, List.append_assoc, render, he]
      rw [g4]
      simp only [due, inner, Bool.false_eq_true, if_false]
      rw [k2]
      simp [layoutElems, newline_line]
theorem fields_run : (fs : List (Str × Tree)) → Goodf fs → ∀ (S : List Ps) (st : St), S.length + 1 + depthf fs ≤ maxNesting →
    st.last = true →
    ∃ l, (∀ u, toks ⟨st, .objectValue :: S⟩ (textFields fs ++ u) = (toks (pop S) u).map (l ++ ·)) ∧
      ∀ d rest, render false (d + 1) (l ++ rest) = layoutFields d fs ++ render false d rest
  | [], _, S, st, _, hst => by
    refine ⟨[(.endObject, 125)], fun u => ?_, fun d rest => ?_⟩
    · simp only [textFields, List.cons_append, List.nil_append, toks]
      rw [last_step hst (by omega) (by omega) (by omega) (by omega)]
      simp [endValue, isSpace]
    · simp only [List.cons_append, List.nil_append, render]
      simp [emit, layoutFields, newline_line]
  | (k, v) :: fs, hg, S, st, hd, hst => by
    simp only [Goodf] at hg
    have hdep : S.length + 1 + v.depth ≤ maxNesting ∧ S.length + 1 + depthf fs ≤ maxNesting := by
      simp only [depthf] at hd; omega
    obtain ⟨lf, ⟨st1, m3, m4⟩, m2⟩ := field_run k v hg.1 S
      (tree_run v hg.2.1 (.objectValue :: S) .beginValue (by simp; omega) (Or.inl rfl)) .beginString rfl
    obtain ⟨le, k1, k2⟩ := fields_run fs hg.2.2 S st1 (by omega) m3
    refine ⟨(.objectValue, 44) :: (lf ++ le), fun u => ?_, fun d rest => ?_⟩
    · have hm := m4 (textFields fs ++ u)
      simp only [textFields, List.cons_append, List.append_assoc, toks]
      rw [last_step hst (by omega) (by omega) (by omega) (by omega)]
      simp only [endValue, isSpace]
      simp only [show (44 : Nat) = 32 ↔ False by simp, show (44 : Nat) = 9 ↔ False by simp, show (44 : Nat) = 10 ↔ False by simp,
        show (44 : Nat) = 13 ↔ False by simp, decide_false, Bool.or_self, Bool.false_eq_true, if_false, if_true, reduceCtorEq]
      rw [hm, k1, bind_append]
      cases toks (pop S) u <;> simp
    · have he : emit false (d + 1) .objectValue 44 = (44 :: newline (d + 1), false, d + 1) := by simp [emit]
      simp only [List.cons_append, List.append_assoc, render, he]
      rw [m2]
      simp only [due, inner, Bool.false_eq_true, if_false]
      rw [k2]
      simp [layoutFields, newline_line]
end

theorem trim_id {u : Str} (h1 : ∀ c m, u = c :: m → trimmed c = false) (h2 : ∀ m x, u = m ++ [x] → trimmed x = false) :
    trimSpace u = u := by
  unfold trimSpace
  have e1 : u.dropWhile trimmed = u := by
    cases u with
    | nil => rfl
    | cons c m => simp [List.dropWhile_cons, h1 c m rfl]
  rw [e1]
  have e2 : u.reverse.dropWhile trimmed = u.reverse := by
    cases hr : u.reverse with
    | nil => rfl
    | cons x m =>
      have : u = m.reverse ++ [x] := by
        have := congrArg List.reverse hr
        simpa using this
      simp [List.dropWhile_cons, h2 _ _ this]
  rw [e2, List.reverse_reverse]

/-- The first and the last byte of a literal are no white space. -/
theorem leaf_ends {l : Str} (h : IsLeaf l) : (∀ c m, l = c :: m → trimmed c = false) ∧ ∀ m x, l = m ++ [x] → trimmed x = false := by
  have h := (leaf_iff l).1 h
  obtain ⟨l1, hl1⟩ := valid_toks h.1
  constructor
  · rintro c m rfl
    cases hc : trimmed c with
    | false => rfl
    | true =>
      exfalso
      have h1 := toks_pre [c] (by simpa using hc) hl1
      have h2 := toks_bare _ h1
      have h3 := toks_bare _ hl1
      simp only [Scan.start, St.mode, bareM] at h2 h3
      have h4 := (bare_length m).1
      rw [h2, ← h3, h.2.1] at h4
      simp at h4
      omega
  · rintro m x rfl
    cases hx : trimmed x with
    | false => rfl
    | true =>
      exfalso
      obtain ⟨_, l', h1, h2⟩ := toks_last m x hx hl1
      have h3 := toks_bare _ h1
      have h4 := toks_bare _ hl1
      simp only [Scan.start, St.mode, bareM] at h3 h4
      have h5 := (bare_length m).1
      have h6 : bytes l' = bytes l1 := by simp [bytes, h2]
      rw [h3, h6, ← h4, h.2.1] at h5
      simp at h5
      omega

theorem layoutElems_end (d : Nat) (vs : List Tree) : ∃ m, layoutElems d vs = m ++ [93] := by
  induction vs with
  | nil => exact ⟨line d, by simp [layoutElems]⟩
  | cons v vs ih => obtain ⟨m, hm⟩ := ih; exact ⟨44 :: (line (d + 1) ++ v.layout (d + 1) ++ m), by simp [layoutElems, hm]⟩

theorem layoutFields_end (d : Nat) (fs : List (Str × Tree)) : ∃ m, layoutFields d fs = m ++ [125] := by
  induction fs with
  | nil => exact ⟨line d, by simp [layoutFields]⟩
  | cons f fs ih =>
    obtain ⟨m, hm⟩ := ih
    exact ⟨44 :: (line (d + 1) ++ f.1 ++ 58 :: 32 :: f.2.layout (d + 1) ++ m), by simp [layoutFields, hm]⟩

theorem ends_of {u m : Str} {c x : Nat} {m' : Str} (h1 : u = c :: m) (h2 : u = m' ++ [x]) (hc : trimmed c = false)
    (hx : trimmed x = false) : trimSpace u = u := by
  apply trim_id
  · intro c' m1 h; rw [h1] at h; simp at h; rw [← h.1]; exact hc
  · intro m1 x' h
    rw [h2] at h
    have := congrArg List.getLast? h
    simp at this
    rw [← this]; exact hx

theorem layout_trim (v : Tree) (hg : v.Good) : trimSpace (v.layout 0) = v.layout 0 := by
  cases v with
  | leaf t =>
    simp only [Tree.Good] at hg
    simp only [Tree.layout]
    exact trim_id (leaf_ends hg).1 (leaf_ends hg).2
  | array l =>
    cases l with
    | nil => rfl
    | cons v vs =>
      obtain ⟨m, hm⟩ := layoutElems_end 0 vs
      exact ends_of (m' := 91 :: (line 1 ++ v.layout 1 ++ m)) (x := 93) (by simp only [Tree.layout]; rfl)
        (by simp [Tree.layout, hm]) rfl rfl
  | object l =>
    cases l with
    | nil => rfl
    | cons f fs =>
      obtain ⟨m, hm⟩ := layoutFields_end 0 fs
      exact ends_of (m' := 123 :: (line 1 ++ f.1 ++ 58 :: 32 :: f.2.layout 1 ++ m)) (x := 125) (by simp only [Tree.layout]; rfl)
        (by simp [Tree.layout, hm]) rfl rfl

end RangeDB.Ind

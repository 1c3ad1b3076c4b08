import Verif.Model.Json

/-!
# Model: pretty-printed JSON

`jsontools.PrettyJSON` (pkg/jsontools/json_tools.go), which is `json.Indent` with two spaces followed by
`strings.TrimSpace`. `json.Indent` and the scanner it uses are modelled byte by byte from `encoding/json` of Go 1.16
(`scanner.go`, `indent.go`; not in /repo), with the limit on the nesting of values.
-/

namespace RangeDB.Ind

open RangeDB.Json (isSpace)

/-- The functions `state…` of the scanner: what it expects next. -/
inductive St where
  | beginValueOrEmpty | beginValue | beginStringOrEmpty | beginString | endValue | endTop
  | inString | esc | escU | escU1 | escU12 | escU123
  | neg | one | zero | dot | dot0 | exp | expSign | exp0
  | t | tr | tru | f | fa | fal | fals | n | nu | nul
deriving DecidableEq, Repr

/-- An entry of `scanner.parseState`: inside which part of which value the scanner is. -/
inductive Ps where
  | objectKey | objectValue | arrayValue
deriving DecidableEq, Repr

/-- The codes the scanner returns for a byte (`scanError` is `none` in `step`). -/
inductive Code where
  | cont | beginLiteral | beginObject | objectKey | objectValue | endObject
  | beginArray | arrayValue | endArray | skipSpace | ended
deriving DecidableEq, Repr

/-- `scanner`. Its field `endTop` is true exactly when its `step` is `stateEndTop`. -/
structure Scan where
  st : St
  stack : List Ps
deriving DecidableEq, Repr

/-- `maxNestingDepth`. -/
def maxNesting : Nat := 10000

/-- `scanner.pushParseState`. -/
def push (st : St) (stack : List Ps) (p : Ps) (code : Code) : Option (Scan × Code) :=
  if stack.length + 1 ≤ maxNesting then some (⟨st, p :: stack⟩, code) else none

/-- `scanner.popParseState`; `stack` is what remains. -/
def pop (stack : List Ps) : Scan := ⟨if stack = [] then .endTop else .endValue, stack⟩

/-- `stateEndValue`, with `stateEndTop` when no value is open. -/
def endValue (stack : List Ps) (c : Nat) : Option (Scan × Code) :=
  match stack with
  | [] => if isSpace c then some (⟨.endTop, []⟩, .ended) else none
  | p :: ps =>
    if isSpace c then some (⟨.endValue, p :: ps⟩, .skipSpace)
    else
      match p with
      | .objectKey => if c = 58 then some (⟨.beginValue, .objectValue :: ps⟩, .objectKey) else none
      | .objectValue =>
        if c = 44 then some (⟨.beginString, .objectKey :: ps⟩, .objectValue)
        else if c = 125 then some (pop ps, .endObject) else none
      | .arrayValue =>
        if c = 44 then some (⟨.beginValue, .arrayValue :: ps⟩, .arrayValue)
        else if c = 93 then some (pop ps, .endArray) else none

/-- `stateBeginValue`. -/
def beginValue (st : St) (stack : List Ps) (c : Nat) : Option (Scan × Code) :=
  if isSpace c then some (⟨st, stack⟩, .skipSpace)
  else if c = 123 then push .beginStringOrEmpty stack .objectKey .beginObject
  else if c = 91 then push .beginValueOrEmpty stack .arrayValue .beginArray
  else if c = 34 then some (⟨.inString, stack⟩, .beginLiteral)
  else if c = 45 then some (⟨.neg, stack⟩, .beginLiteral)
  else if c = 48 then some (⟨.zero, stack⟩, .beginLiteral)
  else if c = 116 then some (⟨.t, stack⟩, .beginLiteral)
  else if c = 102 then some (⟨.f, stack⟩, .beginLiteral)
  else if c = 110 then some (⟨.n, stack⟩, .beginLiteral)
  else if 49 ≤ c ∧ c ≤ 57 then some (⟨.one, stack⟩, .beginLiteral)
  else none

/-- `stateBeginString`. -/
def beginString (st : St) (stack : List Ps) (c : Nat) : Option (Scan × Code) :=
  if isSpace c then some (⟨st, stack⟩, .skipSpace)
  else if c = 34 then some (⟨.inString, stack⟩, .beginLiteral)
  else none

/-- A byte in the middle of a literal. -/
def go (ok : Prop) [Decidable ok] (st : St) (stack : List Ps) : Option (Scan × Code) :=
  if ok then some (⟨st, stack⟩, .cont) else none

/-- A digit. -/
abbrev Digit (c : Nat) : Prop := 48 ≤ c ∧ c ≤ 57

/-- A hexadecimal digit. -/
abbrev Hex (c : Nat) : Prop := Digit c ∨ (97 ≤ c ∧ c ≤ 102) ∨ (65 ≤ c ∧ c ≤ 70)

/-- `scanner.step`: one byte; `none` is `scanError`. -/
def step (s : Scan) (c : Nat) : Option (Scan × Code) :=
  match s.st with
  | .beginValueOrEmpty => if c = 93 then endValue s.stack c else beginValue .beginValueOrEmpty s.stack c
  | .beginValue => beginValue .beginValue s.stack c
  | .beginStringOrEmpty =>
    if c = 125 then
      match s.stack with
      | [] => none
      | _ :: ps => endValue (.objectValue :: ps) c
    else beginString .beginStringOrEmpty s.stack c
  | .beginString => beginString .beginString s.stack c
  | .endValue => endValue s.stack c
  | .endTop => if isSpace c then some (s, .ended) else none
  | .inString =>
    if c = 34 then some (⟨.endValue, s.stack⟩, .cont)
    else if c = 92 then some (⟨.esc, s.stack⟩, .cont)
    else go (32 ≤ c) .inString s.stack
  | .esc =>
    if c = 98 ∨ c = 102 ∨ c = 110 ∨ c = 114 ∨ c = 116 ∨ c = 92 ∨ c = 47 ∨ c = 34 then some (⟨.inString, s.stack⟩, .cont)
    else go (c = 117) .escU s.stack
  | .escU => go (Hex c) .escU1 s.stack
  | .escU1 => go (Hex c) .escU12 s.stack
  | .escU12 => go (Hex c) .escU123 s.stack
  | .escU123 => go (Hex c) .inString s.stack
  | .neg => if c = 48 then some (⟨.zero, s.stack⟩, .cont) else go (49 ≤ c ∧ c ≤ 57) .one s.stack
  | .one =>
    if Digit c then some (⟨.one, s.stack⟩, .cont)
    else if c = 46 then some (⟨.dot, s.stack⟩, .cont)
    else if c = 101 ∨ c = 69 then some (⟨.exp, s.stack⟩, .cont)
    else endValue s.stack c
  | .zero =>
    if c = 46 then some (⟨.dot, s.stack⟩, .cont)
    else if c = 101 ∨ c = 69 then some (⟨.exp, s.stack⟩, .cont)
    else endValue s.stack c
  | .dot => go (Digit c) .dot0 s.stack
  | .dot0 =>
    if Digit c then some (⟨.dot0, s.stack⟩, .cont)
    else if c = 101 ∨ c = 69 then some (⟨.exp, s.stack⟩, .cont)
    else endValue s.stack c
  | .exp => if c = 43 ∨ c = 45 then some (⟨.expSign, s.stack⟩, .cont) else go (Digit c) .exp0 s.stack
  | .expSign => go (Digit c) .exp0 s.stack
  | .exp0 => if Digit c then some (⟨.exp0, s.stack⟩, .cont) else endValue s.stack c
  | .t => go (c = 114) .tr s.stack
  | .tr => go (c = 117) .tru s.stack
  | .tru => go (c = 101) .endValue s.stack
  | .f => go (c = 97) .fa s.stack
  | .fa => go (c = 108) .fal s.stack
  | .fal => go (c = 115) .fals s.stack
  | .fals => go (c = 101) .endValue s.stack
  | .n => go (c = 117) .nu s.stack
  | .nu => go (c = 108) .nul s.stack
  | .nul => go (c = 108) .endValue s.stack

/-- `scanner.eof`: may the text end here? The scanner is given a space to finish a number with. -/
def Scan.eof (s : Scan) : Bool :=
  s.st = .endTop ||
    match step s 32 with
    | some (s', _) => s'.st = .endTop
    | none => false

/-- `scanner.reset`. -/
def Scan.start : Scan := ⟨.beginValue, []⟩

/-- `scanner.step` for all bytes of a text. -/
def scanAll : Scan → Str → Option Scan
  | s, [] => some s
  | s, c :: t =>
    match step s c with
    | none => none
    | some (s', _) => scanAll s' t

/-- `json.Valid`. -/
def valid (t : Str) : Bool :=
  match scanAll Scan.start t with
  | some s => s.eof
  | none => false

/-- `newline` with the indent of `PrettyJSON`, two spaces. -/
def newline (depth : Nat) : Str := 10 :: List.replicate (2 * depth) 32

/-- The body of the loop of `json.Indent` for a byte that is not skipped: what is written, and the new `needIndent` and
`depth`. `depth` is not below 1 where it is decreased, as the bracket was opened. -/
def emit (need : Bool) (depth : Nat) (v : Code) (c : Nat) : Str × Bool × Nat :=
  let before := need && v ≠ .endObject && v ≠ .endArray
  let pre := if before then newline (depth + 1) else []
  let depth := if before then depth + 1 else depth
  let need := if before then false else need
  if v = .cont then (pre ++ [c], need, depth)
  else if c = 123 ∨ c = 91 then (pre ++ [c], true, depth)
  else if c = 44 then (pre ++ c :: newline depth, need, depth)
  else if c = 58 then (pre ++ [c, 32], need, depth)
  else if c = 125 ∨ c = 93 then
    if need then (pre ++ [c], false, depth) else (pre ++ newline (depth - 1) ++ [c], need, depth - 1)
  else (pre ++ [c], need, depth)

/-- The loop of `json.Indent`, and its check of the end; `none`: an error, whereupon nothing is written. -/
def indentLoop : Scan → (need : Bool) → (depth : Nat) → Str → Option Str
  | s, _, _, [] => if s.eof then some [] else none
  | s, need, depth, c :: t =>
    match step s c with
    | none => none
    | some (s', v) =>
      if v = .skipSpace then indentLoop s' need depth t
      else
        let e := emit need depth v c
        (indentLoop s' e.2.1 e.2.2 t).map (e.1 ++ ·)

/-- What `strings.TrimSpace` removes, among the ASCII bytes. -/
def trimmed (c : Nat) : Bool := c = 32 || btw 9 13 c
where btw (lo hi b : Nat) : Bool := lo ≤ b && b ≤ hi

/-- `strings.TrimSpace`. Simplification: white space outside ASCII is left out; what `json.Indent` writes neither starts
nor ends with such a byte. -/
def trimSpace (s : Str) : Str := ((s.dropWhile trimmed).reverse.dropWhile trimmed).reverse

/-- pkg/jsontools/json_tools.go:15-19: `PrettyJSON`. The error of `json.Indent` is ignored, and nothing is in the buffer
then. `PrettyJSONString` (:10-12) is the same. -/
def prettyJSON (input : Str) : Str := trimSpace ((indentLoop Scan.start false 0 input).getD [])

end RangeDB.Ind

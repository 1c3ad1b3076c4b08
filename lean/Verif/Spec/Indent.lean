import Verif.Model.Indent

/-!
# Specification: JSON texts and white space
-/

namespace RangeDB.Ind

/-- The white space of JSON. -/
def white (c : Nat) : Bool := c = 32 || c = 9 || c = 10 || c = 13

mutual
/-- A text without the white space outside its string literals. -/
def bare : Str → Str
  | [] => []
  | c :: t => if white c then bare t else if c = 34 then c :: bareString t else c :: bare t
/-- The same, after an opening quote: everything up to the closing quote is kept. -/
def bareString : Str → Str
  | [] => []
  | c :: t => if c = 34 then c :: bare t else if c = 92 then c :: bareEscaped t else c :: bareString t
/-- The same, after a backslash within a string. -/
def bareEscaped : Str → Str
  | [] => []
  | c :: t => c :: bareString t
end

/-- A JSON value with its strings, numbers and words as they are written. -/
inductive Tree where
  | leaf (text : Str)
  | array (l : List Tree)
  | object (l : List (Str × Tree))

mutual
/-- Its text without any white space. -/
def Tree.text : Tree → Str
  | .leaf t => t
  | .array [] => [91, 93]
  | .array (v :: vs) => 91 :: (v.text ++ textElems vs)
  | .object [] => [123, 125]
  | .object (f :: fs) => 123 :: (f.1 ++ 58 :: (f.2.text ++ textFields fs))
def textElems : List Tree → Str
  | [] => [93]
  | v :: vs => 44 :: (v.text ++ textElems vs)
def textFields : List (Str × Tree) → Str
  | [] => [125]
  | f :: fs => 44 :: (f.1 ++ 58 :: (f.2.text ++ textFields fs))
end

/-- The start of a new line at nesting depth `d`: two spaces for each level. -/
def line (d : Nat) : Str := 10 :: (List.replicate d [32, 32]).flatten

mutual
/-- Its text with every element and every field on a line of its own, at nesting depth `d`; empty arrays and objects stay
together, and a colon is followed by a space. -/
def Tree.layout (d : Nat) : Tree → Str
  | .leaf t => t
  | .array [] => [91, 93]
  | .array (v :: vs) => 91 :: (line (d + 1) ++ v.layout (d + 1) ++ layoutElems d vs)
  | .object [] => [123, 125]
  | .object (f :: fs) => 123 :: (line (d + 1) ++ f.1 ++ 58 :: 32 :: f.2.layout (d + 1) ++ layoutFields d fs)
def layoutElems (d : Nat) : List Tree → Str
  | [] => line d ++ [93]
  | v :: vs => 44 :: (line (d + 1) ++ v.layout (d + 1) ++ layoutElems d vs)
def layoutFields (d : Nat) : List (Str × Tree) → Str
  | [] => line d ++ [125]
  | f :: fs => 44 :: (line (d + 1) ++ f.1 ++ 58 :: 32 :: f.2.layout (d + 1) ++ layoutFields d fs)
end

mutual
/-- How deeply its arrays and objects are nested. -/
def Tree.depth : Tree → Nat
  | .leaf _ => 0
  | .array l => depths l + 1
  | .object l => depthf l + 1
def depths : List Tree → Nat
  | [] => 0
  | v :: vs => max v.depth (depths vs)
def depthf : List (Str × Tree) → Nat
  | [] => 0
  | f :: fs => max f.2.depth (depthf fs)
end

/-! ### The literals (RFC 8259, sections 3, 6 and 7, on bytes) -/

/-- A decimal digit. -/
def IsDigit (c : Nat) : Prop := 48 ≤ c ∧ c ≤ 57

/-- A hexadecimal digit, in upper or lower case. -/
def IsHex (c : Nat) : Prop := IsDigit c ∨ (65 ≤ c ∧ c ≤ 70) ∨ (97 ≤ c ∧ c ≤ 102)

/-- What follows the opening quote of a string: characters and the closing quote. No control character is allowed, and after a
backslash only a quote, a backslash, a slash, one of `b f n r t`, or `u` and four hexadecimal digits. -/
inductive Chars : Str → Prop where
  | close : Chars [34]
  | plain {c t} : 32 ≤ c → c ≠ 34 → c ≠ 92 → Chars t → Chars (c :: t)
  | short {c t} : c ∈ [34, 92, 47, 98, 102, 110, 114, 116] → Chars t → Chars (92 :: c :: t)
  | code {a b c d t} : IsHex a → IsHex b → IsHex c → IsHex d → Chars t → Chars (92 :: 117 :: a :: b :: c :: d :: t)

/-- A string. -/
def IsKey (l : Str) : Prop := ∃ t, l = 34 :: t ∧ Chars t

/-- At least one digit. -/
def Digits (l : Str) : Prop := l ≠ [] ∧ ∀ d ∈ l, IsDigit d

/-- The part of a number before the point: no leading zeros. -/
def Whole (l : Str) : Prop := l = [48] ∨ ∃ d ds, l = d :: ds ∧ 49 ≤ d ∧ d ≤ 57 ∧ ∀ x ∈ ds, IsDigit x

/-- Nothing, or a point and digits. -/
def Fraction (l : Str) : Prop := l = [] ∨ ∃ ds, l = 46 :: ds ∧ Digits ds

/-- Nothing, or `e` or `E`, perhaps a sign, and digits. -/
def Exponent (l : Str) : Prop :=
  l = [] ∨ ∃ e s ds, l = e :: (s ++ ds) ∧ (e = 101 ∨ e = 69) ∧ (s = [] ∨ s = [43] ∨ s = [45]) ∧ Digits ds

/-- A number. -/
def IsNumber (l : Str) : Prop :=
  ∃ s i f e, l = s ++ (i ++ (f ++ e)) ∧ (s = [] ∨ s = [45]) ∧ Whole i ∧ Fraction f ∧ Exponent e

/-- A string, a number, or one of the words `true`, `false` and `null`. -/
def IsLeaf (l : Str) : Prop :=
  IsKey l ∨ IsNumber l ∨ l = [116, 114, 117, 101] ∨ l = [102, 97, 108, 115, 101] ∨ l = [110, 117, 108, 108]

mutual
/-- A value whose leaves are strings, numbers and words, and whose keys are strings. -/
def Tree.Good : Tree → Prop
  | .leaf t => IsLeaf t
  | .array l => Goods l
  | .object l => Goodf l
def Goods : List Tree → Prop
  | [] => True
  | v :: vs => v.Good ∧ Goods vs
def Goodf : List (Str × Tree) → Prop
  | [] => True
  | f :: fs => IsKey f.1 ∧ f.2.Good ∧ Goodf fs
end

end RangeDB.Ind

import Verif.Model.EventParser

/-!
# Specification: what a programmer says with struct tags

A struct declaration as its author means it: for each field declaration the names it declares, whether it
is a string or a number, and how it is marked. `FieldDecl.source` writes it as Go source text, the way the
repository's documentation and tests do. The code model only sees that text.
-/

namespace RangeDB.Gen

/-- How a field declaration is marked: not at all, as the subject, as personal text, or as a personal
number whose cipher text goes to another field. -/
inductive Mark where
  | plain
  | subject
  | personal
  | serialized (target : Str)
deriving DecidableEq, Repr

/-- A field declaration: names, type, mark, and other tags (`json:"name"`, ...) before and after. `raw`
says whether the tag is written in backticks or as a string in double quotes; Go knows both. -/
structure FieldDecl where
  names : List Str
  ty : Ty
  mark : Mark
  before : List (Str × Str)
  after : List (Str × Str)
  raw : Bool
deriving DecidableEq, Repr

/-- The tags of a mark. -/
def Mark.tags : Mark → List (Str × Str)
  | .plain => []
  | .subject => [(kEncrypt, vSubject)]
  | .personal => [(kEncrypt, vPersonal)]
  | .serialized t => [(kEncrypt, vPersonal), (kSerialized, t)]

/-- All tags of the declaration. -/
def FieldDecl.tags (d : FieldDecl) : List (Str × Str) := d.before ++ d.mark.tags ++ d.after

/-- `key:"value"` -/
def tagText (p : Str × Str) : Str := p.1 ++ [58, 34] ++ p.2 ++ [34]

/-- The tags, separated by single spaces. -/
def tagsText : List (Str × Str) → Str
  | [] => []
  | [p] => tagText p
  | p :: q :: ps => tagText p ++ [32] ++ tagsText (q :: ps)

/-- The inside of a string literal in double quotes. -/
def escaped : Str → Str
  | [] => []
  | c :: cs => if c = 34 then 92 :: 34 :: escaped cs else c :: escaped cs

/-- The declaration as source text. -/
def FieldDecl.source (d : FieldDecl) : Field :=
  ⟨d.names, d.ty,
   if d.tags = [] then none
   else some (if d.raw then [96] ++ tagsText d.tags ++ [96] else [34] ++ escaped (tagsText d.tags) ++ [34])⟩

/-- The names marked as personal text. -/
def FieldDecl.personal (d : FieldDecl) : List Str :=
  match d.mark with
  | .personal => d.names
  | _ => []

/-- The names marked as personal numbers, each with its target. -/
def FieldDecl.numbers (d : FieldDecl) : List (Str × Str) :=
  match d.mark with
  | .serialized t => d.names.map (fun n => (t, n))
  | _ => []

/-- Text that needs no escaping in a tag: printable ASCII without quotes, backslashes and backticks. -/
def PlainText (s : Str) : Prop := ∀ c ∈ s, 32 ≤ c ∧ c ≤ 126 ∧ c ≠ 34 ∧ c ≠ 92 ∧ c ≠ 96

/-- A key that can be written in a tag. -/
def PlainKey (s : Str) : Prop := s ≠ [] ∧ PlainText s ∧ 32 ∉ s ∧ 58 ∉ s

/-- Declarations that Go accepts, with tags that need no escapes: every declaration has a name, other
tags have other keys, a target is a name. -/
structure FieldDecl.Good (d : FieldDecl) : Prop where
  named : d.names ≠ [] ∧ [] ∉ d.names
  keys : ∀ p ∈ d.before ++ d.after, PlainKey p.1 ∧ PlainText p.2 ∧ p.1 ≠ kEncrypt ∧ p.1 ≠ kSerialized
  target : ∀ t, d.mark = .serialized t → t ≠ [] ∧ PlainText t ∧ 44 ∉ t

/-- `strconv.Unquote` returns text that needs no escaping as it is. -/
def UnquoteOk (unq : Str → Option Str) : Prop := ∀ s, PlainText s → unq s = some s

/-- A struct with which the generator does what its author means: it has a subject if it has personal
data, every marked declaration has one name and is written in backticks, no two numbers share a target,
no target is itself marked, and targets are strings. -/
structure Careful (ds : List FieldDecl) : Prop where
  subject : (∃ d ∈ ds, d.personal ≠ [] ∨ d.numbers ≠ []) → ∃ d ∈ ds, d.mark = .subject
  single : ∀ d ∈ ds, d.mark ≠ .plain → d.names.length = 1
  ticks : ∀ d ∈ ds, d.mark ≠ .plain → d.raw = true
  targets : ((ds.flatMap FieldDecl.numbers).map (·.1)).Nodup
  apart : ∀ t ∈ (ds.flatMap FieldDecl.numbers).map (·.1), t ∉ ds.flatMap FieldDecl.personal

/-- Go's 25 keywords: break case chan const continue default defer else fallthrough for func go goto if import interface map package range return select struct switch type var. -/
def keywords : List Str :=
  [[98, 114, 101, 97, 107],
   [99, 97, 115, 101],
   [99, 104, 97, 110],
   [99, 111, 110, 115, 116],
   [99, 111, 110, 116, 105, 110, 117, 101],
   [100, 101, 102, 97, 117, 108, 116],
   [100, 101, 102, 101, 114],
   [101, 108, 115, 101],
   [102, 97, 108, 108, 116, 104, 114, 111, 117, 103, 104],
   [102, 111, 114],
   [102, 117, 110, 99],
   [103, 111],
   [103, 111, 116, 111],
   [105, 102],
   [105, 109, 112, 111, 114, 116],
   [105, 110, 116, 101, 114, 102, 97, 99, 101],
   [109, 97, 112],
   [112, 97, 99, 107, 97, 103, 101],
   [114, 97, 110, 103, 101],
   [114, 101, 116, 117, 114, 110],
   [115, 101, 108, 101, 99, 116],
   [115, 116, 114, 117, 99, 116],
   [115, 119, 105, 116, 99, 104],
   [116, 121, 112, 101],
   [118, 97, 114]]

/-- The names that the generated methods use: e, encryptor, err, nil, crypto, strconv. -/
def usedNames : List Str :=
  [[101], [101, 110, 99, 114, 121, 112, 116, 111, 114], [101, 114, 114], [110, 105, 108], [99, 114, 121, 112, 116, 111], [115, 116, 114, 99, 111, 110, 118]]

/-- The variables that a method declares are legal: each is new, and none is a keyword or a name that the
method uses for something else. (A necessary condition for the method to compile.) -/
def LegalLocals (l : List Str) : Prop := l.Nodup ∧ ∀ x ∈ l, x ∉ keywords ∧ x ∉ usedNames

end RangeDB.Gen

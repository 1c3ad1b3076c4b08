import Verif.Base.Types

/-!
# Specification: how a browser reads HTML

The tokenizer of the HTML standard (whatwg.org, section 13.2.5), byte by byte, as far as pages without comments need it:
texts, tags, attributes in all three notations, character references that end with a semicolon, and the elements whose
content is text (`title`, `textarea`, `script`, `style`). It knows nothing of the program.
-/

namespace RangeDB.Html

/-- What the tokenizer yields. -/
inductive Token where
  /-- one byte of text -/
  | char (c : Nat)
  /-- an opening tag and its attributes -/
  | start (name : Str) (attrs : List (Str × Str))
  /-- a closing tag -/
  | close (name : Str)
  /-- `<!…>` -/
  | decl
deriving DecidableEq, Repr

/-- A tag while it is read. -/
structure Tag where
  closing : Bool
  name : Str
  attrs : List (Str × Str)
deriving DecidableEq, Repr

/-- The states. -/
inductive St where
  | data
  /-- inside an element that contains only text; `refs`: with character references -/
  | raw (element : Str) (refs : Bool)
  /-- after '<' and `seen` in such an element -/
  | rawLt (element : Str) (refs : Bool) (seen : Str)
  | tagOpen
  | endOpen
  | bang
  | tagName (t : Tag)
  | beforeAttr (t : Tag)
  | attrName (t : Tag) (name : Str)
  | afterName (t : Tag) (name : Str)
  | beforeValue (t : Tag) (name : Str)
  | dq (t : Tag) (name value : Str)
  | sq (t : Tag) (name value : Str)
  | unq (t : Tag) (name value : Str)
  /-- after '&' and `seen`, in the state `back` -/
  | ref (back : St) (seen : Str)
deriving DecidableEq, Repr

/-- A letter. -/
def letter (c : Nat) : Bool := (65 ≤ c && c ≤ 90) || (97 ≤ c && c ≤ 122)

/-- A letter, a digit or '#'. -/
def refChar (c : Nat) : Bool := letter c || (48 ≤ c && c ≤ 57) || c = 35

/-- White space in a tag. -/
def space (c : Nat) : Bool := c = 32 || c = 9 || c = 10 || c = 12

/-- Tag and attribute names are in lower case. -/
def lowerCase (c : Nat) : Nat := if 65 ≤ c ∧ c ≤ 90 then c + 32 else c

def Tag.add (t : Tag) (name value : Str) : Tag := { t with attrs := t.attrs ++ [(name, value)] }

/-- The state after the opening tag of an element: `title`, `textarea`, `script`, `style`, others. -/
def inside (name : Str) : St :=
  if name = [116, 105, 116, 108, 101] ∨ name = [116, 101, 120, 116, 97, 114, 101, 97] then .raw name true
  else if name = [115, 99, 114, 105, 112, 116] ∨ name = [115, 116, 121, 108, 101] then .raw name false
  else .data

/-- The end of a tag. -/
def finish (t : Tag) : St × List Token :=
  if t.closing then (.data, [.close t.name]) else (inside t.name, [.start t.name t.attrs])

/-- The text of a character reference: `&amp;` `&lt;` `&gt;` `&quot;` and decimal numbers of ASCII characters. Others do not
occur and are left as they are. -/
def decode (name : Str) : Str :=
  if name = [97, 109, 112] then [38]
  else if name = [108, 116] then [60]
  else if name = [103, 116] then [62]
  else if name = [113, 117, 111, 116] then [34]
  else match name with
    | 35 :: ds =>
      if ds ≠ [] ∧ ds.all (fun c => 48 ≤ c && c ≤ 57) ∧ ds.foldl (fun a c => a * 10 + (c - 48)) 0 < 128 then
        [ds.foldl (fun a c => a * 10 + (c - 48)) 0]
      else 38 :: name ++ [59]
    | _ => 38 :: name ++ [59]

/-- Text that is read in a state: part of an attribute value, or text of the page. -/
def give : St → Str → St × List Token
  | .dq t n v, s => (.dq t n (v ++ s), [])
  | .sq t n v, s => (.sq t n (v ++ s), [])
  | .unq t n v, s => (.unq t n (v ++ s), [])
  | st, s => (st, s.map .char)

/-- Text of the page, or the beginning of a tag or of a character reference. -/
def readData (c : Nat) : St × List Token :=
  if c = 60 then (.tagOpen, []) else if c = 38 then (.ref .data [], []) else (.data, [.char c])

/-- The same in an element that contains only text. -/
def readRaw (el : Str) (refs : Bool) (c : Nat) : St × List Token :=
  if c = 60 then (.rawLt el refs [], [])
  else if refs ∧ c = 38 then (.ref (.raw el refs) [], [])
  else (.raw el refs, [.char c])

/-- One byte in a state other than `ref`. -/
def plainStep : St → Nat → St × List Token
  | .data, c => readData c
  | .raw el refs, c => readRaw el refs c
  | .rawLt el refs seen, c =>
    if seen = [] ∧ c = 47 then (.rawLt el refs [47], [])
    else if seen ≠ [] ∧ letter c then (.rawLt el refs (seen ++ [lowerCase c]), [])
    else if seen = 47 :: el ∧ c = 62 then finish ⟨true, el, []⟩
    else if seen = 47 :: el ∧ (space c ∨ c = 47) then (.beforeAttr ⟨true, el, []⟩, [])
    else ((readRaw el refs c).1, (60 :: seen).map .char ++ (readRaw el refs c).2)
  | .tagOpen, c =>
    if c = 33 then (.bang, [])
    else if c = 47 then (.endOpen, [])
    else if letter c then (.tagName ⟨false, [lowerCase c], []⟩, [])
    else ((readData c).1, .char 60 :: (readData c).2)
  | .endOpen, c =>
    if letter c then (.tagName ⟨true, [lowerCase c], []⟩, [])
    else if c = 62 then (.data, [])
    else (.bang, [])
  | .bang, c => if c = 62 then (.data, [.decl]) else (.bang, [])
  | .tagName t, c =>
    if space c ∨ c = 47 then (.beforeAttr t, [])
    else if c = 62 then finish t
    else (.tagName { t with name := t.name ++ [lowerCase c] }, [])
  | .beforeAttr t, c =>
    if space c ∨ c = 47 then (.beforeAttr t, [])
    else if c = 62 then finish t
    else (.attrName t [lowerCase c], [])
  | .attrName t n, c =>
    if space c then (.afterName t n, [])
    else if c = 47 then (.beforeAttr (t.add n []), [])
    else if c = 62 then finish (t.add n [])
    else if c = 61 then (.beforeValue t n, [])
    else (.attrName t (n ++ [lowerCase c]), [])
  | .afterName t n, c =>
    if space c then (.afterName t n, [])
    else if c = 47 then (.beforeAttr (t.add n []), [])
    else if c = 62 then finish (t.add n [])
    else if c = 61 then (.beforeValue t n, [])
    else (.attrName (t.add n []) [lowerCase c], [])
  | .beforeValue t n, c =>
    if space c then (.beforeValue t n, [])
    else if c = 34 then (.dq t n [], [])
    else if c = 39 then (.sq t n [], [])
    else if c = 62 then finish (t.add n [])
    else if c = 38 then (.ref (.unq t n []) [], [])
    else (.unq t n [c], [])
  | .dq t n v, c =>
    if c = 34 then (.beforeAttr (t.add n v), [])
    else if c = 38 then (.ref (.dq t n v) [], [])
    else (.dq t n (v ++ [c]), [])
  | .sq t n v, c =>
    if c = 39 then (.beforeAttr (t.add n v), [])
    else if c = 38 then (.ref (.sq t n v) [], [])
    else (.sq t n (v ++ [c]), [])
  | .unq t n v, c =>
    if space c then (.beforeAttr (t.add n v), [])
    else if c = 62 then finish (t.add n v)
    else if c = 38 then (.ref (.unq t n v) [], [])
    else (.unq t n (v ++ [c]), [])
  | .ref back seen, _ => (.ref back seen, [])

/-- One byte. -/
def step : St → Nat → St × List Token
  | .ref back seen, c =>
    if c = 59 then give back (decode seen)
    else if refChar c then (.ref back (seen ++ [c]), [])
    else
      let g := give back (38 :: seen)
      let r := plainStep g.1 c
      (r.1, g.2 ++ r.2)
  | st, c => plainStep st c

/-- A text, from a state. -/
def run : St → Str → St × List Token
  | st, [] => (st, [])
  | st, c :: s =>
    let r := step st c
    let r' := run r.1 s
    (r'.1, r.2 ++ r'.2)

/-- What a browser reads in a page. -/
def tokens (s : Str) : List Token := (run .data s).2

/-! ## The expected content of the pages -/

/-- The bytes of an ASCII text. -/
def ascii (s : String) : Str := s.toList.map Char.toNat

/-- A text as it appears: unchanged, except that the byte 0 is shown as U+FFFD. -/
def shown (s : Str) : Str := s.flatMap (fun c => if c = 0 then [239, 191, 189] else [c])

/-- A text on the page. -/
def text (s : Str) : List Token := (shown s).map .char

/-- A cell of a table. -/
def cell (attrs : List (Str × Str)) (content : List Token) : List Token :=
  .start (ascii "td") attrs :: content ++ [.close (ascii "td")]

/-- A link. -/
def link (href : Str) (content : List Token) : List Token :=
  .start (ascii "a") [(ascii "href", href)] :: content ++ [.close (ascii "a")]

/-- White space between the cells. -/
def indent : List Token := text (ascii "\n            ")

/-- A local link: it starts with one '/'. -/
def Local (u : Str) : Prop := ∃ rest, u = 47 :: rest ∧ rest.head? ≠ some 47

/-! ## What must never be on a page -/

/-- An attribute that runs no program: its name is not that of an event handler, and a link or an image stays on the site
(it starts with one '/') or leads to the documentation. -/
def SafeAttr (a : Str × Str) : Prop :=
  ¬ ascii "on" <+: a.1 ∧ a.1 ≠ ascii "style" ∧ a.1 ≠ ascii "srcdoc" ∧
  (a.1 = ascii "href" ∨ a.1 = ascii "src" ∨ a.1 = ascii "action" ∨ a.1 = ascii "formaction" →
    Local a.2 ∨ a.2 = ascii "https://github.com/inklabs/rangedb")

/-- A token that runs no program and loads nothing from elsewhere. -/
def Safe : Token → Prop
  | .start name attrs =>
    name ∉ [ascii "script", ascii "style", ascii "iframe", ascii "object", ascii "embed", ascii "base", ascii "form",
      ascii "svg", ascii "math"] ∧ ∀ a ∈ attrs, SafeAttr a
  | _ => True

/-! ## Names that are not changed in a link -/

/-- A '%' followed by two hexadecimal digits occurs in the text. -/
def PercentPair (s : Str) : Prop :=
  ∃ p a b q, s = p ++ 37 :: a :: b :: q ∧ a ∈ ascii "0123456789abcdefABCDEF" ∧ b ∈ ascii "0123456789abcdefABCDEF"

end RangeDB.Html

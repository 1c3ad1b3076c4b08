import Verif.Model.Paging
import Verif.Model.Display

/-!
# Model: the HTML of the web pages

`pkg/rangedbui/templates` as `html/template` renders them (`renderWithValues` and `RenderTemplate`, ui.go:270-288): the
text of the files byte for byte, and between it the values, each passed through the functions that `html/template` inserts
for the place where it stands (as its source is known). A value between tags or in the title goes through `esc`, a value
after the beginning of a link through `urlNorm` and then `esc`, a whole link through `urlFilter` first. The pages are those
of a stream, of an aggregate type and of the aggregate types. Not modelled: the two live pages, which draw in the browser.
-/

namespace RangeDB.Html

/-! ## html/template -/

/-- `htmlReplacementTable` (html/template/html.go), one byte. Bytes of other characters are kept. -/
def escByte (c : Nat) : Str :=
  if c = 0 then [239, 191, 189]             -- U+FFFD
  else if c = 34 then [38, 35, 51, 52, 59]  -- &#34;
  else if c = 38 then [38, 97, 109, 112, 59]  -- &amp;
  else if c = 39 then [38, 35, 51, 57, 59]  -- &#39;
  else if c = 43 then [38, 35, 52, 51, 59]  -- &#43;
  else if c = 60 then [38, 108, 116, 59]    -- &lt;
  else if c = 62 then [38, 103, 116, 59]    -- &gt;
  else [c]

/-- `htmlEscaper`, `rcdataEscaper` and `attrEscaper` of a string: `htmlReplacer(s, htmlReplacementTable, true)`. -/
def esc (s : Str) : Str := s.flatMap escByte

/-- A hexadecimal digit, lower case. -/
def hexLower (n : Nat) : Nat := if n < 10 then 48 + n else 87 + n

/-- `isHex` (html/template/css.go). -/
def isHex (c : Nat) : Bool := (48 ≤ c && c ≤ 57) || (97 ≤ c && c ≤ 102) || (65 ≤ c && c ≤ 70)

/-- Does `processURLOnto(s, true)` (html/template/url.go) keep the byte `c` that is followed by `rest`? It keeps
`! # $ & * + , / : ; = ? @ [ ]`, `- . _ ~`, letters, digits, and `%` before two hexadecimal digits. -/
def keeps (c : Nat) (rest : Str) : Bool :=
  c ∈ [33, 35, 36, 38, 42, 43, 44, 47, 58, 59, 61, 63, 64, 91, 93] || c ∈ [45, 46, 95, 126] || Pg.isAlnum c ||
    (c = 37 && match rest with
      | a :: b :: _ => isHex a && isHex b
      | _ => false)

/-- `urlNormalizer`. -/
def urlNorm : Str → Str
  | [] => []
  | c :: rest => (if keeps c rest then [c] else [37, hexLower (c / 16), hexLower (c % 16)]) ++ urlNorm rest

/-- Lower case of an ASCII letter. -/
def lower (c : Nat) : Nat := if 65 ≤ c ∧ c ≤ 90 then c + 32 else c

/-- `isSafeURL` (html/template/url.go): a text with a colon and no slash before it must start with `http`, `https` or
`mailto`. -/
def isSafeURL (s : Str) : Bool :=
  let scheme := s.takeWhile (· ≠ 58)
  !(58 ∈ s) || 47 ∈ scheme ||
    scheme.map lower ∈ ([[104, 116, 116, 112], [104, 116, 116, 112, 115], [109, 97, 105, 108, 116, 111]] : List Str)

/-- `urlFilter`: `"#ZgotmplZ"` for an unsafe link. -/
def urlFilter (s : Str) : Str := if isSafeURL s then s else [35, 90, 103, 111, 116, 109, 112, 108, 90]

/-! ## The text of the templates -/

/-- `templates/layout/base.gohtml:1-7`, up to `<title>`. -/
def lHead : Str :=
  [10, 32, 32, 32, 32, 60, 33, 100, 111, 99, 116, 121, 112, 101, 32, 104, 116, 109, 108, 62, 10, 32, 32, 32, 32,
   60, 104, 116, 109, 108, 32, 99, 108, 97, 115, 115, 61, 34, 110, 111, 45, 106, 115, 34, 32, 108, 97, 110, 103,
   61, 34, 101, 110, 34, 62, 10, 32, 32, 32, 32, 60, 104, 101, 97, 100, 62, 10, 32, 32, 32, 32, 32, 32, 32, 32,
   60, 109, 101, 116, 97, 32, 99, 104, 97, 114, 115, 101, 116, 61, 34, 117, 116, 102, 45, 56, 34, 47, 62, 10,
   32, 32, 32, 32, 32, 32, 32, 32, 60, 109, 101, 116, 97, 32, 110, 97, 109, 101, 61, 34, 118, 105, 101, 119,
   112, 111, 114, 116, 34, 32, 99, 111, 110, 116, 101, 110, 116, 61, 34, 119, 105, 100, 116, 104, 61, 100, 101,
   118, 105, 99, 101, 45, 119, 105, 100, 116, 104, 44, 32, 105, 110, 105, 116, 105, 97, 108, 45, 115, 99, 97,
   108, 101, 61, 49, 46, 48, 34, 47, 62, 10, 32, 32, 32, 32, 32, 32, 32, 32, 60, 116, 105, 116, 108, 101, 62]

/-- `templates/layout/base.gohtml:7-33`, after the title up to the content (`extraHead` is empty). -/
def lTop : Str :=
  [32, 45, 32, 82, 97, 110, 103, 101, 68, 66, 60, 47, 116, 105, 116, 108, 101, 62, 10, 32, 32, 32, 32, 32, 32,
   32, 32, 60, 108, 105, 110, 107, 32, 114, 101, 108, 61, 34, 105, 99, 111, 110, 34, 32, 104, 114, 101, 102, 61,
   34, 47, 115, 116, 97, 116, 105, 99, 47, 105, 109, 103, 47, 102, 97, 118, 105, 99, 111, 110, 46, 105, 99, 111,
   34, 47, 62, 10, 32, 32, 32, 32, 32, 32, 32, 32, 60, 108, 105, 110, 107, 32, 114, 101, 108, 61, 34, 115, 104,
   111, 114, 116, 99, 117, 116, 32, 105, 99, 111, 110, 34, 32, 116, 121, 112, 101, 61, 34, 105, 109, 97, 103,
   101, 47, 120, 45, 105, 99, 111, 110, 34, 32, 104, 114, 101, 102, 61, 34, 47, 115, 116, 97, 116, 105, 99, 47,
   105, 109, 103, 47, 102, 97, 118, 105, 99, 111, 110, 46, 105, 99, 111, 34, 47, 62, 10, 32, 32, 32, 32, 32, 32,
   32, 32, 60, 108, 105, 110, 107, 32, 114, 101, 108, 61, 34, 115, 116, 121, 108, 101, 115, 104, 101, 101, 116,
   34, 32, 104, 114, 101, 102, 61, 34, 47, 115, 116, 97, 116, 105, 99, 47, 99, 115, 115, 47, 102, 111, 117, 110,
   100, 97, 116, 105, 111, 110, 45, 54, 46, 53, 46, 51, 46, 109, 105, 110, 46, 99, 115, 115, 34, 62, 10, 32, 32,
   32, 32, 32, 32, 32, 32, 60, 108, 105, 110, 107, 32, 114, 101, 108, 61, 34, 115, 116, 121, 108, 101, 115, 104,
   101, 101, 116, 34, 32, 104, 114, 101, 102, 61, 34, 47, 115, 116, 97, 116, 105, 99, 47, 99, 115, 115, 47, 102,
   111, 117, 110, 100, 97, 116, 105, 111, 110, 45, 105, 99, 111, 110, 115, 46, 99, 115, 115, 34, 62, 10, 32, 32,
   32, 32, 32, 32, 32, 32, 60, 108, 105, 110, 107, 32, 114, 101, 108, 61, 34, 115, 116, 121, 108, 101, 115, 104,
   101, 101, 116, 34, 32, 104, 114, 101, 102, 61, 34, 47, 115, 116, 97, 116, 105, 99, 47, 99, 115, 115, 47, 115,
   105, 116, 101, 46, 99, 115, 115, 34, 62, 10, 32, 32, 32, 32, 32, 32, 32, 32, 10, 32, 32, 32, 32, 60, 47, 104,
   101, 97, 100, 62, 10, 32, 32, 32, 32, 60, 98, 111, 100, 121, 62, 10, 32, 32, 32, 32, 60, 100, 105, 118, 32,
   105, 100, 61, 34, 104, 101, 97, 100, 101, 114, 34, 32, 99, 108, 97, 115, 115, 61, 34, 116, 111, 112, 45, 98,
   97, 114, 34, 62, 10, 32, 32, 32, 32, 32, 32, 32, 32, 60, 100, 105, 118, 32, 99, 108, 97, 115, 115, 61, 34,
   116, 111, 112, 45, 98, 97, 114, 45, 108, 101, 102, 116, 34, 62, 10, 32, 32, 32, 32, 32, 32, 32, 32, 32, 32,
   32, 32, 60, 100, 105, 118, 32, 99, 108, 97, 115, 115, 61, 34, 116, 111, 112, 45, 98, 97, 114, 45, 116, 105,
   116, 108, 101, 34, 62, 10, 32, 32, 32, 32, 32, 32, 32, 32, 32, 32, 32, 32, 32, 32, 32, 32, 60, 97, 32, 104,
   114, 101, 102, 61, 34, 47, 34, 62, 10, 32, 32, 32, 32, 32, 32, 32, 32, 32, 32, 32, 32, 32, 32, 32, 32, 32,
   32, 32, 32, 60, 105, 109, 103, 32, 115, 114, 99, 61, 34, 47, 115, 116, 97, 116, 105, 99, 47, 105, 109, 103,
   47, 114, 97, 110, 103, 101, 100, 98, 45, 108, 111, 103, 111, 45, 119, 104, 105, 116, 101, 45, 51, 48, 120,
   51, 48, 46, 112, 110, 103, 34, 32, 119, 105, 100, 116, 104, 61, 34, 51, 48, 34, 32, 104, 101, 105, 103, 104,
   116, 61, 34, 51, 48, 34, 32, 97, 108, 116, 61, 34, 82, 97, 110, 103, 101, 68, 66, 32, 76, 111, 103, 111, 34,
   47, 62, 10, 32, 32, 32, 32, 32, 32, 32, 32, 32, 32, 32, 32, 32, 32, 32, 32, 32, 32, 32, 32, 60, 115, 112, 97,
   110, 62, 82, 97, 110, 103, 101, 68, 66, 60, 47, 115, 112, 97, 110, 62, 10, 32, 32, 32, 32, 32, 32, 32, 32,
   32, 32, 32, 32, 32, 32, 32, 32, 60, 47, 97, 62, 10, 32, 32, 32, 32, 32, 32, 32, 32, 32, 32, 32, 32, 60, 47,
   100, 105, 118, 62, 10, 32, 32, 32, 32, 32, 32, 32, 32, 60, 47, 100, 105, 118, 62, 10, 32, 32, 32, 32, 32, 32,
   32, 32, 60, 100, 105, 118, 32, 99, 108, 97, 115, 115, 61, 34, 116, 111, 112, 45, 98, 97, 114, 45, 114, 105,
   103, 104, 116, 34, 62, 10, 32, 32, 32, 32, 32, 32, 32, 32, 32, 32, 32, 32, 60, 117, 108, 32, 99, 108, 97,
   115, 115, 61, 34, 109, 101, 110, 117, 34, 62, 10, 32, 32, 32, 32, 32, 32, 32, 32, 32, 32, 32, 32, 32, 32, 32,
   32, 60, 108, 105, 62, 60, 97, 32, 104, 114, 101, 102, 61, 34, 47, 34, 62, 72, 111, 109, 101, 60, 47, 97, 62,
   60, 47, 108, 105, 62, 10, 32, 32, 32, 32, 32, 32, 32, 32, 32, 32, 32, 32, 60, 47, 117, 108, 62, 10, 32, 32,
   32, 32, 32, 32, 32, 32, 60, 47, 100, 105, 118, 62, 10, 32, 32, 32, 32, 60, 47, 100, 105, 118, 62, 10, 10, 32,
   32, 32, 32, 60, 100, 105, 118, 32, 105, 100, 61, 34, 99, 111, 110, 116, 101, 110, 116, 34, 62, 10, 32, 32,
   32, 32, 32, 32, 32, 32]

/-- `templates/layout/base.gohtml:33-40`, after the content up to the version. -/
def lFoot : Str :=
  [10, 32, 32, 32, 32, 60, 47, 100, 105, 118, 62, 10, 10, 32, 32, 32, 32, 60, 100, 105, 118, 32, 105, 100, 61,
   34, 102, 111, 111, 116, 101, 114, 34, 32, 99, 108, 97, 115, 115, 61, 34, 103, 114, 105, 100, 45, 99, 111,
   110, 116, 97, 105, 110, 101, 114, 34, 62, 10, 32, 32, 32, 32, 32, 32, 32, 32, 60, 100, 105, 118, 32, 99, 108,
   97, 115, 115, 61, 34, 103, 114, 105, 100, 45, 120, 32, 103, 114, 105, 100, 45, 112, 97, 100, 100, 105, 110,
   103, 45, 120, 32, 97, 108, 105, 103, 110, 45, 99, 101, 110, 116, 101, 114, 34, 62, 10, 32, 32, 32, 32, 32,
   32, 32, 32, 32, 32, 32, 32, 60, 100, 105, 118, 32, 99, 108, 97, 115, 115, 61, 34, 99, 101, 108, 108, 32, 116,
   101, 120, 116, 45, 99, 101, 110, 116, 101, 114, 34, 62, 10, 32, 32, 32, 32, 32, 32, 32, 32, 32, 32, 32, 32,
   32, 32, 32, 32, 60, 115, 109, 97, 108, 108, 62, 10, 32, 32, 32, 32, 32, 32, 32, 32, 32, 32, 32, 32, 32, 32,
   32, 32, 32, 32, 32, 32, 82, 97, 110, 103, 101, 68, 66, 32]

/-- `templates/layout/base.gohtml:40-52`, after the version (`extraEndBody` is empty). -/
def lEnd : Str :=
  [10, 32, 32, 32, 32, 32, 32, 32, 32, 32, 32, 32, 32, 32, 32, 32, 32, 32, 32, 32, 32, 124, 32, 60, 97, 32, 104,
   114, 101, 102, 61, 34, 104, 116, 116, 112, 115, 58, 47, 47, 103, 105, 116, 104, 117, 98, 46, 99, 111, 109,
   47, 105, 110, 107, 108, 97, 98, 115, 47, 114, 97, 110, 103, 101, 100, 98, 34, 62, 68, 111, 99, 117, 109, 101,
   110, 116, 97, 116, 105, 111, 110, 60, 47, 97, 62, 10, 32, 32, 32, 32, 32, 32, 32, 32, 32, 32, 32, 32, 32, 32,
   32, 32, 32, 32, 32, 32, 124, 32, 60, 97, 32, 104, 114, 101, 102, 61, 34, 47, 97, 112, 105, 47, 108, 105, 115,
   116, 45, 97, 103, 103, 114, 101, 103, 97, 116, 101, 45, 116, 121, 112, 101, 115, 34, 62, 65, 80, 73, 60, 47,
   97, 62, 10, 32, 32, 32, 32, 32, 32, 32, 32, 32, 32, 32, 32, 32, 32, 32, 32, 60, 47, 115, 109, 97, 108, 108,
   62, 10, 32, 32, 32, 32, 32, 32, 32, 32, 32, 32, 32, 32, 60, 47, 100, 105, 118, 62, 10, 32, 32, 32, 32, 32,
   32, 32, 32, 60, 47, 100, 105, 118, 62, 10, 32, 32, 32, 32, 60, 47, 100, 105, 118, 62, 10, 10, 32, 32, 32, 32,
   10, 10, 32, 32, 32, 32, 60, 47, 98, 111, 100, 121, 62, 10, 32, 32, 32, 32, 60, 47, 104, 116, 109, 108, 62, 10]

/-- `templates/layout/records.gohtml:1-16`. -/
def lTable : Str :=
  [10, 60, 116, 97, 98, 108, 101, 32, 99, 108, 97, 115, 115, 61, 34, 114, 101, 99, 111, 114, 100, 115, 34, 62,
   10, 32, 32, 32, 32, 60, 116, 104, 101, 97, 100, 62, 10, 32, 32, 32, 32, 60, 116, 114, 62, 10, 32, 32, 32, 32,
   32, 32, 32, 32, 60, 116, 104, 32, 116, 105, 116, 108, 101, 61, 34, 71, 108, 111, 98, 97, 108, 32, 83, 101,
   113, 117, 101, 110, 99, 101, 32, 78, 117, 109, 98, 101, 114, 34, 62, 71, 83, 78, 60, 47, 116, 104, 62, 10,
   32, 32, 32, 32, 32, 32, 32, 32, 60, 116, 104, 32, 116, 105, 116, 108, 101, 61, 34, 83, 116, 114, 101, 97,
   109, 32, 83, 101, 113, 117, 101, 110, 99, 101, 32, 78, 117, 109, 98, 101, 114, 34, 62, 83, 83, 78, 60, 47,
   116, 104, 62, 10, 32, 32, 32, 32, 32, 32, 32, 32, 60, 116, 104, 62, 69, 118, 101, 110, 116, 32, 84, 121, 112,
   101, 60, 47, 116, 104, 62, 10, 32, 32, 32, 32, 32, 32, 32, 32, 60, 116, 104, 62, 65, 103, 103, 114, 101, 103,
   97, 116, 101, 32, 84, 121, 112, 101, 60, 47, 116, 104, 62, 10, 32, 32, 32, 32, 32, 32, 32, 32, 60, 116, 104,
   62, 83, 116, 114, 101, 97, 109, 60, 47, 116, 104, 62, 10, 32, 32, 32, 32, 32, 32, 32, 32, 60, 116, 104, 62,
   73, 110, 115, 101, 114, 116, 32, 68, 97, 116, 101, 60, 47, 116, 104, 62, 10, 32, 32, 32, 32, 32, 32, 32, 32,
   60, 116, 104, 62, 68, 97, 116, 97, 60, 47, 116, 104, 62, 10, 32, 32, 32, 32, 60, 47, 116, 114, 62, 10, 32,
   32, 32, 32, 60, 47, 116, 104, 101, 97, 100, 62, 10, 32, 32, 32, 32, 60, 116, 98, 111, 100, 121, 62, 10, 10,
   32, 32, 32, 32]

/-- `templates/layout/records.gohtml:18-19`. -/
def lRow : Str :=
  [60, 116, 114, 62, 10, 32, 32, 32, 32, 32, 32, 32, 32, 32, 32, 32, 32, 60, 116, 100, 62]

/-- `templates/layout/records.gohtml:19-20`. -/
def lSeq : Str :=
  [60, 47, 116, 100, 62, 10, 32, 32, 32, 32, 32, 32, 32, 32, 32, 32, 32, 32, 60, 116, 100, 62]

/-- `templates/layout/records.gohtml:20-21`. -/
def lEvent : Str :=
  [60, 47, 116, 100, 62, 10, 32, 32, 32, 32, 32, 32, 32, 32, 32, 32, 32, 32, 60, 116, 100, 62]

/-- `templates/layout/records.gohtml:21-22`. -/
def lType : Str :=
  [60, 47, 116, 100, 62, 10, 32, 32, 32, 32, 32, 32, 32, 32, 32, 32, 32, 32, 60, 116, 100, 62, 60, 97, 32, 104,
   114, 101, 102, 61, 34, 47, 97, 47]

/-- `templates/layout/records.gohtml:22`. -/
def lTypeText : Str :=
  [34, 62]

/-- `templates/layout/records.gohtml:22-23`. -/
def lStream : Str :=
  [60, 47, 97, 62, 60, 47, 116, 100, 62, 10, 32, 32, 32, 32, 32, 32, 32, 32, 32, 32, 32, 32, 60, 116, 100, 62,
   60, 97, 32, 104, 114, 101, 102, 61, 34, 47, 115, 47]

/-- `templates/layout/records.gohtml:23`. -/
def lStreamText : Str :=
  [34, 62]

/-- `templates/layout/records.gohtml:23-24`. -/
def lDate : Str :=
  [60, 47, 97, 62, 60, 47, 116, 100, 62, 10, 32, 32, 32, 32, 32, 32, 32, 32, 32, 32, 32, 32, 60, 116, 100, 32,
   99, 108, 97, 115, 115, 61, 34, 100, 97, 116, 101, 34, 62]

/-- `templates/layout/records.gohtml:24-25`. -/
def lData : Str :=
  [60, 47, 116, 100, 62, 10, 32, 32, 32, 32, 32, 32, 32, 32, 32, 32, 32, 32, 60, 116, 100, 32, 99, 108, 97, 115,
   115, 61, 34, 101, 118, 101, 110, 116, 45, 100, 97, 116, 97, 34, 62]

/-- `templates/layout/records.gohtml:25-27`. -/
def lRowEnd : Str :=
  [60, 47, 116, 100, 62, 10, 32, 32, 32, 32, 32, 32, 32, 32, 60, 47, 116, 114, 62, 10, 32, 32, 32, 32]

/-- `templates/layout/records.gohtml:27-30`. -/
def lTableEnd : Str :=
  [10, 32, 32, 32, 32, 60, 47, 116, 98, 111, 100, 121, 62, 10, 60, 47, 116, 97, 98, 108, 101, 62, 10]

/-- `templates/layout/pagination.gohtml:3-6`. -/
def lNav : Str :=
  [10, 60, 110, 97, 118, 32, 97, 114, 105, 97, 45, 108, 97, 98, 101, 108, 61, 34, 80, 97, 103, 105, 110, 97,
   116, 105, 111, 110, 34, 62, 10, 32, 32, 32, 32, 60, 117, 108, 32, 99, 108, 97, 115, 115, 61, 34, 112, 97,
   103, 105, 110, 97, 116, 105, 111, 110, 32, 116, 101, 120, 116, 45, 99, 101, 110, 116, 101, 114, 34, 62, 10,
   32, 32, 32, 32, 32, 32, 32, 32]

/-- `templates/layout/pagination.gohtml:6-7`. -/
def lPrev : Str :=
  [10, 32, 32, 32, 32, 32, 32, 32, 32, 32, 32, 32, 32, 60, 108, 105, 32, 99, 108, 97, 115, 115, 61, 34, 112, 97,
   103, 105, 110, 97, 116, 105, 111, 110, 45, 112, 114, 101, 118, 105, 111, 117, 115, 34, 62, 60, 97, 32, 104,
   114, 101, 102, 61, 34]

/-- `templates/layout/pagination.gohtml:7-8`. -/
def lPrevEnd : Str :=
  [34, 32, 97, 114, 105, 97, 45, 108, 97, 98, 101, 108, 61, 34, 80, 114, 101, 118, 105, 111, 117, 115, 32, 80,
   97, 103, 101, 34, 62, 80, 114, 101, 118, 105, 111, 117, 115, 60, 47, 97, 62, 60, 47, 108, 105, 62, 10, 32,
   32, 32, 32, 32, 32, 32, 32]

/-- `templates/layout/pagination.gohtml:8-10`. -/
def lNoPrev : Str :=
  [10, 32, 32, 32, 32, 32, 32, 32, 32, 32, 32, 32, 32, 60, 108, 105, 32, 99, 108, 97, 115, 115, 61, 34, 112, 97,
   103, 105, 110, 97, 116, 105, 111, 110, 45, 112, 114, 101, 118, 105, 111, 117, 115, 32, 100, 105, 115, 97, 98,
   108, 101, 100, 34, 62, 80, 114, 101, 118, 105, 111, 117, 115, 60, 47, 108, 105, 62, 10, 32, 32, 32, 32, 32,
   32, 32, 32]

/-- `templates/layout/pagination.gohtml:10-11`. -/
def lBetween : Str :=
  [10, 32, 32, 32, 32, 32, 32, 32, 32]

/-- `templates/layout/pagination.gohtml:11-12`. -/
def lNext : Str :=
  [10, 32, 32, 32, 32, 32, 32, 32, 32, 32, 32, 32, 32, 60, 108, 105, 32, 99, 108, 97, 115, 115, 61, 34, 112, 97,
   103, 105, 110, 97, 116, 105, 111, 110, 45, 110, 101, 120, 116, 34, 62, 60, 97, 32, 104, 114, 101, 102, 61, 34]

/-- `templates/layout/pagination.gohtml:12-13`. -/
def lNextEnd : Str :=
  [34, 32, 97, 114, 105, 97, 45, 108, 97, 98, 101, 108, 61, 34, 78, 101, 120, 116, 32, 112, 97, 103, 101, 34,
   62, 78, 101, 120, 116, 60, 47, 97, 62, 60, 47, 108, 105, 62, 10, 32, 32, 32, 32, 32, 32, 32, 32]

/-- `templates/layout/pagination.gohtml:13-15`. -/
def lNoNext : Str :=
  [10, 32, 32, 32, 32, 32, 32, 32, 32, 32, 32, 32, 32, 60, 108, 105, 32, 99, 108, 97, 115, 115, 61, 34, 112, 97,
   103, 105, 110, 97, 116, 105, 111, 110, 45, 110, 101, 120, 116, 32, 100, 105, 115, 97, 98, 108, 101, 100, 34,
   62, 78, 101, 120, 116, 60, 47, 108, 105, 62, 10, 32, 32, 32, 32, 32, 32, 32, 32]

/-- `templates/layout/pagination.gohtml:15-18`. -/
def lNavEnd : Str :=
  [10, 32, 32, 32, 32, 60, 47, 117, 108, 62, 10, 60, 47, 110, 97, 118, 62, 10]

/-- `templates/stream.gohtml:6-13`. -/
def lsContent : Str :=
  [10, 32, 32, 32, 32, 60, 100, 105, 118, 32, 99, 108, 97, 115, 115, 61, 34, 103, 114, 105, 100, 45, 99, 111,
   110, 116, 97, 105, 110, 101, 114, 34, 62, 10, 32, 32, 32, 32, 32, 32, 32, 32, 60, 100, 105, 118, 32, 99, 108,
   97, 115, 115, 61, 34, 103, 114, 105, 100, 45, 120, 32, 103, 114, 105, 100, 45, 112, 97, 100, 100, 105, 110,
   103, 45, 120, 34, 62, 10, 32, 32, 32, 32, 32, 32, 32, 32, 32, 32, 32, 32, 60, 100, 105, 118, 32, 99, 108, 97,
   115, 115, 61, 34, 99, 101, 108, 108, 32, 109, 101, 100, 105, 117, 109, 45, 49, 50, 32, 109, 101, 100, 105,
   117, 109, 45, 111, 114, 100, 101, 114, 45, 49, 34, 62, 10, 32, 32, 32, 32, 32, 32, 32, 32, 32, 32, 32, 32,
   32, 32, 32, 32, 60, 110, 97, 118, 32, 97, 114, 105, 97, 45, 108, 97, 98, 101, 108, 61, 34, 89, 111, 117, 32,
   97, 114, 101, 32, 104, 101, 114, 101, 58, 34, 32, 114, 111, 108, 101, 61, 34, 110, 97, 118, 105, 103, 97,
   116, 105, 111, 110, 34, 62, 10, 32, 32, 32, 32, 32, 32, 32, 32, 32, 32, 32, 32, 32, 32, 32, 32, 32, 32, 32,
   32, 60, 117, 108, 32, 99, 108, 97, 115, 115, 61, 34, 98, 114, 101, 97, 100, 99, 114, 117, 109, 98, 115, 34,
   62, 10, 32, 32, 32, 32, 32, 32, 32, 32, 32, 32, 32, 32, 32, 32, 32, 32, 32, 32, 32, 32, 32, 32, 32, 32, 60,
   108, 105, 62, 10, 32, 32, 32, 32, 32, 32, 32, 32, 32, 32, 32, 32, 32, 32, 32, 32, 32, 32, 32, 32, 32, 32, 32,
   32, 32, 32, 32, 32]

/-- `templates/stream.gohtml:13`. -/
def lParen : Str :=
  [32, 40]

/-- `templates/stream.gohtml:13-17`. -/
def lsMid : Str :=
  [41, 10, 32, 32, 32, 32, 32, 32, 32, 32, 32, 32, 32, 32, 32, 32, 32, 32, 32, 32, 32, 32, 32, 32, 32, 32, 60,
   47, 108, 105, 62, 10, 32, 32, 32, 32, 32, 32, 32, 32, 32, 32, 32, 32, 32, 32, 32, 32, 32, 32, 32, 32, 60, 47,
   117, 108, 62, 10, 32, 32, 32, 32, 32, 32, 32, 32, 32, 32, 32, 32, 32, 32, 32, 32, 60, 47, 110, 97, 118, 62,
   10, 32, 32, 32, 32, 32, 32, 32, 32, 32, 32, 32, 32, 32, 32, 32, 32]

/-- `templates/stream.gohtml:17-18`. -/
def lsGap : Str :=
  [10, 32, 32, 32, 32, 32, 32, 32, 32, 32, 32, 32, 32, 32, 32, 32, 32]

/-- `templates/stream.gohtml:18-22`. -/
def lsEnd : Str :=
  [10, 32, 32, 32, 32, 32, 32, 32, 32, 32, 32, 32, 32, 60, 47, 100, 105, 118, 62, 10, 32, 32, 32, 32, 32, 32,
   32, 32, 60, 47, 100, 105, 118, 62, 10, 32, 32, 32, 32, 60, 47, 100, 105, 118, 62, 10]

/-- `templates/aggregate-type.gohtml:6-14`. -/
def ltContent : Str :=
  [10, 32, 32, 32, 32, 60, 100, 105, 118, 32, 99, 108, 97, 115, 115, 61, 34, 103, 114, 105, 100, 45, 99, 111,
   110, 116, 97, 105, 110, 101, 114, 34, 62, 10, 32, 32, 32, 32, 32, 32, 32, 32, 60, 100, 105, 118, 32, 99, 108,
   97, 115, 115, 61, 34, 103, 114, 105, 100, 45, 120, 32, 103, 114, 105, 100, 45, 112, 97, 100, 100, 105, 110,
   103, 45, 120, 34, 62, 10, 32, 32, 32, 32, 32, 32, 32, 32, 32, 32, 32, 32, 60, 100, 105, 118, 32, 99, 108, 97,
   115, 115, 61, 34, 99, 101, 108, 108, 32, 109, 101, 100, 105, 117, 109, 45, 49, 50, 32, 109, 101, 100, 105,
   117, 109, 45, 111, 114, 100, 101, 114, 45, 49, 34, 62, 10, 32, 32, 32, 32, 32, 32, 32, 32, 32, 32, 32, 32,
   32, 32, 32, 32, 60, 110, 97, 118, 32, 97, 114, 105, 97, 45, 108, 97, 98, 101, 108, 61, 34, 89, 111, 117, 32,
   97, 114, 101, 32, 104, 101, 114, 101, 58, 34, 32, 114, 111, 108, 101, 61, 34, 110, 97, 118, 105, 103, 97,
   116, 105, 111, 110, 34, 62, 10, 32, 32, 32, 32, 32, 32, 32, 32, 32, 32, 32, 32, 32, 32, 32, 32, 32, 32, 32,
   32, 60, 117, 108, 32, 99, 108, 97, 115, 115, 61, 34, 98, 114, 101, 97, 100, 99, 114, 117, 109, 98, 115, 34,
   62, 10, 32, 32, 32, 32, 32, 32, 32, 32, 32, 32, 32, 32, 32, 32, 32, 32, 32, 32, 32, 32, 32, 32, 32, 32, 60,
   108, 105, 62, 60, 97, 32, 104, 114, 101, 102, 61, 34, 47, 97, 103, 103, 114, 101, 103, 97, 116, 101, 45, 116,
   121, 112, 101, 115, 34, 62, 65, 103, 103, 114, 101, 103, 97, 116, 101, 60, 47, 97, 62, 60, 47, 108, 105, 62,
   10, 32, 32, 32, 32, 32, 32, 32, 32, 32, 32, 32, 32, 32, 32, 32, 32, 32, 32, 32, 32, 32, 32, 32, 32, 60, 108,
   105, 62, 10, 32, 32, 32, 32, 32, 32, 32, 32, 32, 32, 32, 32, 32, 32, 32, 32, 32, 32, 32, 32, 32, 32, 32, 32,
   32, 32, 32, 32]

/-- `templates/aggregate-type.gohtml:14-17`. -/
def ltMid : Str :=
  [41, 10, 32, 32, 32, 32, 32, 32, 32, 32, 32, 32, 32, 32, 32, 32, 32, 32, 32, 32, 32, 32, 32, 32, 32, 32, 60,
   47, 108, 105, 62, 10, 32, 32, 32, 32, 32, 32, 32, 32, 32, 32, 32, 32, 32, 32, 32, 32, 32, 32, 32, 32, 32, 32,
   32, 32, 60, 108, 105, 62, 10, 32, 32, 32, 32, 32, 32, 32, 32, 32, 32, 32, 32, 32, 32, 32, 32, 32, 32, 32, 32,
   32, 32, 32, 32, 32, 32, 32, 32, 60, 97, 32, 104, 114, 101, 102, 61, 34, 47, 97, 47]

/-- `templates/aggregate-type.gohtml:17-21`. -/
def ltLive : Str :=
  [47, 108, 105, 118, 101, 34, 62, 82, 101, 97, 108, 116, 105, 109, 101, 60, 47, 97, 62, 10, 32, 32, 32, 32, 32,
   32, 32, 32, 32, 32, 32, 32, 32, 32, 32, 32, 32, 32, 32, 32, 32, 32, 32, 32, 60, 47, 108, 105, 62, 10, 32, 32,
   32, 32, 32, 32, 32, 32, 32, 32, 32, 32, 32, 32, 32, 32, 32, 32, 32, 32, 60, 47, 117, 108, 62, 10, 32, 32, 32,
   32, 32, 32, 32, 32, 32, 32, 32, 32, 32, 32, 32, 32, 60, 47, 110, 97, 118, 62, 10, 32, 32, 32, 32, 32, 32, 32,
   32, 32, 32, 32, 32, 32, 32, 32, 32]

/-- `templates/aggregate-type.gohtml:21-22`. -/
def ltGap : Str :=
  [10, 32, 32, 32, 32, 32, 32, 32, 32, 32, 32, 32, 32, 32, 32, 32, 32]

/-- `templates/aggregate-type.gohtml:22-26`. -/
def ltEnd : Str :=
  [10, 32, 32, 32, 32, 32, 32, 32, 32, 32, 32, 32, 32, 60, 47, 100, 105, 118, 62, 10, 32, 32, 32, 32, 32, 32,
   32, 32, 60, 47, 100, 105, 118, 62, 10, 32, 32, 32, 32, 60, 47, 100, 105, 118, 62, 10]

/-- `templates/aggregate-types.gohtml:6-13`. -/
def laContent : Str :=
  [10, 32, 32, 32, 32, 60, 100, 105, 118, 32, 99, 108, 97, 115, 115, 61, 34, 103, 114, 105, 100, 45, 99, 111,
   110, 116, 97, 105, 110, 101, 114, 34, 62, 10, 32, 32, 32, 32, 32, 32, 32, 32, 60, 100, 105, 118, 32, 99, 108,
   97, 115, 115, 61, 34, 103, 114, 105, 100, 45, 120, 32, 103, 114, 105, 100, 45, 112, 97, 100, 100, 105, 110,
   103, 45, 120, 34, 62, 10, 32, 32, 32, 32, 32, 32, 32, 32, 32, 32, 32, 32, 60, 100, 105, 118, 32, 99, 108, 97,
   115, 115, 61, 34, 99, 101, 108, 108, 32, 109, 101, 100, 105, 117, 109, 45, 54, 32, 109, 101, 100, 105, 117,
   109, 45, 111, 114, 100, 101, 114, 45, 49, 34, 62, 10, 32, 32, 32, 32, 32, 32, 32, 32, 32, 32, 32, 32, 32, 32,
   32, 32, 60, 110, 97, 118, 32, 97, 114, 105, 97, 45, 108, 97, 98, 101, 108, 61, 34, 89, 111, 117, 32, 97, 114,
   101, 32, 104, 101, 114, 101, 58, 34, 32, 114, 111, 108, 101, 61, 34, 110, 97, 118, 105, 103, 97, 116, 105,
   111, 110, 34, 62, 10, 32, 32, 32, 32, 32, 32, 32, 32, 32, 32, 32, 32, 32, 32, 32, 32, 32, 32, 32, 32, 60,
   117, 108, 32, 99, 108, 97, 115, 115, 61, 34, 98, 114, 101, 97, 100, 99, 114, 117, 109, 98, 115, 34, 62, 10,
   32, 32, 32, 32, 32, 32, 32, 32, 32, 32, 32, 32, 32, 32, 32, 32, 32, 32, 32, 32, 32, 32, 32, 32, 60, 108, 105,
   62, 10, 32, 32, 32, 32, 32, 32, 32, 32, 32, 32, 32, 32, 32, 32, 32, 32, 32, 32, 32, 32, 32, 32, 32, 32, 32,
   32, 32, 32, 60, 97, 32, 104, 114, 101, 102, 61, 34, 47, 97, 103, 103, 114, 101, 103, 97, 116, 101, 45, 116,
   121, 112, 101, 115, 34, 62, 65, 103, 103, 114, 101, 103, 97, 116, 101, 60, 47, 97, 62, 32, 40]

/-- `templates/aggregate-types.gohtml:13-28`. -/
def laMid : Str :=
  [41, 10, 32, 32, 32, 32, 32, 32, 32, 32, 32, 32, 32, 32, 32, 32, 32, 32, 32, 32, 32, 32, 32, 32, 32, 32, 60,
   47, 108, 105, 62, 10, 32, 32, 32, 32, 32, 32, 32, 32, 32, 32, 32, 32, 32, 32, 32, 32, 32, 32, 32, 32, 32, 32,
   32, 32, 60, 108, 105, 62, 10, 32, 32, 32, 32, 32, 32, 32, 32, 32, 32, 32, 32, 32, 32, 32, 32, 32, 32, 32, 32,
   32, 32, 32, 32, 32, 32, 32, 32, 60, 97, 32, 104, 114, 101, 102, 61, 34, 47, 97, 103, 103, 114, 101, 103, 97,
   116, 101, 45, 116, 121, 112, 101, 115, 47, 108, 105, 118, 101, 34, 62, 82, 101, 97, 108, 116, 105, 109, 101,
   60, 47, 97, 62, 10, 32, 32, 32, 32, 32, 32, 32, 32, 32, 32, 32, 32, 32, 32, 32, 32, 32, 32, 32, 32, 32, 32,
   32, 32, 60, 47, 108, 105, 62, 10, 32, 32, 32, 32, 32, 32, 32, 32, 32, 32, 32, 32, 32, 32, 32, 32, 32, 32, 32,
   32, 60, 47, 117, 108, 62, 10, 32, 32, 32, 32, 32, 32, 32, 32, 32, 32, 32, 32, 32, 32, 32, 32, 60, 47, 110,
   97, 118, 62, 10, 32, 32, 32, 32, 32, 32, 32, 32, 32, 32, 32, 32, 32, 32, 32, 32, 60, 116, 97, 98, 108, 101,
   62, 10, 32, 32, 32, 32, 32, 32, 32, 32, 32, 32, 32, 32, 32, 32, 32, 32, 32, 32, 32, 32, 60, 116, 104, 101,
   97, 100, 62, 10, 32, 32, 32, 32, 32, 32, 32, 32, 32, 32, 32, 32, 32, 32, 32, 32, 32, 32, 32, 32, 60, 116,
   114, 62, 10, 32, 32, 32, 32, 32, 32, 32, 32, 32, 32, 32, 32, 32, 32, 32, 32, 32, 32, 32, 32, 32, 32, 32, 32,
   60, 116, 104, 62, 84, 121, 112, 101, 60, 47, 116, 104, 62, 10, 32, 32, 32, 32, 32, 32, 32, 32, 32, 32, 32,
   32, 32, 32, 32, 32, 32, 32, 32, 32, 32, 32, 32, 32, 60, 116, 104, 62, 84, 111, 116, 97, 108, 32, 69, 118,
   101, 110, 116, 115, 60, 47, 116, 104, 62, 10, 32, 32, 32, 32, 32, 32, 32, 32, 32, 32, 32, 32, 32, 32, 32, 32,
   32, 32, 32, 32, 60, 47, 116, 114, 62, 10, 32, 32, 32, 32, 32, 32, 32, 32, 32, 32, 32, 32, 32, 32, 32, 32, 32,
   32, 32, 32, 60, 47, 116, 104, 101, 97, 100, 62, 10, 32, 32, 32, 32, 32, 32, 32, 32, 32, 32, 32, 32, 32, 32,
   32, 32, 32, 32, 32, 32, 60, 116, 98, 111, 100, 121, 62, 10, 32, 32, 32, 32, 32, 32, 32, 32, 32, 32, 32, 32,
   32, 32, 32, 32, 32, 32, 32, 32]

/-- `templates/aggregate-types.gohtml:28-30`. -/
def laRow : Str :=
  [10, 32, 32, 32, 32, 32, 32, 32, 32, 32, 32, 32, 32, 32, 32, 32, 32, 32, 32, 32, 32, 60, 116, 114, 62, 10, 32,
   32, 32, 32, 32, 32, 32, 32, 32, 32, 32, 32, 32, 32, 32, 32, 32, 32, 32, 32, 32, 32, 32, 32, 60, 116, 100, 62,
   60, 97, 32, 104, 114, 101, 102, 61, 34, 47, 97, 47]

/-- `templates/aggregate-types.gohtml:30`. -/
def laText : Str :=
  [34, 62]

/-- `templates/aggregate-types.gohtml:30-31`. -/
def laTotal : Str :=
  [60, 47, 97, 62, 60, 47, 116, 100, 62, 10, 32, 32, 32, 32, 32, 32, 32, 32, 32, 32, 32, 32, 32, 32, 32, 32, 32,
   32, 32, 32, 32, 32, 32, 32, 60, 116, 100, 62]

/-- `templates/aggregate-types.gohtml:31-33`. -/
def laRowEnd : Str :=
  [60, 47, 116, 100, 62, 10, 32, 32, 32, 32, 32, 32, 32, 32, 32, 32, 32, 32, 32, 32, 32, 32, 32, 32, 32, 32, 60,
   47, 116, 114, 62, 10, 32, 32, 32, 32, 32, 32, 32, 32, 32, 32, 32, 32, 32, 32, 32, 32, 32, 32, 32, 32]

/-- `templates/aggregate-types.gohtml:33-41`. -/
def laEnd : Str :=
  [10, 32, 32, 32, 32, 32, 32, 32, 32, 32, 32, 32, 32, 32, 32, 32, 32, 32, 32, 32, 32, 60, 47, 116, 98, 111,
   100, 121, 62, 10, 32, 32, 32, 32, 32, 32, 32, 32, 32, 32, 32, 32, 32, 32, 32, 32, 60, 47, 116, 97, 98, 108,
   101, 62, 10, 32, 32, 32, 32, 32, 32, 32, 32, 32, 32, 32, 32, 32, 32, 32, 32, 60, 117, 108, 62, 10, 32, 32,
   32, 32, 32, 32, 32, 32, 32, 32, 32, 32, 32, 32, 32, 32, 60, 47, 117, 108, 62, 10, 32, 32, 32, 32, 32, 32, 32,
   32, 32, 32, 32, 32, 60, 47, 100, 105, 118, 62, 10, 32, 32, 32, 32, 32, 32, 32, 32, 60, 47, 100, 105, 118, 62,
   10, 32, 32, 32, 32, 60, 47, 100, 105, 118, 62, 10]

/-- The white space between the definitions in each of the three page files. -/
def tail : Str :=
  [10, 10, 10, 10]

/-- `rangedb.Version` (store.go:11). -/
def version : Str := [48, 46, 49, 51, 46, 48, 45, 100, 101, 118]

/-! ## The pages -/

/-- One record of the template "records" (records.gohtml:16-27). `formatJson` (functions.go:26-29) is a parameter: the
text may be any. -/
def row (json : Str → Str) (r : Record) : Str :=
  lRow ++ esc (Dec.natText r.gsn) ++ lSeq ++ esc (Dec.natText r.seq) ++ lEvent ++ esc r.evType ++
  lType ++ esc (urlNorm r.aggType) ++ lTypeText ++ esc r.aggType ++
  lStream ++ esc (urlNorm r.streamName) ++ lStreamText ++ esc r.streamName ++
  lDate ++ esc (Ui.formatDate r.ts) ++ lData ++ esc (json r.data) ++ lRowEnd

/-- The template "records" (records.gohtml). -/
def table (json : Str → Str) (rs : List Record) : Str := lTable ++ rs.flatMap (row json) ++ lTableEnd

/-- The template "pagination" (pagination.gohtml); an empty link is no link. -/
def pagination (l : Pg.Links) : Str :=
  lNav ++ (if l.previous = [] then lNoPrev else lPrev ++ esc (urlNorm (urlFilter l.previous)) ++ lPrevEnd) ++ lBetween ++
  (if l.next = [] then lNoNext else lNext ++ esc (urlNorm (urlFilter l.next)) ++ lNextEnd) ++ lNavEnd

/-- The template "base" (base.gohtml) with a title and a content, and the rest of the page file. -/
def page (title content : Str) : Str :=
  lHead ++ esc title ++ lTop ++ content ++ lFoot ++ esc version ++ lEnd ++ tail

/-- `stream.gohtml` with the values of `stream` (ui.go:244-251). `none`: `formatUint64` failed (C108: it does not). -/
def streamPage (json : Str → Str) (name : Str) (total : Nat) (rs : List Record) (links : Pg.Links) : Option Str :=
  (Ui.formatUint64 total).map fun n =>
    page name (lsContent ++ esc name ++ lParen ++ esc n ++ lsMid ++ table json rs ++ lsGap ++ pagination links ++ lsEnd)

/-- `aggregate-type.gohtml` with the values of `aggregateType` (ui.go:195-202). -/
def typePage (json : Str → Str) (name : Str) (total : Nat) (rs : List Record) (links : Pg.Links) : Option Str :=
  (Ui.formatUint64 total).map fun n =>
    page name (ltContent ++ esc name ++ lParen ++ esc n ++ ltMid ++ esc (urlNorm name) ++ ltLive ++ table json rs ++
      ltGap ++ pagination links ++ ltEnd)

/-- One line of `aggregate-types.gohtml` (lines 28-33). -/
def typeRow (t : Str × Nat) : Option Str :=
  (Ui.formatUint64 t.2).map fun n =>
    laRow ++ esc (urlNorm t.1) ++ laText ++ esc t.1 ++ laTotal ++ esc n ++ laRowEnd

/-- The title of `aggregate-types.gohtml`: "Aggregate Types". -/
def typesTitle : Str := [65, 103, 103, 114, 101, 103, 97, 116, 101, 32, 84, 121, 112, 101, 115]

/-- `aggregate-types.gohtml` with the values of `aggregateTypes` (ui.go:134-137). -/
def typesPage (types : List (Str × Nat)) (total : Nat) : Option Str :=
  match Ui.formatUint64 total, types.mapM typeRow with
  | some n, some rows => some (page typesTitle (laContent ++ esc n ++ laMid ++ rows.flatten ++ laEnd))
  | _, _ => none

end RangeDB.Html

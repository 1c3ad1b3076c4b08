import Verif.Model.Decimal

/-!
# Model: JSON text as Go's `encoding/json` writes and reads it

`json.Marshal` (with its HTML escaping), and `json.Decoder` with `UseNumber`, which the record serializer,
the record I/O streams, the HTTP API and the gRPC server use. Modelled from the documented behaviour of Go
1.16's `encoding/json` (`encodeState.string`, `scanner`, `unquoteBytes`); the library itself is not in
/repo. Simplification: the limit of 10000 nested values is not modelled. A parsed object keeps its fields in the
order of the text; `Json.any` is what remains of them in a Go map.

Texts are byte lists. Numbers are kept as their literal text, as `json.Number` does.
-/

namespace RangeDB.Json

/-! ## UTF-8 -/

/-- Is `b` between `lo` and `hi`? -/
def btw (lo hi b : Nat) : Bool := lo ≤ b && b ≤ hi

/-- `utf8.DecodeRune`: the length of the encoded rune that the string starts with (first byte `b`, which is
at least 0x80); `some 0` if it is invalid, `none` if the string ends within it. -/
def runeLen (b : Nat) (t : Str) : Option Nat :=
  if btw 0xC2 0xDF b then
    match t with
    | [] => none
    | b1 :: _ => if btw 0x80 0xBF b1 then some 2 else some 0
  else if btw 0xE0 0xEF b then
    match t with
    | [] => none
    | b1 :: t1 =>
      if btw (if b = 0xE0 then 0xA0 else 0x80) (if b = 0xED then 0x9F else 0xBF) b1 then
        match t1 with
        | [] => none
        | b2 :: _ => if btw 0x80 0xBF b2 then some 3 else some 0
      else some 0
  else if btw 0xF0 0xF4 b then
    match t with
    | [] => none
    | b1 :: t1 =>
      if btw (if b = 0xF0 then 0x90 else 0x80) (if b = 0xF4 then 0x8F else 0xBF) b1 then
        match t1 with
        | [] => none
        | b2 :: t2 =>
          if btw 0x80 0xBF b2 then
            match t2 with
            | [] => none
            | b3 :: _ => if btw 0x80 0xBF b3 then some 4 else some 0
          else some 0
      else some 0
  else some 0

/-- The UTF-8 encoding of U+FFFD, which replaces invalid bytes. -/
def replacement : Str := [0xEF, 0xBF, 0xBD]

/-- `strings.ToValidUTF8` byte by byte: every invalid byte becomes U+FFFD. `k` bytes of a valid rune are
still to be copied. -/
def sanitize : (k : Nat) → Str → Str
  | _, [] => []
  | k + 1, b :: t => b :: sanitize k t
  | 0, b :: t =>
    if b < 0x80 then b :: sanitize 0 t
    else
      match runeLen b t with
      | some (n + 1) => b :: sanitize n t
      | _ => replacement ++ sanitize 0 t

/-- `utf8.Valid`. -/
def Valid (s : Str) : Prop := sanitize 0 s = s

instance (s : Str) : Decidable (Valid s) := inferInstanceAs (Decidable (_ = _))

/-- `utf8.EncodeRune`. -/
def runeBytes (u : Nat) : Str :=
  if u < 0x80 then [u]
  else if u < 0x800 then [0xC0 + u / 64, 0x80 + u % 64]
  else if u < 0x10000 then [0xE0 + u / 4096, 0x80 + u / 64 % 64, 0x80 + u % 64]
  else [0xF0 + u / 262144, 0x80 + u / 4096 % 64, 0x80 + u / 64 % 64, 0x80 + u % 64]

/-! ## Strings -/

/-- A lower-case hexadecimal digit. -/
def hexDigit (n : Nat) : Nat := if n < 10 then 48 + n else 87 + n

/-- The value of a hexadecimal digit. -/
def hexVal (c : Nat) : Option Nat :=
  if btw 48 57 c then some (c - 48) else if btw 97 102 c then some (c - 87)
  else if btw 65 70 c then some (c - 55) else none

/-- How `encodeState.string` writes an ASCII byte: `"` and `\` with a backslash, newline, return and tab by
letter, other control bytes and `<`, `>`, `&` as `\u00xx`. -/
def escByte (b : Nat) : Str :=
  if b = 34 ∨ b = 92 then [92, b]
  else if b = 10 then [92, 110]
  else if b = 13 then [92, 114]
  else if b = 9 then [92, 116]
  else if b < 32 ∨ b = 60 ∨ b = 62 ∨ b = 38 then [92, 117, 48, 48, hexDigit (b / 16), hexDigit (b % 16)]
  else [b]

/-- Is the next rune U+2028 or U+2029? -/
def isSep (b : Nat) (t : Str) : Bool :=
  match t with
  | b1 :: b2 :: _ => b = 0xE2 && b1 = 0x80 && (b2 = 0xA8 || b2 = 0xA9)
  | _ => false

/-- The last byte of U+2028 or U+2029, which tells them apart. -/
def sepLast (t : Str) : Nat := (t.drop 1).headD 0

/-- What is to be done with the next bytes of a string that is being written: copy or skip `k` of them. -/
def encS : (copy : Bool) → (k : Nat) → Str → Str
  | _, _, [] => []
  | copy, k + 1, b :: t => if copy then b :: encS copy k t else encS copy k t
  | _, 0, b :: t =>
    if b < 0x80 then escByte b ++ encS true 0 t
    else if isSep b t then [92, 117, 50, 48, 50, hexDigit (sepLast t % 16)] ++ encS false 2 t
    else
      match runeLen b t with
      | some (n + 1) => b :: encS true n t
      | _ => [92, 117, 102, 102, 102, 100] ++ encS true 0 t

/-- `encodeState.string`: a quoted string. -/
def quote (s : Str) : Str := 34 :: (encS true 0 s ++ [34])

/-- Four hexadecimal digits. -/
def hex4 (t : Str) : Option (Nat × Str) :=
  match t with
  | a :: b :: c :: d :: r =>
    match hexVal a, hexVal b, hexVal c, hexVal d with
    | some a, some b, some c, some d => some (a * 4096 + b * 256 + c * 16 + d, r)
    | _, _, _, _ => none
  | _ => none

/-- One unit of a string literal after the opening quote: `none` is a syntax error (also: the text ends),
`some (none, r)` the closing quote, `some (some bytes, r)` the bytes that the unit stands for. -/
def strStep (s : Str) : Option (Option Str × Str) :=
  match s with
  | [] => none
  | c :: t =>
    if c = 34 then some (none, t)
    else if c = 92 then
      match t with
      | [] => none
      | e :: r =>
        if e = 34 ∨ e = 92 ∨ e = 47 then some (some [e], r)
        else if e = 98 then some (some [8], r)
        else if e = 102 then some (some [12], r)
        else if e = 110 then some (some [10], r)
        else if e = 114 then some (some [13], r)
        else if e = 116 then some (some [9], r)
        else if e = 117 then
          match hex4 r with
          | none => none
          | some (u, r1) =>
            if btw 0xD800 0xDFFF u then
              -- a surrogate: it must be followed by its other half
              match r1 with
              | [] => none
              | c1 :: r2 =>
                if c1 = 92 then
                  match r2 with
                  | [] => none
                  | c2 :: r3 =>
                    if c2 = 117 then
                      match hex4 r3 with
                      | none => none
                      | some (v, r4) =>
                        if u < 0xDC00 ∧ btw 0xDC00 0xDFFF v then
                          some (some (runeBytes (0x10000 + (u - 0xD800) * 1024 + (v - 0xDC00))), r4)
                        else some (some replacement, r1)
                    else some (some replacement, r1)
                else some (some replacement, r1)
            else some (some (runeBytes u), r1)
        else none
    else if c < 32 then none
    else if c < 0x80 then some (some [c], t)
    else
      match runeLen c t with
      | none => none
      | some 0 => some (some replacement, t)
      | some (n + 1) => some (some (c :: t.take n), t.drop n)

/-- A string literal after the opening quote. -/
def strLoop : Nat → Str → Option (Str × Str)
  | 0, _ => none
  | fuel + 1, s =>
    match strStep s with
    | none => none
    | some (none, r) => some ([], r)
    | some (some bs, r) =>
      match strLoop fuel r with
      | none => none
      | some (s', r') => some (bs ++ s', r')

/-- Reading a string literal after the opening quote. -/
def parseStr (s : Str) : Option (Str × Str) := strLoop (s.length + 1) s

/-! ## Numbers -/

/-- The digits at the front. -/
def digits (s : Str) : Str := s.takeWhile Dec.isDigit

/-- What follows them. -/
def afterDigits (s : Str) : Str := s.dropWhile Dec.isDigit

/-- `-?` -/
def scanSign (s : Str) : Str × Str :=
  match s with
  | [] => ([], [])
  | c :: r => if c = 45 then ([45], r) else ([], c :: r)

/-- `0|[1-9][0-9]*` -/
def scanInt (s : Str) : Option (Str × Str) :=
  match s with
  | [] => none
  | c :: r =>
    if c = 48 then some ([48], r)
    else if Dec.isDigit c then some (c :: digits r, afterDigits r)
    else none

/-- `(\.[0-9]+)?` -/
def scanFrac (s : Str) : Option (Str × Str) :=
  match s with
  | [] => some ([], [])
  | c :: r =>
    if c = 46 then
      if digits r = [] then none else some (46 :: digits r, afterDigits r)
    else some ([], c :: r)

/-- The sign of an exponent. -/
def scanExpSign (s : Str) : Str × Str :=
  match s with
  | [] => ([], [])
  | c :: r => if c = 43 ∨ c = 45 then ([c], r) else ([], c :: r)

/-- `([eE][+-]?[0-9]+)?` -/
def scanExp (s : Str) : Option (Str × Str) :=
  match s with
  | [] => some ([], [])
  | c :: r =>
    if c = 101 ∨ c = 69 then
      let p := scanExpSign r
      if digits p.2 = [] then none else some (c :: (p.1 ++ digits p.2), afterDigits p.2)
    else some ([], c :: r)

/-- A number literal. -/
def scanNum (s : Str) : Option (Str × Str) :=
  let p := scanSign s
  match scanInt p.2 with
  | none => none
  | some (i, r1) =>
    match scanFrac r1 with
    | none => none
    | some (f, r2) =>
      match scanExp r2 with
      | none => none
      | some (e, r3) => some (p.1 ++ (i ++ (f ++ e)), r3)

/-! ## Values -/

/-- A JSON value. -/
inductive Json where
  | null
  | bool (b : Bool)
  | num (text : Str)
  | str (s : Str)
  | arr (l : List Json)
  | obj (l : List (Str × Json))

def nullText : Str := [110, 117, 108, 108]
def trueText : Str := [116, 114, 117, 101]
def falseText : Str := [102, 97, 108, 115, 101]

mutual
/-- `json.Marshal`: the compact text. -/
def Json.text : Json → Str
  | .null => nullText
  | .bool true => trueText
  | .bool false => falseText
  | .num t => t
  | .str s => quote s
  | .arr [] => [91, 93]
  | .arr (v :: vs) => 91 :: (v.text ++ elems vs)
  | .obj [] => [123, 125]
  | .obj (f :: fs) => 123 :: (quote f.1 ++ 58 :: (f.2.text ++ fields fs))
/-- The elements after the first, and the closing bracket. -/
def elems : List Json → Str
  | [] => [93]
  | v :: vs => 44 :: (v.text ++ elems vs)
/-- The fields after the first, and the closing brace. -/
def fields : List (Str × Json) → Str
  | [] => [125]
  | f :: fs => 44 :: (quote f.1 ++ 58 :: (f.2.text ++ fields fs))
end

/-! ## Values as Go holds them in an `interface{}` -/

/-- Go's order of strings: byte by byte. -/
def strLt : Str → Str → Bool
  | _, [] => false
  | [], _ :: _ => true
  | a :: as, b :: bs => a < b || (a = b && strLt as bs)

/-- `m[k] = v` on a map, kept as the list of its entries in the order of the keys. -/
def putField (k : Str) (v : Json) : List (Str × Json) → List (Str × Json)
  | [] => [(k, v)]
  | f :: fs => if k = f.1 then (k, v) :: fs else if strLt k f.1 then (k, v) :: f :: fs else f :: putField k v fs

mutual
/-- The value as it is after it was decoded into an `interface{}`, as `json.Marshal` will print it: objects become
maps, so that of several fields with one name the last remains, and they are printed in the order of the names
(`objectInterface`, `mapEncoder`); a number literal `t` becomes one that is printed as `num t`. -/
def Json.any (num : Str → Str) : Json → Json
  | .null => .null
  | .bool b => .bool b
  | .num t => .num (num t)
  | .str s => .str s
  | .arr l => .arr (anys num l)
  | .obj l => .obj (anyf num l [])
def anys (num : Str → Str) : List Json → List Json
  | [] => []
  | v :: vs => v.any num :: anys num vs
def anyf (num : Str → Str) : List (Str × Json) → List (Str × Json) → List (Str × Json)
  | [], acc => acc
  | f :: fs, acc => anyf num fs (putField f.1 (f.2.any num) acc)
end

/-- The value after decoding with `UseNumber`, which keeps the literals of numbers. -/
def Json.canon (v : Json) : Json := v.any id

/-- Space between tokens. -/
def isSpace (c : Nat) : Bool := c = 32 || c = 9 || c = 10 || c = 13

/-- Skip space. -/
def skipWs (s : Str) : Str := s.dropWhile isSpace

/-- Does the text start with the word? Then what follows. -/
def word : (w s : Str) → Option Str
  | [], s => some s
  | _ :: _, [] => none
  | a :: w, c :: s => if a = c then word w s else none

/-- What a closing or separating byte after an element means. -/
def sepOf (close : Nat) (s : Str) : Option (Bool × Str) :=
  match skipWs s with
  | [] => none
  | c :: r => if c = close then some (true, r) else if c = 44 then some (false, r) else none

mutual
/-- `Decoder.Decode` into an `interface{}`: the next value and what follows it; `none` is a syntax error.
The first argument is fuel. -/
def parseV : Nat → Str → Option (Json × Str)
  | 0, _ => none
  | fuel + 1, s =>
    match skipWs s with
    | [] => none
    | c :: r =>
      if c = 110 then (word [117, 108, 108] r).map (fun r => (.null, r))
      else if c = 116 then (word [114, 117, 101] r).map (fun r => (.bool true, r))
      else if c = 102 then (word [97, 108, 115, 101] r).map (fun r => (.bool false, r))
      else if c = 34 then (parseStr r).map (fun p => (.str p.1, p.2))
      else if c = 91 then
        match skipWs r with
        | [] => none
        | d :: r' => if d = 93 then some (.arr [], r') else (parseElems fuel (d :: r')).map (fun p => (.arr p.1, p.2))
      else if c = 123 then
        match skipWs r with
        | [] => none
        | d :: r' => if d = 125 then some (.obj [], r') else (parseFields fuel (d :: r')).map (fun p => (.obj p.1, p.2))
      else (scanNum (c :: r)).map (fun p => (.num p.1, p.2))
/-- The elements of an array up to the closing bracket. -/
def parseElems : Nat → Str → Option (List Json × Str)
  | 0, _ => none
  | fuel + 1, s =>
    match parseV fuel s with
    | none => none
    | some (v, r) =>
      match sepOf 93 r with
      | none => none
      | some (true, r') => some ([v], r')
      | some (false, r') => (parseElems fuel r').map (fun p => (v :: p.1, p.2))
/-- The fields of an object up to the closing brace. -/
def parseFields : Nat → Str → Option (List (Str × Json) × Str)
  | 0, _ => none
  | fuel + 1, s =>
    match skipWs s with
    | [] => none
    | c :: r =>
      if c = 34 then
        match parseStr r with
        | none => none
        | some (k, r1) =>
          match skipWs r1 with
          | [] => none
          | d :: r2 =>
            if d = 58 then
              match parseV fuel r2 with
              | none => none
              | some (v, r3) =>
                match sepOf 125 r3 with
                | none => none
                | some (true, r4) => some ([(k, v)], r4)
                | some (false, r4) => (parseFields fuel r4).map (fun p => ((k, v) :: p.1, p.2))
            else none
      else none
end

/-- `Decoder.Decode`. -/
def parse (s : Str) : Option (Json × Str) := parseV (2 * s.length + 2) s

end RangeDB.Json

import Verif.Model.Decimal

/-!
# Model: byte-string helpers of Go's standard library, and the code that parses names and errors

`strings.Split`, `strings.Cut`/`strings.Index`, and the part of `fmt.Sscanf` that
`pkg/rangedberror` uses; all modelled from the library's source. White space is ASCII white space
(Go also skips the Unicode spaces, which no number contains).
-/

namespace RangeDB.Txt

/-- `strings.Cut(s, sep)`: the text before and after the first occurrence of `sep`. -/
def cut (sep : Str) : Str → Option (Str × Str)
  | [] => if sep = [] then some ([], []) else none
  | c :: cs =>
    if sep.isPrefixOf (c :: cs) then some ([], (c :: cs).drop sep.length)
    else (cut sep cs).map (fun p => (c :: p.1, p.2))

/-- `strings.Split(s, sep)` for a non-empty `sep`; the fuel bounds the number of pieces. -/
def splitFuel (sep : Str) : Nat → Str → List Str
  | 0, s => [s]
  | fuel + 1, s =>
    match cut sep s with
    | none => [s]
    | some (a, b) => a :: splitFuel sep fuel b

/-- `strings.Split(s, sep)`: there are at most `len(s) + 1` pieces. -/
def split (sep s : Str) : List Str := splitFuel sep (s.length + 1) s

/-- `strings.Join(xs, sep)`. -/
def join (sep : Str) : List Str → Str
  | [] => []
  | [x] => x
  | x :: xs => x ++ sep ++ join sep xs

/-- `ParseStream` (store.go:134-137): `pieces[1]` panics when there is no second piece. -/
def parseStream (name : Str) : Outcome (Str × Str) :=
  match split [33] name with
  | a :: b :: _ => .ok (a, b)
  | _ => .panic

/-! ## `fmt.Sscanf(piece, "%d, actual: %d", &expected, &actual)` (rangedberror/errors.go:22) -/

/-- White space other than a newline. -/
def isBlank (c : Nat) : Bool := c = 32 || c = 9 || c = 11 || c = 12 || c = 13

/-- `ss.SkipSpace` under `Sscanf`: blanks are skipped; a newline is an error. -/
def skipSpace : Str → Option Str
  | [] => some []
  | c :: cs => if c = 10 then none else if isBlank c then skipSpace cs else some (c :: cs)

/-- `%d` into a `uint64` (`ss.scanUint`): skip space, read digits, at least one, at most 64 bits. -/
def scanUint (s : Str) : Option (Nat × Str) := do
  let s ← skipSpace s
  let n ← Dec.parseUint (s.takeWhile Dec.isDigit)
  some (n, s.dropWhile Dec.isDigit)

/-- A literal byte of the format must be next in the input (`ss.advance`). -/
def lit (c : Nat) : Str → Option Str
  | [] => none
  | x :: xs => if x = c then some xs else none

/-- The literal bytes of the format, one after the other. -/
def lits : Str → Str → Option Str
  | [], s => some s
  | c :: cs, s => (lit c s).bind (lits cs)

/-- A space of the format matches one or more blanks, or the end of the input; a newline or any other
byte is an error (`ss.advance`). -/
def fmtSpace : Str → Option Str
  | [] => some []
  | c :: cs => if isBlank c then some (cs.dropWhile isBlank) else none

/-- "actual:" -/
def actualText : Str := [97, 99, 116, 117, 97, 108, 58]

/-- `fmt.Sscanf(s, "%d, actual: %d", &expected, &actual)`; what follows the second number is ignored. -/
def sscanfNumbers (s : Str) : Option (Nat × Nat) := do
  let (e, s) ← scanUint s
  let s ← lits [44] s
  let s ← fmtSpace s
  let s ← lits actualText s
  let s ← fmtSpace s
  let (a, _) ← scanUint s
  some (e, a)

/-- "unexpected sequence number:" -/
def marker : Str :=
  [117, 110, 101, 120, 112, 101, 99, 116, 101, 100, 32, 115, 101, 113, 117, 101, 110, 99, 101, 32,
   110, 117, 109, 98, 101, 114, 58]

/-- `UnexpectedSequenceNumber.Error` (rangedberror/errors.go:33-38):
`"unexpected sequence number: %d, actual: %d"`. -/
def unexpectedText (expected actual : Nat) : Str :=
  marker ++ [32] ++ Dec.natText expected ++ [44, 32] ++ actualText ++ [32] ++ Dec.natText actual

/-- `NewUnexpectedSequenceNumberFromString` (rangedberror/errors.go:15-31): the numbers of the error it
returns, zero when the input cannot be parsed. -/
def parseUnexpected (input : Str) : Nat × Nat :=
  match split marker input with
  | _ :: p :: _ => (sscanfNumbers p).getD (0, 0)
  | _ => (0, 0)

end RangeDB.Txt

import Verif.Base.Types

/-!
# Model: decimal numbers in text

Go's `strconv.Itoa`, `strconv.Atoi`, `fmt.Sprintf("%d")` and `strconv.ParseUint(_, 10, 64)`, which
several parts of the code use. These are functions of Go's standard library, modelled from its
documentation.
-/

namespace RangeDB.Dec

/-- The digits of `n`, least significant first, with fuel (`n + 1` is always enough). -/
def digitsRev : Nat → Nat → Str
  | 0, _ => []
  | fuel + 1, n => if n < 10 then [48 + n] else (48 + n % 10) :: digitsRev fuel (n / 10)

/-- `%d` of an unsigned number. -/
def natText (n : Nat) : Str := (digitsRev (n + 1) n).reverse

/-- `strconv.Itoa`. -/
def itoa : Int → Str
  | .ofNat n => natText n
  | .negSucc n => 45 :: natText (n + 1)

/-- Is the byte a decimal digit? -/
def isDigit (c : Nat) : Bool := 48 ≤ c && c ≤ 57

/-- The value of a digit string. -/
def digitsVal (s : Str) : Nat := s.foldl (fun a c => a * 10 + (c - 48)) 0

/-- `strconv.ParseUint(s, 10, 64)`: digits only, at least one, at most `2^64 - 1`. -/
def parseUint (s : Str) : Option Nat :=
  if s ≠ [] ∧ s.all isDigit ∧ digitsVal s < 2 ^ 64 then some (digitsVal s) else none

/-- `strconv.Atoi` with a 64-bit `int`: an optional sign, then digits. -/
def atoi (s : Str) : Option Int :=
  match s with
  | 45 :: ds =>
    if ds ≠ [] ∧ ds.all isDigit ∧ digitsVal ds ≤ 2 ^ 63 then some (-(digitsVal ds : Int)) else none
  | 43 :: ds =>
    if ds ≠ [] ∧ ds.all isDigit ∧ digitsVal ds < 2 ^ 63 then some (digitsVal ds : Int) else none
  | ds =>
    if ds ≠ [] ∧ ds.all isDigit ∧ digitsVal ds < 2 ^ 63 then some (digitsVal ds : Int) else none

end RangeDB.Dec

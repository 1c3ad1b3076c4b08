import Verif.Base.Types
import Verif.Model.Decimal

/-! # Specification: the calendar and numbers as people write them -/

namespace RangeDB.Ui

/-- A day. -/
structure Date where
  year : Nat
  month : Nat
  day : Nat
deriving DecidableEq, Repr

/-- Every fourth year is a leap year, but of the centuries only every fourth. -/
def Leap (y : Nat) : Prop := y % 4 = 0 ∧ (y % 100 ≠ 0 ∨ y % 400 = 0)

instance (y : Nat) : Decidable (Leap y) := by unfold Leap; infer_instance

/-- Thirty days has September … -/
def monthLength (y m : Nat) : Nat :=
  if m = 2 then (if Leap y then 29 else 28) else if m = 4 ∨ m = 6 ∨ m = 9 ∨ m = 11 then 30 else 31

/-- The next day. -/
def Date.tomorrow (d : Date) : Date :=
  if d.day < monthLength d.year d.month then { d with day := d.day + 1 }
  else if d.month < 12 then ⟨d.year, d.month + 1, 1⟩
  else ⟨d.year + 1, 1, 1⟩

/-- The day `n` days after the first of January 1970. -/
def dayAfter : Nat → Date
  | 0 => ⟨1970, 1, 1⟩
  | n + 1 => (dayAfter n).tomorrow

/-- The name of a month. -/
def monthName : Nat → Str
  | 1 => [74, 97, 110] | 2 => [70, 101, 98] | 3 => [77, 97, 114] | 4 => [65, 112, 114] | 5 => [77, 97, 121]
  | 6 => [74, 117, 110] | 7 => [74, 117, 108] | 8 => [65, 117, 103] | 9 => [83, 101, 112] | 10 => [79, 99, 116]
  | 11 => [78, 111, 118] | _ => [68, 101, 99]

/-- Two decimal digits. -/
def twoDigits (n : Nat) : Str := [48 + n / 10, 48 + n % 10]

/-- `Jan 02, 2006 15:04:05 UTC`. -/
def written (d : Date) (hour minute second : Nat) : Str :=
  monthName d.month ++ [32] ++ twoDigits d.day ++ [44, 32] ++ Dec.natText d.year ++ [32] ++ twoDigits hour ++ [58] ++
    twoDigits minute ++ [58] ++ twoDigits second ++ [32, 85, 84, 67]

/-- A number with a comma before each group of three digits, counted from the right, and nowhere else. -/
def Grouped (t : Str) : Prop := ∀ i c, t.reverse[i]? = some c → (c = 44 ↔ i % 4 = 3)

end RangeDB.Ui

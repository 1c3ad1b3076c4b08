import Verif.Base.Types
import Verif.Model.Decimal

/-!
# Model: numbers and dates on the pages of the web UI

`pkg/rangedbui/functions.go` and what it uses: `Comma` of `github.com/dustin/go-humanize` and `time.Time.Format` of Go,
both as their sources are known; they are not on this machine.
-/

namespace RangeDB.Ui

/-! ## Numbers -/

/-- Three digits (comma.go: `case 2`, `case 1`). -/
def pad3 (n : Nat) : Str :=
  if n < 10 then [48, 48] ++ Dec.natText n else if n < 100 then [48] ++ Dec.natText n else Dec.natText n

/-- The loop of `Comma`. `slots` is the number of parts that are left; `none`: index out of range, a panic. -/
def parts : (slots : Nat) → Nat → Option (List Str)
  | 0, _ => none
  | slots + 1, v =>
    if 999 < v then (parts slots (v / 1000)).map fun ps => ps ++ [pad3 (v % 1000)] else some [Dec.natText v]

/-- `strings.Join(…, ",")`. -/
def join : List Str → Str
  | [] => []
  | [p] => p
  | p :: ps => p ++ 44 :: join ps

/-- `Comma` of a number that is not negative. -/
def comma (v : Nat) : Option Str := (parts 7 v).map join

/-- `-9,223,372,036,854,775,808`. -/
def tMin : Str :=
  [45, 57, 44, 50, 50, 51, 44, 51, 55, 50, 44, 48, 51, 54, 44, 56, 53, 52, 44, 55, 55, 53, 44, 56, 48, 56]

/-- `formatUint64` (functions.go:32-34): the number is converted to a signed one. -/
def formatUint64 (v : Nat) : Option Str :=
  if v < 2 ^ 63 then comma v
  else if v = 2 ^ 63 then some tMin
  else (comma (2 ^ 64 - v)).map fun t => 45 :: t

/-! ## Dates -/

/-- A leap year. -/
def isLeap (y : Int) : Bool := y % 4 = 0 && (y % 100 ≠ 0 || y % 400 = 0)

/-- Year, counted from the first one Go can represent, and day of the year, of a day counted from its first day
(`absDate` of Go's time package). -/
def yearDay (d : Nat) : Nat × Nat :=
  let n400 := d / 146097
  let d := d - 146097 * n400
  let n100 := d / 36524 - d / 36524 / 4
  let d := d - 36524 * n100
  let n4 := d / 1461
  let d := d - 1461 * n4
  let n1 := d / 365 - d / 365 / 4
  let d := d - 365 * n1
  (400 * n400 + 100 * n100 + 4 * n4 + n1, d)

/-- Days before each month of a common year. -/
def daysBefore : List Nat := [0, 31, 59, 90, 120, 151, 181, 212, 243, 273, 304, 334, 365]

/-- Month and day of the month of a day of the year. -/
def monthDay (leap : Bool) (yday : Nat) : Nat × Nat :=
  if leap && yday = 59 then (2, 29)
  else
    let day := if leap && 59 < yday then yday - 1 else yday
    let month := day / 31
    let stop := daysBefore.getD (month + 1) 0
    if stop ≤ day then (month + 2, day - stop + 1) else (month + 1, day - daysBefore.getD month 0 + 1)

/-- Seconds between the first year Go can represent and 1970. -/
def unixToAbsolute : Nat := 9223372028715321600

/-- Seconds since the first year Go can represent, modulo 2^64 (`time.Unix(int64(timestamp), 0)`). -/
def absolute (ts : Nat) : Nat := (ts + unixToAbsolute) % 2 ^ 64

/-- Two digits. -/
def pad2 (n : Nat) : Str := if n < 10 then 48 :: Dec.natText n else Dec.natText n

/-- At least four digits. -/
def year4 (y : Nat) : Str :=
  if y < 10 then [48, 48, 48] ++ Dec.natText y
  else if y < 100 then [48, 48] ++ Dec.natText y
  else if y < 1000 then 48 :: Dec.natText y
  else Dec.natText y

/-- A year, with its sign. -/
def yearText (y : Int) : Str := if y < 0 then 45 :: year4 y.natAbs else year4 y.natAbs

/-- `Jan` … `Dec`. -/
def monthNames : List Str :=
  [[74, 97, 110], [70, 101, 98], [77, 97, 114], [65, 112, 114], [77, 97, 121], [74, 117, 110], [74, 117, 108],
   [65, 117, 103], [83, 101, 112], [79, 99, 116], [78, 111, 118], [68, 101, 99]]

/-- `formatDate` (functions.go:23-25) with the layout of records.gohtml:24, `Jan 02, 2006 15:04:05 UTC`. -/
def formatDate (ts : Nat) : Str :=
  let abs := absolute ts
  let yd := yearDay (abs / 86400)
  let year : Int := yd.1 - 292277022399
  let md := monthDay (isLeap year) yd.2
  let sec := abs % 86400
  monthNames.getD (md.1 - 1) [] ++ [32] ++ pad2 md.2 ++ [44, 32] ++ yearText year ++ [32] ++ pad2 (sec / 3600) ++ [58] ++
    pad2 (sec % 3600 / 60) ++ [58] ++ pad2 (sec % 60) ++ [32, 85, 84, 67]

end RangeDB.Ui

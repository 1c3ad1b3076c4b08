import Verif.Proof.Display
import Verif.Thm.Constants

/-!
# C108: numbers and dates on the pages of the web UI
-/

namespace RangeDB.Ui

/-- The claim for numbers: every count is shown as its decimal digits, in groups of three. -/
def C108_full : Prop :=
  ∀ v, v < 2 ^ 64 → ∃ t, formatUint64 v = some t ∧ t.filter (· ≠ 44) = Dec.natText v ∧ Grouped t

/-- It is false: the largest count is shown as `-1`. -/
theorem C108_false : ¬ C108_full := by
  intro h
  obtain ⟨t, h1, h2, _⟩ := h (2 ^ 64 - 1) (by decide)
  have h3 : formatUint64 (2 ^ 64 - 1) = some [45, 49] := by decide +kernel
  rw [h3] at h1
  simp only [Option.some.injEq] at h1
  subst h1
  revert h2
  decide +kernel

/-- Below 2^63 it holds: the text without its commas is the number in decimal, and there is a comma before each group
of three digits from the right and nowhere else. -/
theorem C108_partial (v : Nat) (h : v < 2 ^ 63) :
    ∃ t, formatUint64 v = some t ∧ t.filter (· ≠ 44) = Dec.natText v ∧ Grouped t := by
  obtain ⟨ps, h1, _, h3, h4⟩ := parts_spec 7 v (by omega) (by omega)
  exact ⟨join ps, by simp [formatUint64, h, comma, h1], h3, h4⟩

/-- No count makes the page fail, -/
theorem C108_no_panic (v : Nat) (h : v < 2 ^ 64) : (formatUint64 v).isSome := by
  unfold formatUint64
  by_cases h1 : v < 2 ^ 63
  · rw [if_pos h1]
    obtain ⟨ps, h2, _⟩ := parts_spec 7 v (by omega) (by omega)
    simp [comma, h2]
  · rw [if_neg h1]
    split
    · rfl
    · obtain ⟨ps, h2, _⟩ := parts_spec 7 (2 ^ 64 - v) (by omega) (by omega)
      simp [comma, h2]

/-- and different counts are shown differently. -/
theorem C108_distinct (v w : Nat) (hv : v < 2 ^ 63) (hw : w < 2 ^ 63) (h : formatUint64 v = formatUint64 w) :
    v = w := by
  obtain ⟨t, h1, h2, _⟩ := C108_partial v hv
  obtain ⟨u, h3, h4, _⟩ := C108_partial w hw
  rw [h1, h3] at h
  simp only [Option.some.injEq] at h
  subst h
  exact Dec.natText_inj (h2.symm.trans h4)

example : formatUint64 1234567 = some (bytes "1,234,567") := by decide +kernel
example : formatUint64 1000 = some (bytes "1,000") := by decide +kernel
example : formatUint64 999 = some (bytes "999") := by decide +kernel
example : formatUint64 (2 ^ 63) = some (bytes "-9,223,372,036,854,775,808") := by decide +kernel

/-- The date of an event is the date of its insertion: the day reached from 1 January 1970 by as many steps to the next
day as days have passed, and the time of that day, in UTC. -/
theorem C108_date (ts : Nat) (h : ts < 2 ^ 63) :
    formatDate ts = written (dayAfter (ts / 86400)) (ts % 86400 / 3600) (ts % 3600 / 60) (ts % 60) := by
  have ha : absolute ts = ts + unixToAbsolute := by
    unfold absolute unixToAbsolute
    exact Nat.mod_eq_of_lt (by omega)
  have hd : (ts + unixToAbsolute) / 86400 = epoch + ts / 86400 := by
    unfold unixToAbsolute epoch
    omega
  have hs : (ts + unixToAbsolute) % 86400 = ts % 86400 := by
    unfold unixToAbsolute
    omega
  obtain ⟨o1, o2, o3, o4, o5⟩ := dayAfter_ok (ts / 86400)
  have o6 := monthLength_le (dayAfter (ts / 86400)).year (dayAfter (ts / 86400)).month
  have hdate := dateOf_eq (ts / 86400)
  have hy := year_ge (ts / 86400)
  unfold formatDate
  simp only [ha, hd, hs, isLeap_iff]
  unfold dateOf at hdate
  simp only at hdate
  generalize yearDay (epoch + ts / 86400) = p at *
  obtain ⟨y, k⟩ := p
  simp only at *
  generalize monthDay (decide (LeapI y)) k = q at *
  obtain ⟨m, d⟩ := q
  simp only at *
  rw [← hdate] at o1 o2 o3 o4 o5 o6 ⊢
  simp only at o1 o2 o3 o4 o5 o6
  have hyt : yearText ((y : Int) - 292277022399) = Dec.natText (y - 292277022399) := by
    have e : ((y : Int) - 292277022399).natAbs = y - 292277022399 := by omega
    unfold yearText year4
    rw [if_neg (by omega), e, if_neg (by omega), if_neg (by omega), if_neg (by omega)]
  have t1 : ts % 86400 % 3600 = ts % 3600 := by omega
  have t2 : ts % 86400 % 60 = ts % 60 := by omega
  rw [monthNames_eq m o2 o3, pad2_eq (n := d) (by omega), hyt, pad2_eq (n := ts % 86400 / 3600) (by omega), t1, t2,
    pad2_eq (n := ts % 3600 / 60) (by omega), pad2_eq (n := ts % 60) (by omega)]
  rfl

/-- A time stamp with the highest bit set can be shown as a time before the year 0. -/
theorem C108_date_wraps : formatDate (2 ^ 64 - 2 ^ 62) = bytes "Jul 14, -146138510344 16:14:56 UTC" := by
  decide +kernel

example : formatDate 0 = bytes "Jan 01, 1970 00:00:00 UTC" := by decide +kernel
example : formatDate 1576892379 = bytes "Dec 21, 2019 01:39:39 UTC" := by decide +kernel
example : formatDate 951782400 = bytes "Feb 29, 2000 00:00:00 UTC" := by decide +kernel
example : dayAfter 59 = ⟨1970, 3, 1⟩ := by decide +kernel

end RangeDB.Ui

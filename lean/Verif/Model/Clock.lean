import Verif.Base.Types

/-!
# Model of the test clocks (pkg/clock/provider)
-/

namespace RangeDB.Clock

/-- `sequentialClock.Now` (sequential_clock.go:16-19): the new state and the time in seconds. `int64`
overflow after 2^63 calls is not modelled. -/
def sequentialNow (seconds : Nat) : Nat × Nat := (seconds + 1, seconds + 1 - 1)

/-- `seededClock` (seeded_clock.go:7-10). -/
structure Seeded where
  times : List Nat
  index : Nat

/-- `seededclock.New` (seeded_clock.go:13-21). -/
def newSeeded (times : List Nat) : Seeded := ⟨if times.length = 0 then [0] else times, 0⟩

/-- `seededClock.Now` (seeded_clock.go:23-31); `none` is an index out of range panic. -/
def Seeded.now (s : Seeded) : Seeded × Option Nat :=
  let index := if s.index ≥ s.times.length then 0 else s.index
  ({ s with index := index + 1 }, s.times[index]?)

/-- The results of `n` calls of a clock from state `s`. -/
def calls {σ α : Type} (now : σ → σ × α) : (n : Nat) → σ → List α
  | 0, _ => []
  | n + 1, s => (now s).2 :: calls now n (now s).1

end RangeDB.Clock

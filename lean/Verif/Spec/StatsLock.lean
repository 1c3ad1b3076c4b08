import Verif.Model.StatsLock

/-! # Specification: statistics that are read while events arrive -/

namespace RangeDB.Prj

/-- A data race: two goroutines are about to access the same field, and one of them to write it. -/
def Shared.Race (s : Shared) : Prop :=
  ∃ i j f w, i ≠ j ∧ (s.gors i).access = some (f, true) ∧ (s.gors j).access = some (f, w)

/-- The full property: goroutines may call the methods as they like. -/
def C175_full : Prop := ∀ (calls : Nat → List Call) (sched : List Nat), ¬ ((Shared.init calls).run sched).Race

/-- What a method is to read or write, and in how many steps, with those for the lock. -/
def touches : Call → List (Field × Bool) × Nat
  | .accept _ => ([(.counts, true), (.latest, true), (.total, true)], 5)
  | .counts => ([(.counts, false)], 3)
  | .latest => ([(.latest, false)], 3)
  | .save => ([(.counts, false), (.latest, false), (.total, false)], 5)
  | .total => ([(.total, false)], 1)

/-- What goroutine `i` accesses in so many steps if nobody else goes on. -/
def Shared.accesses (s : Shared) (i : Nat) : Nat → List (Field × Bool)
  | 0 => []
  | n + 1 => (s.gors i).access.toList ++ (s.step i).accesses i n

end RangeDB.Prj

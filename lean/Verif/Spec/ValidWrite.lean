import Verif.Spec.AtomicLog

/-! # Specification: a write with which nothing is wrong -/

namespace RangeDB

/-- A batch with which nothing is wrong: at least one event, all events belong to one aggregate, and the serializer accepts each of
them, whatever its numbers. -/
structure ValidBatch (z : Serializer) (st : Str) (ers : List EventRecord) : Prop where
  some : ers ≠ []
  one : ∃ t i, ∀ er ∈ ers, er.event.aggType = t ∧ er.event.aggId = i
  accepted : ∀ er ∈ ers, ∀ g q, (z.ser (mkRecord st g q er)).isSome

/-- `Save`, or `OptimisticSave` with the right number. -/
def Right (expected : Option Nat) (n : Nat) : Prop := expected = none ∨ expected = some n

end RangeDB

import Verif.Model.FaultyIo
import Verif.Spec.Json

/-! # Specification: writers that fail -/

namespace RangeDB.Json

/-- What arrives of these slices, written one after the other. -/
def Sink.feed {σ : Type} (w : Sink σ) : σ → List Str → Str
  | _, [] => []
  | s, b :: bs => b.take (w.put s b).2 ++ w.feed (w.put s b).1 bs

/-- A writer that never fails. -/
def Sink.Sound {σ : Type} (w : Sink σ) : Prop := ∀ s b, b.length ≤ (w.put s b).2

/-- A writer that takes every slice as a whole or not at all. -/
def Sink.Whole {σ : Type} (w : Sink σ) : Prop := ∀ s b, (w.put s b).2 = 0 ∨ b.length ≤ (w.put s b).2

/-- A disk with so many bytes left. -/
def disk : Sink Nat := ⟨fun left b => (left - b.length, left)⟩

/-- A writer that fails now and then: it follows a list, and then works. -/
def moody : Sink (List Bool) := ⟨fun
  | [], b => ([], b.length)
  | true :: m, b => (m, b.length)
  | false :: m, _ => (m, 0)⟩

/-- A text that is written in one call, if at all. -/
def slice (b : Str) : List Str := if b = [] then [] else [b]

/-- The slices of records that follow another one. -/
def tailSlices (fm : Format) (marshal : Record → Option Str) : List Record → List Str
  | [] => []
  | r :: rs => slice fm.between ++ (marshal r).getD [] :: tailSlices fm marshal rs

/-- The slices of all the records. -/
def bodySlices (fm : Format) (marshal : Record → Option Str) : List Record → List Str
  | [] => []
  | r :: rs => (marshal r).getD [] :: tailSlices fm marshal rs

end RangeDB.Json

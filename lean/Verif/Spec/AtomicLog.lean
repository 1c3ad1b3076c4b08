import Verif.Spec.EventLog

/-!
# Specification of the LevelDB store

The abstract event log again, with all-or-nothing saves. The only addition is what the store's leaked
transaction does: `leaked` is set by a failed delete, and the next writer then hangs (`stuck`).
-/

namespace RangeDB

/-- The name does not contain the bytes `$!` (36, 33). -/
def NoSep : Str → Bool
  | [] => true
  | [_] => true
  | a :: b :: rest => !(a == 36 && b == 33) && NoSep (b :: rest)

/-- The names `a` and `b` clash: `a$!` begins the text `b$!` followed by some eight bytes. Two different
names can do so only if one of them contains `$!`. -/
def Clash (a b : Str) : Prop :=
  ∃ x : Str, x.length = 8 ∧ (∀ c ∈ x, c < 256) ∧ a ++ [36, 33] <+: b ++ [36, 33] ++ x

/-- The names in use: a set of stream names and a set of aggregate types, in either of which no two
different names clash. -/
structure Names where
  streams : Str → Prop
  types : Str → Prop
  streams_apart : ∀ a b, streams a → streams b → Clash a b → a = b
  types_apart : ∀ a b, types a → types b → Clash a b → a = b

/-- All names a call mentions are among the names in use. -/
def Op.NamesIn (N : Names) : Op → Prop
  | .save st _ _ ers => N.streams st ∧ ∀ er ∈ ers, N.types er.event.aggType
  | .delete st _ _ => N.streams st

/-- The number of events a call tries to save. -/
def Op.size : Op → Nat
  | .save _ _ _ ers => ers.length
  | .delete _ _ _ => 0

/-- A specified store. -/
structure AState where
  log : Log
  /-- a delete failed, and its transaction is still open -/
  leaked : Bool
  /-- a writer hangs -/
  stuck : Bool

/-- The empty store. -/
def AState.init : AState := ⟨Log.empty, false, false⟩

/-- The store after one call. -/
def aStep (z : Serializer) (A : AState) : Op → AState
  | .save st expected cancelAt ers =>
    if ers = [] then A
    else if A.leaked then { A with stuck := true }
    else match batchProblem z A.log st expected cancelAt ers with
      | none => { A with log := A.log.append z.view st ers }
      | some _ => A
  | .delete st expected cancelled =>
    if cancelled then A
    else if A.leaked then { A with stuck := true }
    else if A.log.streamLen st = 0 ∨ expected ≠ A.log.streamLen st then { A with leaked := true }
    else { A with log := A.log.delete st }

/-- The store after a history. -/
def aRun (z : Serializer) (ops : List Op) : AState := ops.foldl (aStep z) AState.init

/-- What a save returns. -/
def aSaveOut (z : Serializer) (A : AState) (st : Str) (expected cancelAt : Option Nat)
    (ers : List EventRecord) : Outcome Nat :=
  if ers = [] then .err .missingEvents
  else if A.leaked then .blocked
  else match batchProblem z A.log st expected cancelAt ers with
    | none => .ok (A.log.streamLen st + ers.length)
    | some (_, e) => .err e

/-- What a delete returns. -/
def aDeleteOut (A : AState) (st : Str) (expected : Nat) (cancelled : Bool) : Outcome Unit :=
  if cancelled then .err .canceled
  else if A.leaked then .blocked
  else if A.log.streamLen st = 0 then .err .notFound
  else if expected ≠ A.log.streamLen st then .err (.unexpected expected (A.log.streamLen st))
  else .ok ()

end RangeDB

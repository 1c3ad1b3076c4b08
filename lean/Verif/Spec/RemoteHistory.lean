import Verif.Spec.Remote
import Verif.Spec.Http

/-!
# Specification: a program that uses a remote store instead of one of its own

The program makes one call after the other. Its store is a client of a server that holds an in-memory store and has no Go
types for the events; or it is an in-memory store in the program itself, where the types are bound.
-/

namespace RangeDB.Rem

open RangeDB.Json RangeDB.Http

/-- A writing call: `Save` (`expected = none`), `OptimisticSave` or `OptimisticDeleteStream`. -/
inductive HCall where
  | save (stream : Str) (expected : Option Nat) (ers : List EventRecord)
  | delete (stream : Str) (expected : Nat)

/-- The call of the remote store: the state of the server's store after it, and what the client gets. -/
def HCall.remote (other : Err → Str) (fl : Str → Option Str) (s : IM.State) : HCall → IM.State × CResult Nat
  | .save st e ers => Rem.save other (imSave (serializer unbound)) fl s st e ers
  | .delete st n =>
    let p := Rem.delete other (fun s st n => IM.deleteStream s st n false) s st n
    (p.1,
      match p.2 with
      | .ok _ => .ok 0
      | .err e => .err e
      | .none => .none)

/-- The same call of an in-memory store in the program. -/
def HCall.here (ty : Types) (s : IM.State) : HCall → IM.State × Outcome Nat
  | .save st e ers => ((IM.saveEvents (serializer ty) s st e none ers).state, (IM.saveEvents (serializer ty) s st e none ers).out)
  | .delete st n =>
    let p := IM.deleteStream s st n false
    (p.1,
      match p.2 with
      | .ok _ => .ok 0
      | .err e => .err e
      | .panic => .panic
      | .blocked => .blocked)

/-- The store of the server after the calls. -/
def remoteAfter (other : Err → Str) (fl : Str → Option Str) (calls : List HCall) : IM.State :=
  calls.foldl (fun s c => (c.remote other fl s).1) IM.init

/-- The store in the program after the calls. -/
def hereAfter (ty : Types) (calls : List HCall) : IM.State := calls.foldl (fun s c => (c.here ty s).1) IM.init

/-- The same result for a caller: the same value, or the same error of a store. -/
def asClient : Outcome Nat → CResult Nat
  | .ok n => .ok n
  | .err e => .err (.store e)
  | .panic => .none
  | .blocked => .none

/-- The same records and the same error of a store. -/
def asClientIter (it : Iter) : CIter := ⟨it.recs, it.err.map .store⟩

/-- A call that loses nothing on its way: the name of the stream is valid UTF-8, the numbers are `uint64`s, the events of a
batch belong to one aggregate, and each one has data and metadata that the client's types and JSON reproduce, also when the
fields come in another order. -/
def HCall.Clean (ty : Types) (fl : Str → Option Str) : HCall → Prop
  | .save st e ers => Valid st ∧ (∀ k, e = some k → k < 2 ^ 64) ∧ OneAggregate ers ∧
    ∀ er ∈ ers, RoundTrips ty fl er ∧ GoodEvent ty er
  | .delete st n => Valid st ∧ n < 2 ^ 64

/-- How many events a call brings. -/
def HCall.size : HCall → Nat
  | .save _ _ ers => ers.length
  | .delete _ _ => 0

/-- **C166** in full: for the program it makes no difference which of the two it uses. -/
def C166_full : Prop :=
  ∀ (other : Err → Str) (ty : Types) (fl : Str → Option Str), Quiet other → ∀ calls : List HCall,
    (∀ g, events other ty fl (IM.events (serializer unbound) (remoteAfter other fl calls) none g) =
      asClientIter (IM.events (serializer ty) (hereAfter ty calls) none g)) ∧
    ∀ c : HCall, (c.remote other fl (remoteAfter other fl calls)).2 = asClient (c.here ty (hereAfter ty calls)).2

end RangeDB.Rem

import Verif.Spec.RemoteHistory
import Verif.Spec.Interfaces
import Verif.Spec.AtomicLog

/-!
# Specification: a remote store in front of a LevelDB store, and a LevelDB store in the program
-/

namespace RangeDB.Rem

open RangeDB.Json RangeDB.Http

/-- The call of the remote store in front of a LevelDB store. -/
def HCall.remoteLD (other : Err → Str) (fl : Str → Option Str) (s : LD.State) : HCall → LD.State × CResult Nat
  | .save st e ers => Rem.save other (ldSave (serializer unbound)) fl s st e ers
  | .delete st n =>
    let p := Rem.delete other (Srv.ldDelete (serializer unbound)) s st n
    (p.1,
      match p.2 with
      | .ok _ => .ok 0
      | .err e => .err e
      | .none => .none)

/-- The same call of a LevelDB store in the program. -/
def HCall.hereLD (ty : Types) (s : LD.State) : HCall → LD.State × Outcome Nat
  | .save st e ers => ((LD.saveEvents (serializer ty) s st e none ers).state, (LD.saveEvents (serializer ty) s st e none ers).out)
  | .delete st n =>
    let p := LD.deleteStream (serializer ty) s st n false
    (p.1,
      match p.2 with
      | .ok _ => .ok 0
      | .err e => .err e
      | .panic => .panic
      | .blocked => .blocked)

/-- The store of the server after the calls. -/
def remoteAfterLD (other : Err → Str) (fl : Str → Option Str) (calls : List HCall) : LD.State :=
  calls.foldl (fun s c => (c.remoteLD other fl s).1) LD.init

/-- The store in the program after the calls. -/
def hereAfterLD (ty : Types) (calls : List HCall) : LD.State := calls.foldl (fun s c => (c.hereLD ty s).1) LD.init

/-- The names that the call mentions are among those in use. -/
def HCall.NamesIn (N : Names) : HCall → Prop
  | .save st _ ers => N.streams st ∧ ∀ er ∈ ers, N.types er.event.aggType
  | .delete st _ => N.streams st

/-- A read through the client, of what the server's store returned, and the read of a store in the program: both return, and
the same, or both hang. -/
def SameRead (client : Iter → CIter) (server here : Outcome Iter) : Prop :=
  (∃ a b, server = .ok a ∧ here = .ok b ∧ client a = asClientIter b) ∨ (server = .blocked ∧ here = .blocked)

end RangeDB.Rem

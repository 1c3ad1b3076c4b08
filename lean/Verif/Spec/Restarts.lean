import Verif.Model.Restarts
import Verif.Model.BrokenCalls
import Verif.Spec.AtomicLog

/-! # Specification: a store that is killed and opened again, and a client that repeats its save -/

namespace RangeDB

/-- A new process has neither leaked transactions nor hanging writers. -/
def AState.reopened (A : AState) : AState := ⟨A.log, false, false⟩

namespace LD

/-- What the store may be after its life so far: every call that returned counts, a call in which the process was killed counts
as a whole or not at all, and nothing else changes what is stored. -/
inductive Life (z : Serializer) : List Part → AState → Prop where
  | start : Life z [] .init
  | call {parts A} (op : Op) : Life z parts A → Life z (parts ++ [.call op]) (aStep z A op)
  | restart {parts A} : Life z parts A → Life z (parts ++ [.restart]) A.reopened
  | lost {parts A} (op : Op) (n : Nat) : Life z parts A → Life z (parts ++ [.crash op n]) A.reopened
  | kept {parts A} (op : Op) (n : Nat) : Life z parts A → Life z (parts ++ [.crash op n]) (aStep z A op).reopened

/-- The call that is part of it. -/
def Part.op : Part → Option Op
  | .call op => some op
  | .restart => none
  | .crash op _ => some op

/-- The names it mentions are among the names in use. -/
def Part.NamesIn (N : Names) (p : Part) : Prop := ∀ op, p.op = some op → op.NamesIn N

/-- The number of events it tries to save. -/
def Part.size (p : Part) : Nat := (p.op.map Op.size).getD 0

/-- It is no delete of the stream. -/
def Part.Keeps (stream : Str) (p : Part) : Prop := ∀ expected cancelled, p.op ≠ some (.delete stream expected cancelled)

/-- It has nothing to do with the stream. -/
def Part.Elsewhere (stream : Str) (p : Part) : Prop :=
  p.Keeps stream ∧ ∀ expected cancelAt ers, p.op ≠ some (.save stream expected cancelAt ers)

end LD

namespace Rem

/-- What becomes of a call of the client: something on its way, or the server is killed while it carries it out, and started
again. -/
inductive Fate where
  | net (net : Net)
  | killed (steps : Nat) (status : Str)

/-- A call of the client (`cancelAt`: the context on the server). -/
structure LTry where
  fate : Fate
  cancelAt : Option Nat
  ers : List EventRecord

/-- A call of the client, or something else in the life of the server's LevelDB store: calls of others, restarts, crashes. -/
inductive LTurn where
  | mine (t : LTry)
  | another (p : LD.Part)

/-- The call of the client, over the connection, with a server whose store is LevelDB. -/
def lsave (z : Serializer) (other : Err → Str) (fl : Str → Option Str) (s : LD.State) (stream : Str) (expected : Option Nat)
    (t : LTry) : LD.State × CResult Nat :=
  match t.fate with
  | .net net =>
    saveOver net other (fun s st e ers => ((LD.saveEvents z s st e t.cancelAt ers).state, (LD.saveEvents z s st e t.cancelAt ers).out))
      fl s stream expected t.ers
  | .killed n status =>
    saveOver (.noReply status) other (fun s st e ers => (LD.crashed z s (.save st e t.cancelAt ers) n, .blocked))
      fl s stream expected t.ers

/-- A call of the client: the server's store before and after it, and what the client is told. -/
structure LAttempt where
  before : LD.State
  after : LD.State
  told : CResult Nat

/-- The calls of a client that repeats a save with the same expected number. -/
def lattempts (z : Serializer) (other : Err → Str) (fl : Str → Option Str) (stream : Str) (expected : Option Nat) :
    LD.State → List LTurn → List LAttempt
  | _, [] => []
  | s, .mine t :: turns =>
    let p := lsave z other fl s stream expected t
    ⟨s, p.1, p.2⟩ :: lattempts z other fl stream expected p.1 turns
  | s, .another p :: turns => lattempts z other fl stream expected (p.step z s) turns

/-- `TotalEventsInStream` changed. -/
def LAttempt.grew (stream : Str) (a : LAttempt) : Bool :=
  decide (LD.totalEventsInStream a.before stream false ≠ LD.totalEventsInStream a.after stream false)

/-- The number of events it tries to save. -/
def LTurn.size : LTurn → Nat
  | .mine t => t.ers.length
  | .another p => p.size

/-- Names in use only, and nobody deletes the stream. -/
def LTurn.Fair (N : Names) (stream : Str) : LTurn → Prop
  | .mine t => ∀ er ∈ t.ers, N.types er.event.aggType
  | .another p => p.NamesIn N ∧ p.Keeps stream

/-- Others leave the stream alone, and no broken connection looks like a refusal. -/
def LTurn.Alone (stream : Str) : LTurn → Prop
  | .mine t => match t.fate with
    | .net .fine => True
    | .net (.noRequest status) => contains (tCode ++ status) tErrUnexpected = false
    | .net (.noReply status) => contains (tCode ++ status) tErrUnexpected = false
    | .killed _ status => contains (tCode ++ status) tErrUnexpected = false
  | .another p => p.Elsewhere stream

end Rem
end RangeDB

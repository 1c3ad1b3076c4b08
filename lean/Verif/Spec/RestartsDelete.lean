import Verif.Spec.Restarts

/-! # Specification: a client that repeats a delete while the LevelDB server behind it is killed and started again -/

namespace RangeDB.Rem

/-- A call of the client (`cancelled`: the context on the server), or something else in the life of the server's LevelDB store:
calls of others, restarts, crashes. -/
inductive LDelTurn where
  | mine (fate : Fate) (cancelled : Bool)
  | another (p : LD.Part)

/-- The call of the client, over the connection, with a server whose store is LevelDB. -/
def ldelete (z : Serializer) (other : Err → Str) (s : LD.State) (stream : Str) (expected : Nat) (fate : Fate)
    (cancelled : Bool) : LD.State × CResult Unit :=
  match fate with
  | .net net => deleteOver net other (fun s st e => LD.deleteStream z s st e cancelled) s stream expected
  | .killed n status =>
    deleteOver (.noReply status) other (fun s st e => (LD.crashed z s (.delete st e cancelled) n, .blocked)) s stream expected

/-- A call of the client: the server's store before and after it, and what the client is told. -/
structure LDelAttempt where
  before : LD.State
  after : LD.State
  told : CResult Unit

/-- The calls of a client that repeats a delete with the same expected number. -/
def ldeletions (z : Serializer) (other : Err → Str) (stream : Str) (expected : Nat) : LD.State → List LDelTurn → List LDelAttempt
  | _, [] => []
  | s, .mine fate cancelled :: turns =>
    let p := ldelete z other s stream expected fate cancelled
    ⟨s, p.1, p.2⟩ :: ldeletions z other stream expected p.1 turns
  | s, .another p :: turns => ldeletions z other stream expected (p.step z s) turns

/-- `TotalEventsInStream` changed. -/
def LDelAttempt.shrank (stream : Str) (a : LDelAttempt) : Bool :=
  decide (LD.totalEventsInStream a.before stream false ≠ LD.totalEventsInStream a.after stream false)

/-- The number of events others try to save. -/
def LDelTurn.size : LDelTurn → Nat
  | .mine _ _ => 0
  | .another p => p.size

/-- Names in use only. -/
def LDelTurn.Fair (N : Names) : LDelTurn → Prop
  | .mine _ _ => True
  | .another p => p.NamesIn N

/-- Others do not save to the stream. -/
def LDelTurn.Alone (stream : Str) : LDelTurn → Prop
  | .mine _ _ => True
  | .another p => ∀ expected cancelAt ers, p.op ≠ some (.save stream expected cancelAt ers)

/-- No broken connection looks like the answer that the stream does not exist. -/
def LDelTurn.Plain : LDelTurn → Prop
  | .mine (.net .fine) _ => True
  | .mine (.net (.noRequest status)) _ => contains (tCode ++ status) tErrNotFound = false
  | .mine (.net (.noReply status)) _ => contains (tCode ++ status) tErrNotFound = false
  | .mine (.killed _ status) _ => contains (tCode ++ status) tErrNotFound = false
  | .another _ => True

end RangeDB.Rem

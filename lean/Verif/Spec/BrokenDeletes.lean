import Verif.Spec.BrokenCalls

/-! # Specification: a client that repeats a delete -/

namespace RangeDB.Rem

/-- The server acts on a call of the client, whose context may be cancelled on the server, or on a call of somebody else. -/
inductive DelTurn where
  | mine (net : Net) (cancelled : Bool)
  | another (op : Op)

/-- The server's in-memory store. -/
def imDeleteAt (cancelled : Bool) (s : IM.State) (stream : Str) (expected : Nat) : IM.State × Outcome Unit :=
  IM.deleteStream s stream expected cancelled

/-- A call of the client: the store before and after it, and what the client is told. -/
structure DelAttempt where
  before : IM.State
  after : IM.State
  told : CResult Unit

/-- The calls of a client that repeats a delete, always with the same expected number, while others use the store. -/
def deletions (z : Serializer) (other : Err → Str) (stream : Str) (expected : Nat) : IM.State → List DelTurn → List DelAttempt
  | _, [] => []
  | s, .mine net cancelled :: turns =>
    let p := deleteOver net other (imDeleteAt cancelled) s stream expected
    ⟨s, p.1, p.2⟩ :: deletions z other stream expected p.1 turns
  | s, .another op :: turns => deletions z other stream expected (IM.step z s op) turns

/-- `TotalEventsInStream` changed. -/
def DelAttempt.shrank (stream : Str) (a : DelAttempt) : Bool :=
  decide (IM.totalEventsInStream a.before stream false ≠ IM.totalEventsInStream a.after stream false)

/-- Others may do what they like, with events that match the name of their stream (see `Guarded`). -/
def DelTurn.Fair (z : Serializer) : DelTurn → Prop
  | .mine _ _ => True
  | .another op => op.Guarded z

/-- Others do not save to the stream. -/
def DelTurn.Alone (stream : Str) : DelTurn → Prop
  | .mine _ _ => True
  | .another (.save name _ _ _) => name ≠ stream
  | .another (.delete _ _ _) => True

/-- No broken connection looks like the answer that the stream does not exist. -/
def DelTurn.Plain : DelTurn → Prop
  | .mine .fine _ => True
  | .mine (.noRequest status) _ => contains (tCode ++ status) tErrNotFound = false
  | .mine (.noReply status) _ => contains (tCode ++ status) tErrNotFound = false
  | .another _ => True

end RangeDB.Rem

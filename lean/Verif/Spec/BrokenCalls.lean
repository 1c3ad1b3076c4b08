import Verif.Model.BrokenCalls
import Verif.Model.InMemory
import Verif.Model.Merge
import Verif.Spec.EventLog

/-! # Specification: a client that repeats an optimistic save -/

namespace RangeDB.Rem

/-- A call of the client, with what becomes of it on its way and, on the server, of its context (`cancelAt`, see `Op`). Every
call has its own `ers`: the server gives the events new IDs and times. -/
structure Try where
  net : Net
  cancelAt : Option Nat
  ers : List EventRecord

/-- The server acts on a call of the client, or on one of somebody else. -/
inductive Turn where
  | mine (t : Try)
  | another (op : Op)

/-- The server's in-memory store, in a call whose context is cancelled so. -/
def imSaveAt (z : Serializer) (cancelAt : Option Nat) (s : IM.State) (stream : Str) (expected : Option Nat)
    (ers : List EventRecord) : IM.State × Outcome Nat :=
  ((IM.saveEvents z s stream expected cancelAt ers).state, (IM.saveEvents z s stream expected cancelAt ers).out)

/-- A call of the client: the store before and after it, and what the client is told. -/
structure Attempt where
  before : IM.State
  after : IM.State
  told : CResult Nat

/-- The calls of a client that repeats a save to the stream, always with the same expected number, while others use the store. -/
def attempts (z : Serializer) (other : Err → Str) (fl : Str → Option Str) (stream : Str) (expected : Option Nat) :
    IM.State → List Turn → List Attempt
  | _, [] => []
  | s, .mine t :: turns =>
    let p := saveOver t.net other (imSaveAt z t.cancelAt) fl s stream expected t.ers
    ⟨s, p.1, p.2⟩ :: attempts z other fl stream expected p.1 turns
  | s, .another op :: turns => attempts z other fl stream expected (IM.step z s op) turns

/-- `TotalEventsInStream` changed. -/
def Attempt.grew (stream : Str) (a : Attempt) : Bool :=
  decide (IM.totalEventsInStream a.before stream false ≠ IM.totalEventsInStream a.after stream false)

/-- All reads return the same. (Of several aggregate types each is asked for once.) -/
def Unchanged (z : Serializer) (s s' : IM.State) : Prop :=
  (∀ c g, IM.events z s' c g = IM.events z s c g) ∧
  (∀ c n st, IM.eventsByStream z s' c n st = IM.eventsByStream z s c n st) ∧
  (∀ g ts, ts.Nodup → IM.eventsByAggregateTypes z s' (fun _ => none) g ts = IM.eventsByAggregateTypes z s (fun _ => none) g ts) ∧
  ∀ st, IM.totalEventsInStream s' st false = IM.totalEventsInStream s st false

/-- Calls of the client with events of the aggregate that the stream is named after; calls of others that do not delete the
stream. -/
def Turn.Fair (z : Serializer) (stream : Str) : Turn → Prop
  | .mine t => ∀ er ∈ t.ers, stream = getStream er.event.aggType er.event.aggId
  | .another op => op.Guarded z ∧ match op with
    | .save _ _ _ _ => True
    | .delete name _ _ => name ≠ stream

/-- Others leave the stream alone, and no broken connection looks like a refusal. -/
def Turn.Alone (stream : Str) : Turn → Prop
  | .mine t => match t.net with
    | .fine => True
    | .noRequest status => contains (tCode ++ status) tErrUnexpected = false
    | .noReply status => contains (tCode ++ status) tErrUnexpected = false
  | .another (.save name _ _ _) => name ≠ stream
  | .another (.delete name _ _) => name ≠ stream

end RangeDB.Rem

import Verif.Model.Postgres
import Verif.Model.InMemory
import Verif.Spec.Json

/-!
# Specification: calls of the PostgreSQL store one after the other

One call at a time is made, each one runs to its end, and no statement fails.
-/

namespace RangeDB.PG

open RangeDB.Json

/-- How many statements a call needs at most. -/
def Call.turns : Call → Nat
  | .save _ _ ers => ers.length + 4
  | .delete _ _ => 3

/-- Client `p` makes the call, and nobody else moves until it has returned. -/
def turn (p : Nat) (c : Call) : Schedule := (p, .call c) :: List.replicate c.turns (p, .go)

/-- Calls one after the other, each by some client. -/
def oneByOne (calls : List (Nat × Call)) : Schedule := calls.flatMap (fun x => turn x.1 x.2)

/-- The same call of the in-memory store. -/
def Call.op : Call → Op
  | .save st e ers => .save st e none ers
  | .delete st n => .delete st n false

/-- What the in-memory store returns for the call. -/
def Call.memory (z : Serializer) (s : IM.State) : Call → Outcome Nat
  | .save st e ers => (IM.saveEvents z s st e none ers).out
  | .delete st n =>
    match (IM.deleteStream s st n false).2 with
    | .ok _ => .ok 0
    | .err e => .err e
    | .panic => .panic
    | .blocked => .blocked

/-- What the in-memory store hands to its subscribers for the calls. -/
def memoryLive (z : Serializer) : IM.State → List (Nat × Call) → List Record
  | _, [] => []
  | s, (_, c) :: calls =>
    (match c with
      | .save st e ers => (IM.saveEvents z s st e none ers).broadcast
      | .delete _ _ => []) ++ memoryLive z (IM.step z s c.op) calls

/-- How many of the calls are deletes that the PostgreSQL store refuses: the expected number is not the number of events,
or there are none. Each one costs a connection (C68). -/
def refused (z : Serializer) : IM.State → List (Nat × Call) → Nat
  | _, [] => 0
  | s, (_, c) :: calls =>
    (match c with
      | .save _ _ _ => 0
      | .delete st n => if n ≠ 0 ∧ IM.totalEventsInStream s st false = .ok n then 0 else 1) +
      refused z (IM.step z s c.op) calls

/-- A call that both stores understand alike: a delete, or a save into a stream whose name is valid UTF-8, of events of
one aggregate, without metadata, that the JSON serializer handles. -/
def Call.Plain (ty : Types) : Call → Prop
  | .save st _ ers => Valid st ∧ (∀ er ∈ ers, GoodEvent ty er ∧ er.metadata = nullText) ∧
    ∃ t i, ∀ er ∈ ers, er.event.aggType = t ∧ er.event.aggId = i
  | .delete _ _ => True

/-- How many events the calls bring along. -/
def broughtBy (calls : List (Nat × Call)) : Nat :=
  (calls.map (fun x => match x.2 with | .save _ _ ers => ers.length | .delete _ _ => 0)).sum

/-- What the store hands to its subscribers: in the saving process, or through the database. -/
def handed (cfg : Config) (s : State) : List Record := if cfg.notify then s.notified else s.live

end RangeDB.PG

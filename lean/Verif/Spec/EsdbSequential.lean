import Verif.Model.EventStoreDB
import Verif.Model.InMemory
import Verif.Spec.EventStoreDB

/-!
# Specification: calls of the EventStoreDB store one after the other, next to the in-memory store

One adapter, one call at a time, a server that answers every request.
-/

namespace RangeDB.EDB

/-- A call of the store. The server gives the events their positions. -/
inductive ECall where
  | save (name : Str) (expected : Option Nat) (ers : List EventRecord) (positions : Nat → Nat)
  | delete (name : Str) (expected : Nat)

/-- The call on the EventStoreDB store. -/
def ECall.eop : ECall → EOp
  | .save name expected ers positions => .save expected false .ok name ers positions
  | .delete name expected => .delete 0 expected name

/-- The same call on the in-memory store. -/
def ECall.op : ECall → Op
  | .save name expected ers _ => .save name expected none ers
  | .delete name expected => .delete name expected false

/-- What the EventStoreDB store returns. -/
def ECall.reply (C : Codec) (c : Config) (w : World) : ECall → Outcome Nat
  | .save name expected ers positions => (saveEvents C c w.server false id .ok expected name ers positions).2
  | .delete name expected =>
    match (deleteStream C c w.server (w.deleted 0) expected name).2.2 with
    | none => .ok 0
    | some e => .err e

/-- What the in-memory store returns. -/
def ECall.memory (z : Serializer) (s : IM.State) : ECall → Outcome Nat
  | .save name expected ers _ => (IM.saveEvents z s name expected none ers).out
  | .delete name expected =>
    match (IM.deleteStream s name expected false).2 with
    | .ok _ => .ok 0
    | .err e => .err e
    | .panic => .panic
    | .blocked => .blocked

/-- Both stores after the calls. -/
def after (C : Codec) (c : Config) (calls : List ECall) : World := World.run C c (calls.map ECall.eop)

def memoryAfter (z : Serializer) (calls : List ECall) : IM.State := IM.run z (calls.map ECall.op)

/-- Calls that both stores understand alike: a save of events of one aggregate, of types that do not begin with `$`, that both
can encode; a delete that expects at least one event. -/
def ECall.Plain (z : Serializer) (C : Codec) : ECall → Prop
  | .save name _ ers _ => EDB.Plain ers ∧
    (∀ er ∈ ers, (∀ g q, (z.ser (mkRecord name g q er)).isSome) ∧ ∃ b, C.enc name er = some b) ∧
    ∃ t i, ∀ er ∈ ers, er.event.aggType = t ∧ er.event.aggId = i
  | .delete _ expected => 1 ≤ expected

/-- No call saves to a stream that was deleted; `dead` lists the streams that were, the in-memory store is `s`. -/
def NoReuse (z : Serializer) : IM.State → (dead : List Str) → List ECall → Prop
  | _, _, [] => True
  | s, dead, .save name expected ers positions :: calls =>
    name ∉ dead ∧ NoReuse z (IM.step z s (ECall.save name expected ers positions).op) dead calls
  | s, dead, .delete name expected :: calls =>
    NoReuse z (IM.step z s (ECall.delete name expected).op)
      (if IM.totalEventsInStream s name false = .ok expected then name :: dead else dead) calls

/-- A record without its global number: the two stores number differently. -/
def strip (r : Record) : Record := { r with gsn := 0 }

/-- What a reader gets, without the global numbers. -/
def stripped (it : Iter) : Iter := ⟨it.recs.map strip, it.err⟩

end RangeDB.EDB

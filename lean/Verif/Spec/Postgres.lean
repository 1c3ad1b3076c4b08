import Verif.Model.Postgres

/-!
# Specification: the PostgreSQL store
-/

namespace RangeDB.PG

open RangeDB.Json

/-- The schedule contains no delete of the stream. -/
def NoDelete (st : Str) (ms : Schedule) : Prop := ∀ m ∈ ms, ∀ n, m.2 ≠ .call (.delete st n)

/-- The JSON text of a Go value, as `json.Marshal` prints it. -/
def compact (t : Str) : Str := ((marshalValue t).map Json.text).getD t

/-- What is stored for an event, apart from its numbers. -/
def stored (st : Str) (er : EventRecord) : Record :=
  ⟨st, er.event.aggType, er.event.aggId, 0, 0, er.now, er.uuid, er.event.evType, compact er.event.data, compact er.metadata⟩

/-- A record without its numbers. -/
def content (r : Record) : Record := { r with gsn := 0, seq := 0 }

/-- The events that the committed saves of a history have put into a stream. -/
def putInto (st : Str) (hist : List (Str × Option Nat × List Record)) : List Record :=
  (hist.filter (fun c => c.1 == st)).flatMap (·.2.2)

/-- A call has drawn global numbers and has not committed yet. -/
def Busy (s : State) : Prop :=
  ∃ p st e ers todo r rows, s.procs p = .inserting st e ers todo (r :: rows)

end RangeDB.PG

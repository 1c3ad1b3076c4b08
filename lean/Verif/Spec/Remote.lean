import Verif.Model.Remote
import Verif.Spec.Http

/-!
# Specification: what a client of the remote store can rely on
-/

namespace RangeDB.Rem

open RangeDB.Json RangeDB.Http

/-- All events belong to one aggregate. -/
def OneAggregate (ers : List EventRecord) : Prop :=
  ∀ a ∈ ers, ∀ b ∈ ers, a.event.aggType = b.event.aggType ∧ a.event.aggId = b.event.aggId

/-- Somewhere in the batch, an event of a named aggregate is followed by an event of another one. -/
def Mixed (ers : List EventRecord) : Prop :=
  ∃ l a b r, ers = l ++ a :: b :: r ∧
    ((a.event.aggType ≠ [] ∧ a.event.aggType ≠ b.event.aggType) ∨ (a.event.aggId ≠ [] ∧ a.event.aggId ≠ b.event.aggId))

/-- An event that can be sent without loss: names in UTF-8, data and metadata JSON whose numbers survive `float64`. The
metadata is printed with the fields of objects in order; the data may be that of a Go struct. -/
structure Sendable (fl : Str → Option Str) (er : EventRecord) : Prop where
  aggType : Valid er.event.aggType
  aggId : Valid er.event.aggId
  evType : Valid er.event.evType
  data : ∃ d : Json, d.WF ∧ Exact fl d ∧ er.event.data = d.text
  metadata : ∃ m : Json, m.WF ∧ Exact fl m ∧ m.canon = m ∧ er.metadata = m.text

/-- The same JSON value with the fields of objects in order. -/
def inOrder (t : Str) : Str :=
  match parse t with
  | some (v, _) => v.canon.text
  | none => t

/-- The event as the server, which has no Go type for it, holds it. -/
def arrives (er : EventRecord) : EventRecord := { er with event := { er.event with data := inOrder er.event.data } }

/-- An event that a client with the bound types `ty` gets back as it was: it can be sent, its data is not `null`, and its
type prints the data as it was, also when it reads the fields in another order. -/
structure RoundTrips (ty : Types) (fl : Str → Option Str) (er : EventRecord) : Prop where
  aggType : Valid er.event.aggType
  aggId : Valid er.event.aggId
  evType : Valid er.event.evType
  uuid : Valid er.uuid
  now : er.now < 2 ^ 64
  data : ∃ d : Json, d.WF ∧ d ≠ .null ∧ Exact fl d ∧ er.event.data = d.text ∧
    ty er.event.evType d.canon = some er.event.data
  metadata : ∃ m : Json, m.WF ∧ Exact fl m ∧ m.canon = m ∧ er.metadata = m.text

/-- A record of the server that a client with the bound types `ty` reads as it is. -/
structure Readable (ty : Types) (fl : Str → Option Str) (r : Record) : Prop where
  streamName : Valid r.streamName
  aggType : Valid r.aggType
  aggId : Valid r.aggId
  eventId : Valid r.eventId
  evType : Valid r.evType
  data : ∃ d : Json, d.WF ∧ r.data = d.text ∧ ty r.evType d = some r.data
  metadata : ∃ m : Json, m.WF ∧ Exact fl m ∧ m.canon = m ∧ r.metadata = m.text

/-- The texts of serializer and database errors do not contain those by which the client recognises other errors. -/
def Quiet (other : Err → Str) : Prop :=
  ∀ e, contains (other e) tErrUnexpected = false ∧ contains (other e) tErrCanceled = false ∧
    contains (other e) Http.tNotFound = false

end RangeDB.Rem

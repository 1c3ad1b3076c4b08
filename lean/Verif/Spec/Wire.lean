import Verif.Model.Wire

/-!
# Specification: messages with texts in UTF-8, and numbers that fit their types
-/

namespace RangeDB.Wire

open Json (Valid)

/-- All texts of the event are UTF-8. -/
def PbEvent.Utf8 (e : PbEvent) : Prop :=
  Valid e.aggType ∧ Valid e.aggId ∧ Valid e.evType ∧ Valid e.data ∧ Valid e.metadata

/-- All texts of the message are UTF-8. -/
def Message.Utf8 : Message → Prop
  | .eventsRequest _ => True
  | .eventsByStreamRequest s _ => Valid s
  | .eventsByAggregateTypeRequest ts _ => ∀ t ∈ ts, Valid t
  | .subscribeToLiveEventsRequest => True
  | .subscribeToEventsRequest _ => True
  | .subscribeToEventsByAggregateTypeRequest ts _ => ∀ t ∈ ts, Valid t
  | .optimisticDeleteStreamRequest _ s => Valid s
  | .optimisticDeleteStreamResponse _ => True
  | .optimisticSaveRequest _ s es => Valid s ∧ ∀ e ∈ es, e.Utf8
  | .saveRequest s es => Valid s ∧ ∀ e ∈ es, e.Utf8
  | .saveResponse _ _ => True
  | .totalEventsInStreamRequest s => Valid s
  | .totalEventsInStreamResponse _ => True
  | .record r => Valid r.streamName ∧ Valid r.aggType ∧ Valid r.aggId ∧ Valid r.eventId ∧ Valid r.evType ∧
      Valid r.data ∧ Valid r.metadata

/-- The numbers fit their Go types, `uint64` and `uint32`. -/
def Message.Typed : Message → Prop
  | .eventsRequest g => g < 2 ^ 64
  | .eventsByStreamRequest _ q => q < 2 ^ 64
  | .eventsByAggregateTypeRequest _ g => g < 2 ^ 64
  | .subscribeToLiveEventsRequest => True
  | .subscribeToEventsRequest g => g < 2 ^ 64
  | .subscribeToEventsByAggregateTypeRequest _ g => g < 2 ^ 64
  | .optimisticDeleteStreamRequest x _ => x < 2 ^ 64
  | .optimisticDeleteStreamResponse n => n < 2 ^ 32
  | .optimisticSaveRequest x _ _ => x < 2 ^ 64
  | .saveRequest _ _ => True
  | .saveResponse n q => n < 2 ^ 32 ∧ q < 2 ^ 64
  | .totalEventsInStreamRequest _ => True
  | .totalEventsInStreamResponse n => n < 2 ^ 64
  | .record r => r.gsn < 2 ^ 64 ∧ r.seq < 2 ^ 64 ∧ r.ts < 2 ^ 64

end RangeDB.Wire

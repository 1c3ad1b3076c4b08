import Verif.Model.EventStoreDB
import Verif.Model.Http

/-!
# Model: the JSON texts that the EventStoreDB adapter stores

`ESDBMetadata` of `provider/eventstore/eventstore.go`, `json.Marshal` of an event, and how both are read again.
-/

namespace RangeDB.EDB

open Json

/-- The names of the fields of `ESDBMetadata` (eventstore.go:44-47); those of `RangeDBMetadata` (35-42) are those of a
record. -/
def kRangeDBMetadata : Str := [114, 97, 110, 103, 101, 68, 66, 77, 101, 116, 97, 100, 97, 116, 97]
def kEventMetadata : Str := [101, 118, 101, 110, 116, 77, 101, 116, 97, 100, 97, 116, 97]

/-- `ESDBMetadata` as a value (eventstore.go:646-656); `m` is the metadata of the event. -/
def metaJson (name : Str) (er : EventRecord) (m : Json) : Json :=
  .obj [
    (kRangeDBMetadata, .obj [
      (kStreamName, .str name),
      (kAggregateType, .str er.event.aggType),
      (kAggregateID, .str er.event.aggId),
      (kInsertTimestamp, .num (Dec.natText er.now)),
      (kEventType, .str er.event.evType),
      (kEventID, .str er.uuid)]),
    (kEventMetadata, m)]

/-- The bytes of the metadata and of the data (eventstore.go:646-668). -/
def jsonEnc (name : Str) (er : EventRecord) : Option (Str × Str) :=
  match marshalValue er.metadata, marshalValue er.event.data with
  | some m, some d => some ((metaJson name er m).text, d.text)
  | _, _ => none

/-- `ESDBMetadata` while it is being decoded; `bad` is a field of the wrong type. -/
structure Meta where
  name : Str
  aggType : Str
  aggId : Str
  ts : Nat
  evType : Str
  eventId : Str
  metadata : Json
  bad : Bool

/-- The zero value. -/
def Meta.zero : Meta := ⟨[], [], [], 0, [], [], .null, false⟩

/-- Decoding into a `string` field. -/
def Meta.setStr (st : Meta) (v : Json) (f : Meta → Str → Meta) : Meta :=
  match v with
  | .str s => f st s
  | .null => st
  | _ => { st with bad := true }

/-- Decoding into the `uint64` field. -/
def Meta.setTs (st : Meta) (v : Json) : Meta :=
  match v with
  | .num t =>
    match Dec.parseUint t with
    | some n => { st with ts := n }
    | none => { st with bad := true }
  | .null => st
  | _ => { st with bad := true }

/-- One field of `RangeDBMetadata` (eventstore.go:35-42). -/
def Meta.inner (st : Meta) (kv : Str × Json) : Meta :=
  if sameName kv.1 kStreamName then st.setStr kv.2 (fun r s => { r with name := s })
  else if sameName kv.1 kAggregateType then st.setStr kv.2 (fun r s => { r with aggType := s })
  else if sameName kv.1 kAggregateID then st.setStr kv.2 (fun r s => { r with aggId := s })
  else if sameName kv.1 kInsertTimestamp then st.setTs kv.2
  else if sameName kv.1 kEventType then st.setStr kv.2 (fun r s => { r with evType := s })
  else if sameName kv.1 kEventID then st.setStr kv.2 (fun r s => { r with eventId := s })
  else st

/-- One field of `ESDBMetadata` (eventstore.go:44-47). The metadata of the event is decoded into an `interface{}`
without `UseNumber`: its numbers become `float64`s (`fl`, see `Http.decodeAny`). -/
def Meta.field (fl : Str → Option Str) (st : Meta) (kv : Str × Json) : Meta :=
  if sameName kv.1 kRangeDBMetadata then
    match kv.2 with
    | .obj l => l.foldl Meta.inner st
    | .null => st
    | _ => { st with bad := true }
  else if sameName kv.1 kEventMetadata then
    match Http.decodeAny fl kv.2 with
    | some m => { st with metadata := m }
    | none => { st with bad := true }
  else st

/-- `json.Unmarshal` of the user metadata (eventstore.go:763-767): the whole text is one value. -/
def decodeMeta (fl : Str → Option Str) (text : Str) : Option Meta :=
  match parse text with
  | some (v, rest) =>
    if skipWs rest = [] then
      match v with
      | .obj l =>
        let st := l.foldl (Meta.field fl) .zero
        if st.bad then none else some st
      | .null => some .zero
      | _ => none
    else none
  | none => none

/-- The decoding part of `recordFromLinkedEvent` (eventstore.go:763-794): the data goes through `DecodeJsonData`
(json_record_serializer.go:74-96), which reads the first value of the text into the type bound to the event type. -/
def jsonDec (ty : Types) (fl : Str → Option Str) (p : Str × Str) : Option (Str × EventRecord) :=
  match decodeMeta fl p.1 with
  | none => none
  | some st =>
    match parse p.2 with
    | none => none
    | some (v, _) =>
      match ty st.evType v with
      | none => none
      | some d => some (st.name, ⟨⟨st.aggType, st.aggId, st.evType, d⟩, st.metadata.text, st.eventId, st.ts⟩)

/-- The encoding that the adapter uses. -/
def jsonCodec (ty : Types) (fl : Str → Option Str) : Codec := ⟨jsonEnc, jsonDec ty fl, id⟩

end RangeDB.EDB

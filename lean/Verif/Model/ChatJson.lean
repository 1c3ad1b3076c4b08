import Verif.Model.Chat
import Verif.Model.JsonRecord

/-!
# Model: how the events of examples/chat are stored as JSON

The events as `json.Marshal` writes them, and what the JSON serializer makes of them when the event types are bound
(examples/chat/bind_events_gen.go, provider/jsonrecordserializer/json_record_serializer.go:74-96).
-/

namespace RangeDB.Chat

open RangeDB.Json

/-- The event types (room_events_gen.go, user_events_gen.go): the names of the structs. -/
def nRoomWasOnBoarded : Str := [82, 111, 111, 109, 87, 97, 115, 79, 110, 66, 111, 97, 114, 100, 101, 100]
def nRoomWasJoined : Str := [82, 111, 111, 109, 87, 97, 115, 74, 111, 105, 110, 101, 100]
def nMessageWasSentToRoom : Str := [77, 101, 115, 115, 97, 103, 101, 87, 97, 115, 83, 101, 110, 116, 84, 111, 82, 111, 111, 109]
def nPrivateMessageWasSentToRoom : Str := [80, 114, 105, 118, 97, 116, 101, 77, 101, 115, 115, 97, 103, 101, 87, 97, 115, 83, 101, 110, 116, 84, 111, 82, 111, 111, 109]
def nUserWasRemovedFromRoom : Str := [85, 115, 101, 114, 87, 97, 115, 82, 101, 109, 111, 118, 101, 100, 70, 114, 111, 109, 82, 111, 111, 109]
def nUserWasBannedFromRoom : Str := [85, 115, 101, 114, 87, 97, 115, 66, 97, 110, 110, 101, 100, 70, 114, 111, 109, 82, 111, 111, 109]
def nUserWasOnBoarded : Str := [85, 115, 101, 114, 87, 97, 115, 79, 110, 66, 111, 97, 114, 100, 101, 100]
def nUserWasWarned : Str := [85, 115, 101, 114, 87, 97, 115, 87, 97, 114, 110, 101, 100]

/-- The JSON names of the fields (room_events.go:5-39, user_events.go:5-13). -/
def kRoomID : Str := [114, 111, 111, 109, 73, 68]
def kUserID : Str := [117, 115, 101, 114, 73, 68]
def kRoomName : Str := [114, 111, 111, 109, 78, 97, 109, 101]
def kMessage : Str := [109, 101, 115, 115, 97, 103, 101]
def kReason : Str := [114, 101, 97, 115, 111, 110]
def kTimeout : Str := [116, 105, 109, 101, 111, 117, 116]
def kName : Str := [110, 97, 109, 101]

/-- `EventType()` (room_events_gen.go, user_events_gen.go). -/
def Ev.name : Ev → Str
  | .roomWasOnBoarded .. => nRoomWasOnBoarded
  | .roomWasJoined .. => nRoomWasJoined
  | .messageWasSentToRoom .. => nMessageWasSentToRoom
  | .privateMessageWasSentToRoom .. => nPrivateMessageWasSentToRoom
  | .userWasRemovedFromRoom .. => nUserWasRemovedFromRoom
  | .userWasBannedFromRoom .. => nUserWasBannedFromRoom
  | .userWasOnBoarded .. => nUserWasOnBoarded
  | .userWasWarned .. => nUserWasWarned

/-- `json.Marshal` of the structs (room_events.go:5-39, user_events.go:5-13). The target of a private message is called
`userID`, too (room_events.go:24). -/
def Ev.json : Ev → Json
  | .roomWasOnBoarded r u n => .obj [(kRoomID, .str r), (kUserID, .str u), (kRoomName, .str n)]
  | .roomWasJoined r u => .obj [(kRoomID, .str r), (kUserID, .str u)]
  | .messageWasSentToRoom r u m => .obj [(kRoomID, .str r), (kUserID, .str u), (kMessage, .str m)]
  | .privateMessageWasSentToRoom r u m => .obj [(kRoomID, .str r), (kUserID, .str u), (kMessage, .str m)]
  | .userWasRemovedFromRoom r u x => .obj [(kRoomID, .str r), (kUserID, .str u), (kReason, .str x)]
  | .userWasBannedFromRoom r u x t =>
    .obj [(kRoomID, .str r), (kUserID, .str u), (kReason, .str x), (kTimeout, .num (Dec.natText t))]
  | .userWasOnBoarded u n => .obj [(kUserID, .str u), (kName, .str n)]
  | .userWasWarned u x => .obj [(kUserID, .str u), (kReason, .str x)]

/-- The fields of a value that is decoded into a struct: `null` changes nothing; `none` is a type error. -/
def fields : Json → Option (List (Str × Json))
  | .obj l => some l
  | .null => some []
  | _ => none

/-- What a `string` field of a struct holds after decoding the fields `l`; `none` is a type error. -/
def strField (l : List (Str × Json)) (k : Str) : Option Str :=
  l.foldl (fun acc kv =>
    match acc with
    | none => none
    | some old =>
      if sameName kv.1 k then
        match kv.2 with
        | .str s => some s
        | .null => some old
        | _ => none
      else some old) (some [])

/-- What a `uint` field holds (64 bits). -/
def uintField (l : List (Str × Json)) (k : Str) : Option Nat :=
  l.foldl (fun acc kv =>
    match acc with
    | none => none
    | some old =>
      if sameName kv.1 k then
        match kv.2 with
        | .num t => Dec.parseUint t
        | .null => some old
        | _ => none
      else some old) (some 0)

/-- Decoding into the struct bound to event type `t` (json_record_serializer.go:88-95); `none` if there is none, or if
the value does not fit. No two fields of a struct match the same name, so each field can be read by itself. -/
def decodeEv (t : Str) (v : Json) : Option Ev :=
  match fields v with
  | none => none
  | some l =>
    if t = nRoomWasOnBoarded then
      match strField l kRoomID, strField l kUserID, strField l kRoomName with
      | some a, some b, some c => some (.roomWasOnBoarded a b c)
      | _, _, _ => none
    else if t = nRoomWasJoined then
      match strField l kRoomID, strField l kUserID with
      | some a, some b => some (.roomWasJoined a b)
      | _, _ => none
    else if t = nMessageWasSentToRoom then
      match strField l kRoomID, strField l kUserID, strField l kMessage with
      | some a, some b, some c => some (.messageWasSentToRoom a b c)
      | _, _, _ => none
    else if t = nPrivateMessageWasSentToRoom then
      match strField l kRoomID, strField l kUserID, strField l kMessage with
      | some a, some b, some c => some (.privateMessageWasSentToRoom a b c)
      | _, _, _ => none
    else if t = nUserWasRemovedFromRoom then
      match strField l kRoomID, strField l kUserID, strField l kReason with
      | some a, some b, some c => some (.userWasRemovedFromRoom a b c)
      | _, _, _ => none
    else if t = nUserWasBannedFromRoom then
      match strField l kRoomID, strField l kUserID, strField l kReason, uintField l kTimeout with
      | some a, some b, some c, some n => some (.userWasBannedFromRoom a b c n)
      | _, _, _, _ => none
    else if t = nUserWasOnBoarded then
      match strField l kUserID, strField l kName with
      | some a, some b => some (.userWasOnBoarded a b)
      | _, _ => none
    else if t = nUserWasWarned then
      match strField l kUserID, strField l kReason with
      | some a, some b => some (.userWasWarned a b)
      | _, _ => none
    else none

/-- `BindEvents` (bind_events_gen.go:8-19). -/
def boundTypes : List Str :=
  [nRoomWasOnBoarded, nRoomWasJoined, nMessageWasSentToRoom, nPrivateMessageWasSentToRoom, nUserWasRemovedFromRoom,
   nUserWasBannedFromRoom, nUserWasOnBoarded, nUserWasWarned]

/-- The event types as they are bound (json_record_serializer.go:74-96). -/
def chatTypes : Types := fun t v =>
  if t ∈ boundTypes then (decodeEv t v).map (fun e => e.json.text) else unbound t v

/-- The chat events as JSON. -/
def chatC : Codec where
  evType := Ev.name
  enc := fun e => e.json.text
  dec := fun r =>
    match parse r.data with
    | some (v, _) => decodeEv r.evType v
    | none => none

end RangeDB.Chat

import Verif.Model.Cqrs

/-!
# Model of examples/chat: the aggregates, the restricted word processor and the warnings projection
-/

namespace RangeDB.Chat

open RangeDB.Cqrs

/-- The events (room_events.go:5-39, user_events.go:5-13). -/
inductive Ev where
  | roomWasOnBoarded (room user name : Str)
  | roomWasJoined (room user : Str)
  | messageWasSentToRoom (room user message : Str)
  | privateMessageWasSentToRoom (room target message : Str)
  | userWasRemovedFromRoom (room user reason : Str)
  | userWasBannedFromRoom (room user reason : Str) (timeout : Nat)
  | userWasOnBoarded (user name : Str)
  | userWasWarned (user reason : Str)
deriving DecidableEq, Repr

/-- The aggregate type of room events and commands: "room" (room_events.go:3, room_commands.go:3). -/
def tRoom : Str := [114, 111, 111, 109]
/-- "user" (user_events.go:3, user_commands.go:3) -/
def tUser : Str := [117, 115, 101, 114]

/-- `AggregateType()` (room_events_gen.go, user_events_gen.go). -/
def Ev.aggType : Ev → Str
  | .userWasOnBoarded .. | .userWasWarned .. => tUser
  | _ => tRoom

/-- `AggregateID()` (room_events_gen.go, user_events_gen.go). -/
def Ev.aggId : Ev → Str
  | .roomWasOnBoarded r _ _ | .roomWasJoined r _ | .messageWasSentToRoom r _ _
  | .privateMessageWasSentToRoom r _ _ | .userWasRemovedFromRoom r _ _
  | .userWasBannedFromRoom r _ _ _ => r
  | .userWasOnBoarded u _ | .userWasWarned u _ => u

/-- How the events are stored and read back: what the record serializer does with the Go structs.
`dec r` is the event that `record.Data` holds (as a pointer) when record `r` is read from the store, if
any: the store must know the event types (bind_events_gen.go). -/
structure Codec where
  /-- `EventType()` -/
  evType : Ev → Str
  /-- the payload -/
  enc : Ev → Str
  /-- the Go value in `record.Data` when a record is read -/
  dec : Record → Option Ev

/-- The event as the store sees it. -/
def Codec.event (C : Codec) (e : Ev) : Event := ⟨e.aggType, e.aggId, C.evType e, C.enc e⟩

/-- The contract of the codec for the events that satisfy `good`: an event that was saved is read back
as it was. With the JSON serializer `good` must exclude strings that are not valid UTF-8. -/
def Codec.Lawful (C : Codec) (z : Serializer) (good : Ev → Prop) : Prop :=
  ∀ e st g q t, good e → C.dec (z.view (mkRecord st g q (toRecord t (C.event e)))) = some e

/-- The commands (room_commands.go:5-39, user_commands.go:5-13). -/
inductive Cmd where
  | onBoardUser (user name : Str)
  | warnUser (user reason : Str)
  | onBoardRoom (room user name : Str)
  | joinRoom (room user : Str)
  | sendMessageToRoom (room user message : Str)
  | sendPrivateMessageToRoom (room target message : Str)
  | removeUserFromRoom (room user reason : Str)
  | banUserFromRoom (room user reason : Str) (timeout : Nat)
deriving DecidableEq, Repr

/-- `CommandType()` (room_commands_gen.go, user_commands_gen.go): the name of the struct. -/
def Cmd.cmdType : Cmd → Str
  | .onBoardUser .. => [79, 110, 66, 111, 97, 114, 100, 85, 115, 101, 114]
  | .warnUser .. => [87, 97, 114, 110, 85, 115, 101, 114]
  | .onBoardRoom .. => [79, 110, 66, 111, 97, 114, 100, 82, 111, 111, 109]
  | .joinRoom .. => [74, 111, 105, 110, 82, 111, 111, 109]
  | .sendMessageToRoom .. => [83, 101, 110, 100, 77, 101, 115, 115, 97, 103, 101, 84, 111, 82, 111, 111, 109]
  | .sendPrivateMessageToRoom .. => [83, 101, 110, 100, 80, 114, 105, 118, 97, 116, 101, 77, 101, 115, 115, 97, 103, 101, 84, 111, 82, 111, 111, 109]
  | .removeUserFromRoom .. => [82, 101, 109, 111, 118, 101, 85, 115, 101, 114, 70, 114, 111, 109, 82, 111, 111, 109]
  | .banUserFromRoom .. => [66, 97, 110, 85, 115, 101, 114, 70, 114, 111, 109, 82, 111, 111, 109]

/-- `AggregateType()`, `AggregateID()`, `CommandType()` of a command (room_commands_gen.go,
user_commands_gen.go). -/
def Cmd.info (c : Cmd) : CmdInfo where
  cmdType := c.cmdType
  aggType := match c with
    | .onBoardUser .. | .warnUser .. => tUser
    | _ => tRoom
  aggId := match c with
    | .onBoardUser u _ | .warnUser u _ => u
    | .onBoardRoom r _ _ | .joinRoom r _ | .sendMessageToRoom r _ _ | .sendPrivateMessageToRoom r _ _
    | .removeUserFromRoom r _ _ | .banUserFromRoom r _ _ _ => r

/-- `roomState` (room_aggregate.go:14-18). The map `BannedUsers` is its list of keys. -/
structure RoomState where
  roomName : Str
  isOnBoarded : Bool
  bannedUsers : List Str
deriving DecidableEq, Repr

/-- `userState` (user_aggregate.go:14-17). -/
structure UserState where
  isOnBoarded : Bool
  name : Str
deriving DecidableEq, Repr

/-- The state of an aggregate object: of type `room` or `user`. -/
inductive Obj where
  | room (s : RoomState)
  | user (s : UserState)
deriving DecidableEq, Repr

/-- `apply` of `room` (room_aggregate_gen.go:21-61, room_aggregate.go:29-36, 107-110). -/
def applyRoom (s : RoomState) : Ev → RoomState
  | .roomWasOnBoarded _ _ name => { s with isOnBoarded := true, roomName := name }
  | .userWasBannedFromRoom _ u _ _ => { s with bannedUsers := u :: s.bannedUsers }
  | _ => s

/-- `apply` of `user` (user_aggregate_gen.go:21-37, user_aggregate.go:24-27, 47). -/
def applyUser (s : UserState) : Ev → UserState
  | .userWasOnBoarded _ name => { isOnBoarded := true, name := name }
  | _ => s

/-- The methods of `room` called by `Handle` (room_aggregate.go:38-106, room_aggregate_gen.go:63-102):
what they raise. -/
def handleRoom (s : RoomState) : Cmd → List Ev
  | .onBoardRoom r u n => [.roomWasOnBoarded r u n]
  | .joinRoom r u =>
    if s.isOnBoarded = false then []
    else if u ∈ s.bannedUsers then []
    else [.roomWasJoined r u]
  | .sendMessageToRoom r u m => if s.isOnBoarded = false then [] else [.messageWasSentToRoom r u m]
  | .sendPrivateMessageToRoom r u m =>
    if s.isOnBoarded = false then [] else [.privateMessageWasSentToRoom r u m]
  | .banUserFromRoom r u reason timeout => [.userWasBannedFromRoom r u reason timeout]
  | .removeUserFromRoom r u reason => [.userWasRemovedFromRoom r u reason]
  | _ => []

/-- The methods of `user` called by `Handle` (user_aggregate.go:29-45, user_aggregate_gen.go:39-54). -/
def handleUser (s : UserState) : Cmd → List Ev
  | .onBoardUser u n => if s.isOnBoarded then [] else [.userWasOnBoarded u n]
  | .warnUser u r => [.userWasWarned u r]
  | _ => []

/-- The two objects (chat.go:16-19). -/
inductive Which where
  | user
  | room
deriving DecidableEq, Repr

/-- `NewUser()`, `NewRoom()` (user_aggregate.go:20-22, room_aggregate.go:21-27). -/
def fresh : Which → Obj
  | .user => .user ⟨false, []⟩
  | .room => .room ⟨[], false, []⟩

/-- The aggregates. -/
def aggregate (C : Codec) : Which → Aggregate Obj Cmd
  | .room => {
      apply := fun o r => match o, C.dec r with
        | .room s, some e => .room (applyRoom s e)
        | o, _ => o
      handle := fun o c => match o with
        | .room s => (o, (handleRoom s c).map C.event)
        | o => (o, [])
      commandTypes := [Cmd.cmdType (.onBoardRoom [] [] []), Cmd.cmdType (.joinRoom [] []),
        Cmd.cmdType (.sendMessageToRoom [] [] []), Cmd.cmdType (.sendPrivateMessageToRoom [] [] []),
        Cmd.cmdType (.removeUserFromRoom [] [] []), Cmd.cmdType (.banUserFromRoom [] [] [] 0)] }
  | .user => {
      apply := fun o r => match o, C.dec r with
        | .user s, some e => .user (applyUser s e)
        | o, _ => o
      handle := fun o c => match o with
        | .user s => (o, (handleUser s c).map C.event)
        | o => (o, [])
      commandTypes := [Cmd.cmdType (.onBoardUser [] []), Cmd.cmdType (.warnUser [] [])] }

/-- The application of `New` (chat.go:13-21). -/
def app (C : Codec) : App Which Obj Cmd where
  objects := [.user, .room]
  aggregate := aggregate C
  fresh := fresh
  info := Cmd.info

/-! ## The restricted word processor and the warnings projection -/

/-- `strings.Contains`. -/
def contains (s sub : Str) : Bool :=
  match s with
  | [] => sub.isEmpty
  | c :: cs => sub.isPrefixOf (c :: cs) || contains cs sub

/-- `strings.ToLower` on ASCII. Go also maps upper case letters outside ASCII, which matters here only
for U+212A (KELVIN SIGN), whose lower case is the letter k: not modelled. -/
def toLower (s : Str) : Str := s.map (fun b => if 65 ≤ b ∧ b ≤ 90 then b + 32 else b)

/-- `RestrictedWords` (restricted_word_processor.go:16): "golly", "dagnabit", "gadzooks". -/
def restrictedWords : List Str :=
  [[103, 111, 108, 108, 121], [100, 97, 103, 110, 97, 98, 105, 116],
   [103, 97, 100, 122, 111, 111, 107, 115]]

/-- `containsRestrictedWord` (restricted_word_processor.go:69-79). -/
def containsRestrictedWord (m : Str) : Bool := restrictedWords.any (fun w => contains (toLower m) w)

/-- `warnThreshold` (restricted_word_processor.go:11). -/
def warnThreshold : Nat := 2

/-- "language" -/
def language : Str := [108, 97, 110, 103, 117, 97, 103, 101]
/-- "you have been warned" -/
def youHaveBeenWarned : Str :=
  [121, 111, 117, 32, 104, 97, 118, 101, 32, 98, 101, 101, 110, 32, 119, 97, 114, 110, 101, 100]

/-- `restrictedWordProcessor.Accept` (restricted_word_processor.go:31-64): the commands it dispatches, one
after the other, for a record whose data is `e`. `warnings` is `TotalWarnings`. -/
def accept (warnings : Str → Nat) : Ev → List Cmd
  | .messageWasSentToRoom r u m =>
    if containsRestrictedWord m then
      if warnings u ≥ warnThreshold then
        [.removeUserFromRoom r u language, .banUserFromRoom r u language 3600]
      else [.sendPrivateMessageToRoom r u youHaveBeenWarned, .warnUser u language]
    else []
  | _ => []

/-- `warnedUsersProjection.Accept` (warned_users_projection.go:33-41). -/
def count (warnings : Str → Nat) : Ev → Str → Nat
  | .userWasWarned u _ => fun v => if v = u then warnings v + 1 else warnings v
  | _ => warnings

end RangeDB.Chat

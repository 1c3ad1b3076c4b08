import Verif.Model.Chat
import Verif.Spec.Cqrs

/-!
# Specification of the chat example
-/

namespace RangeDB.Chat

open RangeDB.Cqrs

/-- The stream of a room. -/
def roomStream (room : Str) : Str := getStream tRoom room

/-- The stream of a user. -/
def userStream (user : Str) : Str := getStream tUser user

/-- Record `r` says that `user` was banned from the room in whose stream it is. -/
def IsBan (C : Codec) (user : Str) (r : Record) : Prop :=
  ∃ room reason timeout, C.dec r = some (.userWasBannedFromRoom room user reason timeout)

/-- Record `r` says that `user` joined the room. -/
def IsJoin (C : Codec) (user : Str) (r : Record) : Prop :=
  ∃ room, C.dec r = some (.roomWasJoined room user)

/-- Record `r` says that the room was on-boarded. -/
def IsRoomOnBoarded (C : Codec) (r : Record) : Prop :=
  ∃ room user name, C.dec r = some (.roomWasOnBoarded room user name)

/-- Record `r` says that a user was on-boarded. -/
def IsUserOnBoarded (C : Codec) (r : Record) : Prop :=
  ∃ user name, C.dec r = some (.userWasOnBoarded user name)

/-- The event a command is about. -/
def Cmd.ev : Cmd → Ev
  | .onBoardUser u n => .userWasOnBoarded u n
  | .warnUser u r => .userWasWarned u r
  | .onBoardRoom r u n => .roomWasOnBoarded r u n
  | .joinRoom r u => .roomWasJoined r u
  | .sendMessageToRoom r u m => .messageWasSentToRoom r u m
  | .sendPrivateMessageToRoom r u m => .privateMessageWasSentToRoom r u m
  | .removeUserFromRoom r u x => .userWasRemovedFromRoom r u x
  | .banUserFromRoom r u x t => .userWasBannedFromRoom r u x t

/-- The operation concerns another stream than `st`. -/
def foreign (st : Str) : Op → Prop
  | .save st' _ _ _ => st' ≠ st
  | .delete st' _ _ => st' ≠ st

/-- Items in which the chat application is the only writer of stream `st`, with events that the codec
stores faithfully. -/
def Item.Clean (z : Serializer) (good : Ev → Prop) (st : Str) : Item Cmd → Prop
  | .dispatch _ _ c => good c.ev
  | .restart _ => True
  | .other op => op.Guarded z ∧ foreign st op

end RangeDB.Chat

import Verif.Model.Chat
import Verif.Model.ChatJson
import Verif.Model.EventParser
import Verif.Model.Http
import Verif.Model.Json
import Verif.Model.JsonRecord
import Verif.Model.LevelDB
import Verif.Model.Paging
import Verif.Model.Remote
import Verif.Model.Text
import Verif.Model.Postgres
import Verif.Model.PgNotify

/-!
# The texts that the model writes as lists of bytes

Keys, prefixes, field names and messages are written as numbers in the model, so that theorems about them reduce. Each of
them is compared here with the text as it stands in /repo.
-/

namespace RangeDB

/-- The bytes of an ASCII text. -/
def bytes (s : String) : Str := s.toList.map Char.toNat

/-! Chat.lean -/

example : Chat.tRoom = bytes "room" := by decide
example : Chat.tUser = bytes "user" := by decide
example : Chat.language = bytes "language" := by decide
example : Chat.restrictedWords = ["golly", "dagnabit", "gadzooks"].map bytes := by decide
example : Chat.youHaveBeenWarned = bytes "you have been warned" := by decide

/-! EventParser.lean -/

example : Gen.kEncrypt = bytes "encrypt" := by decide
example : Gen.kSerialized = bytes "serialized" := by decide
example : Gen.vSubject = bytes "subject-id" := by decide
example : Gen.vPersonal = bytes "personal-data" := by decide
example : Gen.tString = bytes "string" := by decide
example : Gen.tDecrypted = bytes "decrypted" := by decide

/-! Http.lean -/

example : Http.tContentType = bytes "application/json" := by decide
example : Http.tInvalidContent = bytes "invalid content type\n" := by decide
example : Http.tInvalidBody = bytes "invalid json request body" := by decide
example : Http.tInvalidExpected = bytes "invalid ExpectedStreamSequenceNumber" := by decide
example : Http.tInternal = bytes "internal server error" := by decide
example : Http.tNotFound = bytes "stream not found" := by decide
example : Http.tFailedHead = bytes "{\"status\":\"Failed\",\"message\":\"" := by decide
example : Http.tFailedTail = bytes "\"}" := by decide
example : Http.tSavedHead = bytes "{\"status\":\"OK\",\"streamSequenceNumber\":" := by decide
example : Http.tDeletedHead = bytes "{\"status\":\"OK\",\"eventsDeleted\":" := by decide

/-! Json.lean -/

example : Json.nullText = bytes "null" := by decide
example : Json.trueText = bytes "true" := by decide
example : Json.falseText = bytes "false" := by decide

/-! JsonRecord.lean -/

example : Json.kStreamName = bytes "streamName" := by decide
example : Json.kAggregateType = bytes "aggregateType" := by decide
example : Json.kAggregateID = bytes "aggregateID" := by decide
example : Json.kGlobalSequenceNumber = bytes "globalSequenceNumber" := by decide
example : Json.kStreamSequenceNumber = bytes "streamSequenceNumber" := by decide
example : Json.kInsertTimestamp = bytes "insertTimestamp" := by decide
example : Json.kEventID = bytes "eventID" := by decide
example : Json.kEventType = bytes "eventType" := by decide
example : Json.kData = bytes "data" := by decide
example : Json.kMetadata = bytes "metadata" := by decide

/-! LevelDB.lean -/

example : LD.allEventsPrefix = bytes "$all$" := by decide
example : LD.streamPrefix = bytes "$s$" := by decide
example : LD.aggregateTypePrefix = bytes "$at$" := by decide
example : LD.globalSequenceNumberKey = bytes "$gsn$" := by decide

/-! Paging.lean -/

example : Pg.kItems = bytes "itemsPerPage" := by decide
example : Pg.kPrevious = bytes "previous" := by decide
example : Pg.kCurrent = bytes "current" := by decide

/-! Remote.lean -/

example : Rem.tCode = bytes "rpc error: code = " := by decide
example : Rem.tInternalDesc = bytes "Internal desc = " := by decide
example : Rem.tUnknownDesc = bytes "Unknown desc = " := by decide
example : Rem.tInvalidArgumentDesc = bytes "InvalidArgument desc = " := by decide
example : Rem.tUnableSave = bytes "unable to save to store: " := by decide
example : Rem.tUnableData = bytes "unable to read event data: " := by decide
example : Rem.tUnableMetadata = bytes "unable to read event metadata: " := by decide
example : Rem.tErrCanceled = bytes "Canceled desc = context canceled" := by decide
example : Rem.tErrUnexpected = bytes "unexpected sequence number" := by decide
example : Rem.tErrNotFound = bytes "Unknown desc = stream not found" := by decide
example : Rem.tMissingEvents = bytes "missing events" := by decide
example : Rem.tUnmatchedType = bytes "unmatched aggregate type" := by decide
example : Rem.tUnmatchedId = bytes "unmatched aggregate ID" := by decide
example : Rem.tContextCanceled = bytes "context canceled" := by decide
example : Rem.tBadUtf8 = bytes "string field contains invalid UTF-8" := by decide

/-! Text.lean -/

example : Txt.actualText = bytes "actual:" := by decide
example : Txt.marker = bytes "unexpected sequence number:" := by decide

/-! The hash of a stream name (`hash/fnv`, 32 bits, FNV-1a), at two published values. -/

example : PG.fnv32a [] = 0x811c9dc5 ∧ PG.fnv32a (bytes "a") = 0xe40c292c ∧ PG.fnv32a (bytes "foobar") = 0xbf9cf968 := by
  decide

/-! Paging.lean: the bytes that `net/url` leaves as they are, by part of a URL -/

/-- Letters, digits and the other characters that are never escaped (RFC 3986, 2.3). -/
def Unreserved (c : Nat) : Prop :=
  (48 ≤ c ∧ c ≤ 57) ∨ (65 ≤ c ∧ c ≤ 90) ∨ (97 ≤ c ∧ c ≤ 122) ∨ c ∈ bytes "-_.~"

theorem kept_in_path (c : Nat) : Pg.shouldEscape .path c = false ↔ Unreserved c ∨ c ∈ bytes "$&+,/:;=@" := by
  have e1 : bytes "-_.~" = [45, 95, 46, 126] := by decide
  have e2 : bytes "$&+,/:;=@" = [36, 38, 43, 44, 47, 58, 59, 61, 64] := by decide
  simp only [Pg.shouldEscape, Unreserved, e1, e2, Pg.isAlnum, List.mem_cons, List.not_mem_nil, or_false]
  split
  · simp_all; omega
  · split
    · simp_all
    · split
      · simp_all; omega
      · simp_all

theorem kept_in_query (c : Nat) : Pg.shouldEscape .query c = false ↔ Unreserved c := by
  have e1 : bytes "-_.~" = [45, 95, 46, 126] := by decide
  simp only [Pg.shouldEscape, Unreserved, e1, Pg.isAlnum, List.mem_cons, List.not_mem_nil, or_false]
  split
  · simp_all; omega
  · split
    · simp_all
    · split <;> simp_all

theorem kept_in_fragment (c : Nat) :
    Pg.shouldEscape .fragment c = false ↔ Unreserved c ∨ c ∈ bytes "$&+,/:;=?@" ∨ c ∈ bytes "!()*" := by
  have e1 : bytes "-_.~" = [45, 95, 46, 126] := by decide
  have e2 : bytes "$&+,/:;=?@" = [36, 38, 43, 44, 47, 58, 59, 61, 63, 64] := by decide
  have e3 : bytes "!()*" = [33, 40, 41, 42] := by decide
  simp only [Pg.shouldEscape, Unreserved, e1, e2, e3, Pg.isAlnum, List.mem_cons, List.not_mem_nil, or_false]
  split
  · simp_all; omega
  · split
    · simp_all
    · split
      · simp_all
      · simp_all
        omega

/-- Names that are one element of a path have a page (gorilla/mux cleans "." and ".." away). -/
example : ["", ".", "..", "a/b", "/.", "a", "...", "a!b"].map
      (fun n => (Pg.streamSite (fun _ _ => ⟨[], none⟩)).accepts (bytes n)) =
    [false, false, false, false, false, true, true, true] := by decide

/-- The value of a struct tag with options is the text it was made of. -/
example : (Gen.mkTag (bytes "json") (bytes "name,omitempty,string")).value = bytes "name,omitempty,string" ∧
    (Gen.mkTag (bytes "json") (bytes "name")).value = bytes "name" := by decide +kernel

/-- A key of a struct tag ends at a space: `json x:"y"` is no tag, `a:"b" c:"d"` are two. -/
example : Gen.parse some (bytes "json x:\"y\"") = .bad ∧
    Gen.parse some (bytes "a:\"b\" c:\"d\"") = .ok [Gen.mkTag (bytes "a") (bytes "b"), Gen.mkTag (bytes "c") (bytes "d")] := by
  decide +kernel

/-- The command types of the chat (room_commands_gen.go, user_commands_gen.go). -/
example : [Chat.Cmd.onBoardUser [] [], .warnUser [] [], .onBoardRoom [] [] [], .joinRoom [] [], .sendMessageToRoom [] [] [],
      .sendPrivateMessageToRoom [] [] [], .removeUserFromRoom [] [] [], .banUserFromRoom [] [] [] 0].map Chat.Cmd.cmdType =
    ["OnBoardUser", "WarnUser", "OnBoardRoom", "JoinRoom", "SendMessageToRoom", "SendPrivateMessageToRoom",
      "RemoveUserFromRoom", "BanUserFromRoom"].map bytes := by
  decide +kernel

/-- The columns of the PostgreSQL table (postgres_store.go:537-548) and the tags of `PostgresJsonRecord` (717-728). -/
example : (Pgn.columns ⟨[], [], [], 0, 0, 0, [], [], [], []⟩).map (·.1) =
    ["streamname", "aggregatetype", "aggregateid", "globalsequencenumber", "streamsequencenumber", "inserttimestamp",
      "eventid", "eventtype", "data", "metadata"].map bytes := by
  decide +kernel

/-- `escape_json` of PostgreSQL. -/
example : Pgn.quote [8, 9, 10, 12, 13, 1, 31, 32, 34, 47, 92, 127, 0xC3, 0xA4] =
    bytes "\"\\b\\t\\n\\f\\r\\u0001\\u001f \\\"/\\\\" ++ [127, 0xC3, 0xA4, 34] := by
  decide +kernel

/-- The events of the chat as `json.Marshal` writes them (room_events.go, user_events.go). -/
example : [Chat.Ev.roomWasOnBoarded [97] [98] [99], .roomWasJoined [97] [98], .messageWasSentToRoom [97] [98] [99],
      .privateMessageWasSentToRoom [97] [98] [99], .userWasRemovedFromRoom [97] [98] [99],
      .userWasBannedFromRoom [97] [98] [99] 5, .userWasOnBoarded [97] [98], .userWasWarned [97] [98]].map
        (fun e => (e.name, e.json.text)) =
    [("RoomWasOnBoarded", "{\"roomID\":\"a\",\"userID\":\"b\",\"roomName\":\"c\"}"),
     ("RoomWasJoined", "{\"roomID\":\"a\",\"userID\":\"b\"}"),
     ("MessageWasSentToRoom", "{\"roomID\":\"a\",\"userID\":\"b\",\"message\":\"c\"}"),
     ("PrivateMessageWasSentToRoom", "{\"roomID\":\"a\",\"userID\":\"b\",\"message\":\"c\"}"),
     ("UserWasRemovedFromRoom", "{\"roomID\":\"a\",\"userID\":\"b\",\"reason\":\"c\"}"),
     ("UserWasBannedFromRoom", "{\"roomID\":\"a\",\"userID\":\"b\",\"reason\":\"c\",\"timeout\":5}"),
     ("UserWasOnBoarded", "{\"userID\":\"a\",\"name\":\"b\"}"),
     ("UserWasWarned", "{\"userID\":\"a\",\"reason\":\"b\"}")].map (fun x => (bytes x.1, bytes x.2)) := by
  decide +kernel

end RangeDB

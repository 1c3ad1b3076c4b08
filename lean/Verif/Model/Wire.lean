import Verif.Base.Types
import Verif.Model.Json

/-!
# Model: the messages of the gRPC service as bytes

`pkg/grpc/rangedb.proto` and the code generated from it, `pkg/grpc/rangedbpb/rangedb.pb.go`. The encoding is the one
of protocol buffers, version 3, as `google.golang.org/protobuf` writes and reads it; the library is not on this
machine. Groups, a kind of field that no message of the service has, are read as errors here. The largest message that
is received is the default of `google.golang.org/grpc`: /repo sets no other (cmd/rangedb/main.go:125).
-/

namespace RangeDB.Wire

open Json (Valid)

/-! ## Numbers -/

/-- A number in groups of seven bits, the lowest first; at most `k` bytes. -/
def varintLoop : (k : Nat) → Nat → Str
  | 0, _ => []
  | k + 1, n => if n < 128 then [n] else (128 + n % 128) :: varintLoop k (n / 128)

/-- `protowire.AppendVarint` of a 64-bit number. -/
def varint (n : Nat) : Str := varintLoop 10 n

/-- `protowire.ConsumeVarint`: `k` bytes may still come; the tenth has one bit. -/
def readVarint : (k : Nat) → Str → Option (Nat × Str)
  | 0, _ => none
  | _ + 1, [] => none
  | k + 1, b :: bs =>
    if k = 0 ∧ 1 < b then none
    else if b < 128 then some (b, bs)
    else (readVarint k bs).map fun p => (b - 128 + 128 * p.1, p.2)

/-! ## Messages -/

/-- The kinds of fields that occur: `uint32`, `uint64`, `string`, `repeated string`, `repeated` message. -/
inductive Kind
  | num32
  | num64
  | text
  | texts
  | subs
deriving DecidableEq, Repr

/-- The fields of a message with their numbers, in order. -/
abbrev Schema := List (Nat × Kind)

/-- The content of a message by field number. A nested message is kept as its bytes. -/
structure Msg where
  num : Nat → Nat
  text : Nat → Str
  list : Nat → List Str

def Msg.empty : Msg := ⟨fun _ => 0, fun _ => [], fun _ => []⟩

def Msg.setNum (m : Msg) (f v : Nat) : Msg := { m with num := fun g => if g = f then v else m.num g }
def Msg.setText (m : Msg) (f : Nat) (s : Str) : Msg := { m with text := fun g => if g = f then s else m.text g }
def Msg.add (m : Msg) (f : Nat) (s : Str) : Msg :=
  { m with list := fun g => if g = f then m.list g ++ [s] else m.list g }

/-- A field whose value has a length. -/
def lengthField (f : Nat) (s : Str) : Str := varint (8 * f + 2) ++ (varint s.length ++ s)

/-- One field; numbers that are 0 and empty texts are left out, and a text must be UTF-8. -/
def encodeField (m : Msg) : Nat × Kind → Option Str
  | (f, .num32) => some (if m.num f = 0 then [] else varint (8 * f) ++ varint (m.num f))
  | (f, .num64) => some (if m.num f = 0 then [] else varint (8 * f) ++ varint (m.num f))
  | (f, .text) =>
    if m.text f = [] then some [] else if Valid (m.text f) then some (lengthField f (m.text f)) else none
  | (f, .texts) => if ∀ s ∈ m.list f, Valid s then some ((m.list f).flatMap (lengthField f)) else none
  | (f, .subs) => some ((m.list f).flatMap (lengthField f))

/-- `proto.Marshal`. -/
def encode (m : Msg) : Schema → Option Str
  | [] => some []
  | fk :: rest =>
    match encodeField m fk with
    | none => none
    | some b => (encode m rest).map fun bs => b ++ bs

/-- The kind of a field, when the message has it. -/
def kindOf (sch : Schema) (f : Nat) : Option Kind := (sch.find? fun x => x.1 = f).map (·.2)

/-- A number was read for field `f`. Fields that the message does not have are kept aside and not looked at. -/
def takeNum (sch : Schema) (f v : Nat) (m : Msg) : Msg :=
  match kindOf sch f with
  | some .num64 => m.setNum f v
  | some .num32 => m.setNum f (v % 2 ^ 32)
  | _ => m

/-- Bytes with a length were read for field `f`; `ok` says whether a nested message can be read. -/
def takeBytes (ok : Str → Bool) (sch : Schema) (f : Nat) (s : Str) (m : Msg) : Option Msg :=
  match kindOf sch f with
  | some .text => if Valid s then some (m.setText f s) else none
  | some .texts => if Valid s then some (m.add f s) else none
  | some .subs => if ok s then some (m.add f s) else none
  | _ => some m

/-- `proto.Unmarshal`: the loop over the fields. -/
def decodeLoop (ok : Str → Bool) (sch : Schema) : (fuel : Nat) → Str → Msg → Option Msg
  | _, [], m => some m
  | 0, _ :: _, _ => none
  | fuel + 1, b :: bs, m =>
    match readVarint 10 (b :: bs) with
    | none => none
    | some (tag, r) =>
      let f := tag / 8
      if f = 0 ∨ 2 ^ 29 ≤ f then none
      else if tag % 8 = 0 then
        match readVarint 10 r with
        | none => none
        | some (v, r') => decodeLoop ok sch fuel r' (takeNum sch f v m)
      else if tag % 8 = 2 then
        match readVarint 10 r with
        | none => none
        | some (n, r') =>
          if r'.length < n then none
          else
            match takeBytes ok sch f (r'.take n) m with
            | none => none
            | some m' => decodeLoop ok sch fuel (r'.drop n) m'
      else if tag % 8 = 1 then
        if r.length < 8 then none else decodeLoop ok sch fuel (r.drop 8) m
      else if tag % 8 = 5 then
        if r.length < 4 then none else decodeLoop ok sch fuel (r.drop 4) m
      else none

/-- `proto.Unmarshal` into a new message. -/
def decode (ok : Str → Bool) (sch : Schema) (s : Str) : Option Msg := decodeLoop ok sch s.length s .empty

/-! ## The messages of the service -/

/-- `message Event` (rangedb.proto:82-88). -/
structure PbEvent where
  aggType : Str
  aggId : Str
  evType : Str
  data : Str
  metadata : Str
deriving DecidableEq, Repr

def eventSchema : Schema := [(1, .text), (2, .text), (3, .text), (4, .text), (5, .text)]

def PbEvent.msg (e : PbEvent) : Msg :=
  { Msg.empty with
    text := fun | 1 => e.aggType | 2 => e.aggId | 3 => e.evType | 4 => e.data | 5 => e.metadata | _ => [] }

def PbEvent.ofMsg (m : Msg) : PbEvent := ⟨m.text 1, m.text 2, m.text 3, m.text 4, m.text 5⟩

def encodeEvent (e : PbEvent) : Option Str := encode e.msg eventSchema
def decodeEvent (s : Str) : Option PbEvent := (decode (fun _ => true) eventSchema s).map PbEvent.ofMsg

/-- The messages (rangedb.proto:20-101) that the methods of the service take and return;
`SaveFailureResponse` is not used. -/
inductive Message
  | eventsRequest (globalSequenceNumber : Nat)
  | eventsByStreamRequest (streamName : Str) (streamSequenceNumber : Nat)
  | eventsByAggregateTypeRequest (aggregateTypes : List Str) (globalSequenceNumber : Nat)
  | subscribeToLiveEventsRequest
  | subscribeToEventsRequest (globalSequenceNumber : Nat)
  | subscribeToEventsByAggregateTypeRequest (aggregateTypes : List Str) (globalSequenceNumber : Nat)
  | optimisticDeleteStreamRequest (expected : Nat) (streamName : Str)
  | optimisticDeleteStreamResponse (eventsDeleted : Nat)
  | optimisticSaveRequest (expected : Nat) (streamName : Str) (events : List PbEvent)
  | saveRequest (streamName : Str) (events : List PbEvent)
  | saveResponse (eventsSaved lastStreamSequenceNumber : Nat)
  | totalEventsInStreamRequest (streamName : Str)
  | totalEventsInStreamResponse (totalEvents : Nat)
  | record (r : Record)
deriving DecidableEq, Repr

/-- The type of a message, which the method tells. -/
inductive MType
  | eventsRequest | eventsByStreamRequest | eventsByAggregateTypeRequest | subscribeToLiveEventsRequest
  | subscribeToEventsRequest | subscribeToEventsByAggregateTypeRequest | optimisticDeleteStreamRequest
  | optimisticDeleteStreamResponse | optimisticSaveRequest | saveRequest | saveResponse
  | totalEventsInStreamRequest | totalEventsInStreamResponse | record
deriving DecidableEq, Repr

def Message.type : Message → MType
  | .eventsRequest _ => .eventsRequest
  | .eventsByStreamRequest _ _ => .eventsByStreamRequest
  | .eventsByAggregateTypeRequest _ _ => .eventsByAggregateTypeRequest
  | .subscribeToLiveEventsRequest => .subscribeToLiveEventsRequest
  | .subscribeToEventsRequest _ => .subscribeToEventsRequest
  | .subscribeToEventsByAggregateTypeRequest _ _ => .subscribeToEventsByAggregateTypeRequest
  | .optimisticDeleteStreamRequest _ _ => .optimisticDeleteStreamRequest
  | .optimisticDeleteStreamResponse _ => .optimisticDeleteStreamResponse
  | .optimisticSaveRequest _ _ _ => .optimisticSaveRequest
  | .saveRequest _ _ => .saveRequest
  | .saveResponse _ _ => .saveResponse
  | .totalEventsInStreamRequest _ => .totalEventsInStreamRequest
  | .totalEventsInStreamResponse _ => .totalEventsInStreamResponse
  | .record _ => .record

/-- The fields of each message (rangedb.proto:20-101). -/
def MType.schema : MType → Schema
  | .eventsRequest => [(1, .num64)]
  | .eventsByStreamRequest => [(1, .text), (2, .num64)]
  | .eventsByAggregateTypeRequest => [(1, .texts), (2, .num64)]
  | .subscribeToLiveEventsRequest => []
  | .subscribeToEventsRequest => [(1, .num64)]
  | .subscribeToEventsByAggregateTypeRequest => [(1, .texts), (2, .num64)]
  | .optimisticDeleteStreamRequest => [(1, .num64), (2, .text)]
  | .optimisticDeleteStreamResponse => [(1, .num32)]
  | .optimisticSaveRequest => [(1, .num64), (2, .text), (3, .subs)]
  | .saveRequest => [(1, .text), (2, .subs)]
  | .saveResponse => [(1, .num32), (2, .num64)]
  | .totalEventsInStreamRequest => [(1, .text)]
  | .totalEventsInStreamResponse => [(1, .num64)]
  | .record =>
    [(1, .text), (2, .text), (3, .text), (4, .num64), (5, .num64), (6, .num64), (7, .text), (8, .text), (9, .text),
     (10, .text)]

/-- The nested messages as bytes. -/
def encodeEvents : List PbEvent → Option (List Str)
  | [] => some []
  | e :: es =>
    match encodeEvent e with
    | none => none
    | some b => (encodeEvents es).map fun bs => b :: bs

def decodeEvents : List Str → Option (List PbEvent)
  | [] => some []
  | b :: bs =>
    match decodeEvent b with
    | none => none
    | some e => (decodeEvents bs).map fun es => e :: es

/-- The content by field number (rangedb.pb.go: the numbers in the struct tags). -/
def Message.msg : Message → Option Msg
  | .eventsRequest g => some { Msg.empty with num := fun | 1 => g | _ => 0 }
  | .eventsByStreamRequest s q =>
    some { Msg.empty with text := (fun | 1 => s | _ => []), num := fun | 2 => q | _ => 0 }
  | .eventsByAggregateTypeRequest ts g =>
    some { Msg.empty with list := (fun | 1 => ts | _ => []), num := fun | 2 => g | _ => 0 }
  | .subscribeToLiveEventsRequest => some Msg.empty
  | .subscribeToEventsRequest g => some { Msg.empty with num := fun | 1 => g | _ => 0 }
  | .subscribeToEventsByAggregateTypeRequest ts g =>
    some { Msg.empty with list := (fun | 1 => ts | _ => []), num := fun | 2 => g | _ => 0 }
  | .optimisticDeleteStreamRequest x s =>
    some { Msg.empty with num := (fun | 1 => x | _ => 0), text := fun | 2 => s | _ => [] }
  | .optimisticDeleteStreamResponse n => some { Msg.empty with num := fun | 1 => n | _ => 0 }
  | .optimisticSaveRequest x s es =>
    (encodeEvents es).map fun bs =>
      ⟨fun | 1 => x | _ => 0, fun | 2 => s | _ => [], fun | 3 => bs | _ => []⟩
  | .saveRequest s es =>
    (encodeEvents es).map fun bs => { Msg.empty with text := (fun | 1 => s | _ => []), list := fun | 2 => bs | _ => [] }
  | .saveResponse n q => some { Msg.empty with num := fun | 1 => n | 2 => q | _ => 0 }
  | .totalEventsInStreamRequest s => some { Msg.empty with text := fun | 1 => s | _ => [] }
  | .totalEventsInStreamResponse n => some { Msg.empty with num := fun | 1 => n | _ => 0 }
  | .record r =>
    some { Msg.empty with
      text := (fun
        | 1 => r.streamName | 2 => r.aggType | 3 => r.aggId | 7 => r.eventId | 8 => r.evType | 9 => r.data
        | 10 => r.metadata | _ => []),
      num := fun | 4 => r.gsn | 5 => r.seq | 6 => r.ts | _ => 0 }

/-- The message with this content. -/
def MType.ofMsg (m : Msg) : MType → Option Message
  | .eventsRequest => some (.eventsRequest (m.num 1))
  | .eventsByStreamRequest => some (.eventsByStreamRequest (m.text 1) (m.num 2))
  | .eventsByAggregateTypeRequest => some (.eventsByAggregateTypeRequest (m.list 1) (m.num 2))
  | .subscribeToLiveEventsRequest => some .subscribeToLiveEventsRequest
  | .subscribeToEventsRequest => some (.subscribeToEventsRequest (m.num 1))
  | .subscribeToEventsByAggregateTypeRequest => some (.subscribeToEventsByAggregateTypeRequest (m.list 1) (m.num 2))
  | .optimisticDeleteStreamRequest => some (.optimisticDeleteStreamRequest (m.num 1) (m.text 2))
  | .optimisticDeleteStreamResponse => some (.optimisticDeleteStreamResponse (m.num 1))
  | .optimisticSaveRequest =>
    (decodeEvents (m.list 3)).map fun es => .optimisticSaveRequest (m.num 1) (m.text 2) es
  | .saveRequest => (decodeEvents (m.list 2)).map fun es => .saveRequest (m.text 1) es
  | .saveResponse => some (.saveResponse (m.num 1) (m.num 2))
  | .totalEventsInStreamRequest => some (.totalEventsInStreamRequest (m.text 1))
  | .totalEventsInStreamResponse => some (.totalEventsInStreamResponse (m.num 1))
  | .record =>
    some (.record ⟨m.text 1, m.text 2, m.text 3, m.num 4, m.num 5, m.num 6, m.text 7, m.text 8, m.text 9, m.text 10⟩)

/-- `proto.Marshal`; `none`: the error for a text that is not UTF-8. -/
def marshal (x : Message) : Option Str := x.msg.bind fun m => encode m x.type.schema

/-- `proto.Unmarshal`. -/
def unmarshal (t : MType) (s : Str) : Option Message :=
  (decode (fun b => (decodeEvent b).isSome) t.schema s).bind fun m => t.ofMsg m

/-- `defaultServerMaxReceiveMessageSize`, `defaultClientMaxReceiveMessageSize`. -/
def maxSize : Nat := 4194304

/-- What arrives of a message: `none` is an error at one of the ends. -/
def transmit (x : Message) : Option Message :=
  match marshal x with
  | none => none
  | some b => if maxSize < b.length then none else unmarshal x.type b

end RangeDB.Wire

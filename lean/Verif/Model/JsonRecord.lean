import Verif.Model.Json
import Verif.Model.Iterator

/-!
# Model of provider/jsonrecordserializer/json_record_serializer.go and of the record I/O streams

`provider/jsonrecordiostream`, `provider/ndjsonrecordiostream`, `provider/msgpackrecordiostream`.

A record's `data` and `metadata` are the texts that `json.Marshal` makes of the Go values; a text that is
not JSON stands for a value that does not marshal (a channel, a function, a cycle).
-/

namespace RangeDB.Json

/-- What the Go type bound to an event type makes of a JSON value, marshalled again; `none` if the value does
not fit the type (`DecodeJsonData`, json_record_serializer.go:74-96). For an event type that is not bound the
value goes through an `interface{}` (lines 79-87), see `unbound`. -/
abbrev Types := Str → Json → Option Str

/-- No event type is bound. -/
def unbound : Types := fun _ v => some v.canon.text

/-- The names of the fields in JSON (store.go:15-24). -/
def kStreamName : Str := [115, 116, 114, 101, 97, 109, 78, 97, 109, 101]
def kAggregateType : Str := [97, 103, 103, 114, 101, 103, 97, 116, 101, 84, 121, 112, 101]
def kAggregateID : Str := [97, 103, 103, 114, 101, 103, 97, 116, 101, 73, 68]
def kGlobalSequenceNumber : Str :=
  [103, 108, 111, 98, 97, 108, 83, 101, 113, 117, 101, 110, 99, 101, 78, 117, 109, 98, 101, 114]
def kStreamSequenceNumber : Str :=
  [115, 116, 114, 101, 97, 109, 83, 101, 113, 117, 101, 110, 99, 101, 78, 117, 109, 98, 101, 114]
def kInsertTimestamp : Str := [105, 110, 115, 101, 114, 116, 84, 105, 109, 101, 115, 116, 97, 109, 112]
def kEventID : Str := [101, 118, 101, 110, 116, 73, 68]
def kEventType : Str := [101, 118, 101, 110, 116, 84, 121, 112, 101]
def kData : Str := [100, 97, 116, 97]
def kMetadata : Str := [109, 101, 116, 97, 100, 97, 116, 97]

/-- The JSON object of a record (store.go:14-25), whose data and metadata are the given values. -/
def recordJson (r : Record) (d m : Json) : Json :=
  .obj [
    (kStreamName, .str r.streamName),
    (kAggregateType, .str r.aggType),
    (kAggregateID, .str r.aggId),
    (kGlobalSequenceNumber, .num (Dec.natText r.gsn)),
    (kStreamSequenceNumber, .num (Dec.natText r.seq)),
    (kInsertTimestamp, .num (Dec.natText r.ts)),
    (kEventID, .str r.eventId),
    (kEventType, .str r.evType),
    (kData, d),
    (kMetadata, m)]

/-- `json.Marshal` of a Go value that the model holds as a text. -/
def marshalValue (s : Str) : Option Json :=
  match parse s with
  | some (v, []) => some v
  | _ => none

/-- `Serialize` (json_record_serializer.go:28-35). -/
def serialize (r : Record) : Option Str :=
  match marshalValue r.data, marshalValue r.metadata with
  | some d, some m => some (recordJson r d m).text
  | _, _ => none

/-- The letter of a field name, ignoring case (`encoding/json` matches field names case-insensitively; its
extra folding of U+017F and U+212A is not modelled). -/
def lower (c : Nat) : Nat := if btw 65 90 c then c + 32 else c

/-- Do the names match? -/
def sameName (a b : Str) : Bool := a.map lower == b.map lower

/-- A record while it is being decoded: `raw` is what `rawEvent` holds, `live` tells whether `record.Data`
still points to it (json_record_serializer.go:52-55); `bad` is a field whose type did not match. -/
structure Decoding where
  out : Record
  raw : Option Json
  live : Bool
  bad : Bool

/-- The start (json_record_serializer.go:52-55): all fields zero, `Metadata` nil. -/
def Decoding.start : Decoding := ⟨⟨[], [], [], 0, 0, 0, [], [], nullText, nullText⟩, none, true, false⟩

/-- Decoding into a `string` field: `null` leaves it alone. -/
def Decoding.setStr (st : Decoding) (v : Json) (f : Record → Str → Record) : Decoding :=
  match v with
  | .str s => { st with out := f st.out s }
  | .null => st
  | _ => { st with bad := true }

/-- Decoding into a `uint64` field. -/
def Decoding.setNum (st : Decoding) (v : Json) (f : Record → Nat → Record) : Decoding :=
  match v with
  | .num t =>
    match Dec.parseUint t with
    | some n => { st with out := f st.out n }
    | none => { st with bad := true }
  | .null => st
  | _ => { st with bad := true }

/-- Decoding into the `Data` field, an `interface{}` that holds `&rawEvent`: a value other than `null` goes
through the pointer into `rawEvent`; `null` sets the interface itself to nil, so that `rawEvent` is not
touched and no later value reaches it (`encoding/json`, `indirect` and `literalStore`). -/
def Decoding.setData (st : Decoding) (v : Json) : Decoding :=
  match v with
  | .null => { st with live := false }
  | v => if st.live then { st with raw := some v } else st

/-- One field of the object. -/
def Decoding.field (st : Decoding) (kv : Str × Json) : Decoding :=
  if sameName kv.1 kStreamName then st.setStr kv.2 (fun r s => { r with streamName := s })
  else if sameName kv.1 kAggregateType then st.setStr kv.2 (fun r s => { r with aggType := s })
  else if sameName kv.1 kAggregateID then st.setStr kv.2 (fun r s => { r with aggId := s })
  else if sameName kv.1 kGlobalSequenceNumber then st.setNum kv.2 (fun r n => { r with gsn := n })
  else if sameName kv.1 kStreamSequenceNumber then st.setNum kv.2 (fun r n => { r with seq := n })
  else if sameName kv.1 kInsertTimestamp then st.setNum kv.2 (fun r n => { r with ts := n })
  else if sameName kv.1 kEventID then st.setStr kv.2 (fun r s => { r with eventId := s })
  else if sameName kv.1 kEventType then st.setStr kv.2 (fun r s => { r with evType := s })
  else if sameName kv.1 kData then st.setData kv.2
  else if sameName kv.1 kMetadata then { st with out := { st.out with metadata := kv.2.canon.text } }
  else st

/-- `decoder.Decode(&record)` on a value (json_record_serializer.go:56): a top-level `null` changes
nothing, any other value that is not an object is an error. -/
def decodeRecord (v : Json) : Option Decoding :=
  match v with
  | .obj l =>
    let st := l.foldl Decoding.field .start
    if st.bad then none else some st
  | .null => some .start
  | _ => none

/-- The rest of `UnmarshalRecord` (json_record_serializer.go:61-68): decode `rawEvent`. An empty `rawEvent`
is the error `EOF`. -/
def finishRecord (ty : Types) (st : Decoding) : Option Record :=
  match st.raw with
  | none => none
  | some d =>
    match ty st.out.evType d with
    | none => none
    | some data => some { st.out with data := data }

/-- `UnmarshalRecord` (json_record_serializer.go:51-69) on the input that the decoder has not read yet; also
what is left of the input. -/
def unmarshalRecord (ty : Types) (s : Str) : Option (Record × Str) :=
  match parse s with
  | none => none
  | some (v, rest) =>
    match decodeRecord v with
    | none => none
    | some st => (finishRecord ty st).map (fun r => (r, rest))

/-- `Deserialize` (json_record_serializer.go:37-42). -/
def deserialize (ty : Types) (s : Str) : Option Record := (unmarshalRecord ty s).map Prod.fst

/-- The JSON serializer, with the event types bound as in `ty`. -/
def serializer (ty : Types) : Serializer := ⟨serialize, deserialize ty, id⟩

/-! ## Record I/O streams: writing -/

/-- The three record I/O streams (provider/*recordiostream). -/
inductive Format where
  | json
  | ndjson
  | msgpack
deriving DecidableEq, Repr

/-- What is written before the first record, between two records, and after the last one
(json_record_io_stream.go:30, 46, 53; ndjson_record_io_stream.go:38; msgpack_record_io_stream.go:46). -/
def Format.opening : Format → Str
  | .json => [91]
  | _ => []
def Format.between : Format → Str
  | .json => [44]
  | .ndjson => [10]
  | .msgpack => []
def Format.closing : Format → Str
  | .json => [93]
  | _ => []

/-- The loop of `Write` (json_record_io_stream.go:33-52, ndjson_record_io_stream.go:31-50,
msgpack_record_io_stream.go:34-47): what is written, and the error that is sent, if any. `saved` is
`totalSaved > 0`; `fuel` bounds the number of `Next` calls. The newline of the ndjson stream is written before
the record is marshalled, the comma of the JSON stream after. -/
def writeLoop (fm : Format) (marshal : Record → Option Str) :
    (fuel : Nat) → (saved : Bool) → RecordIterator → Str × Option Err
  | 0, _, _ => ([], none)
  | fuel + 1, saved, it =>
    match it.next with
    | (_, false) => (fm.closing, none)
    | (it', true) =>
      if it'.error ≠ none then ([], it'.error)
      else
        match it'.record with
        | none => ([], some .serialize)
        | some r =>
          match marshal r with
          | none => (if fm = .ndjson ∧ saved then fm.between else [], some .serialize)
          | some b =>
            let rest := writeLoop fm marshal fuel true it'
            ((if saved then fm.between else []) ++ (b ++ rest.1), rest.2)

/-- `Write` (json_record_io_stream.go:24-57, ndjson_record_io_stream.go:24-54,
msgpack_record_io_stream.go:28-51). Errors of the writer are ignored in the code; see
`writeTo` (Model/FaultyIo) for writers that fail. -/
def write (fm : Format) (marshal : Record → Option Str) (chan : List ResultRecord) : Str × Option Err :=
  let r := writeLoop fm marshal (chan.length + 1) false (.new chan)
  (fm.opening ++ r.1, r.2)

/-! ## Record I/O streams: reading -/

/-- A reader's result with one more record in front. -/
def Iter.cons (r : Record) (it : Iter) : Iter := ⟨r :: it.recs, it.err⟩

/-- `for decoder.More() { UnmarshalRecord }` inside an array (json_record_io_stream.go:80-95): `More` is
false at the end of the input and before a closing bracket or brace; `Decode` expects a comma before every
element but the first. `fuel` bounds the number of elements. -/
def readArray (ty : Types) : (fuel : Nat) → (first : Bool) → Str → Iter
  | 0, _, _ => ⟨[], none⟩
  | fuel + 1, first, s =>
    match skipWs s with
    | [] => ⟨[], none⟩
    | c :: r =>
      if c = 93 ∨ c = 125 then ⟨[], none⟩
      else
        match (if first then some (c :: r) else if c = 44 then some r else none) with
        | none => ⟨[], some .deserialize⟩
        | some s' =>
          match unmarshalRecord ty s' with
          | none => ⟨[], some .deserialize⟩
          | some (rec, rest) => Iter.cons rec (readArray ty fuel false rest)

/-- The same loop outside of an array (ndjson_record_io_stream.go:65-80). -/
def readTop (ty : Types) : (fuel : Nat) → Str → Iter
  | 0, _ => ⟨[], none⟩
  | fuel + 1, s =>
    match skipWs s with
    | [] => ⟨[], none⟩
    | c :: r =>
      if c = 93 ∨ c = 125 then ⟨[], none⟩
      else
        match unmarshalRecord ty (c :: r) with
        | none => ⟨[], some .deserialize⟩
        | some (rec, rest) => Iter.cons rec (readTop ty fuel rest)

/-- `Read` of the newline-delimited JSON stream (ndjson_record_io_stream.go:56-84). -/
def readNd (ty : Types) (s : Str) : Iter := readTop ty (s.length + 1) s

/-- `Read` of the JSON stream (json_record_io_stream.go:59-99). `decoder.Token()` (line 68) accepts an opening
bracket or brace, or a whole scalar value, which is skipped; after an opening brace, `Decode` fails. -/
def readJson (ty : Types) (s : Str) : Iter :=
  match skipWs s with
  | [] => ⟨[], none⟩
  | c :: r =>
    if c = 91 then readArray ty (r.length + 1) true r
    else if c = 123 then
      match skipWs r with
      | [] => ⟨[], none⟩
      | d :: _ => if d = 93 ∨ d = 125 then ⟨[], none⟩ else ⟨[], some .deserialize⟩
    else
      match parse (c :: r) with
      | none => ⟨[], some .deserialize⟩
      | some (_, rest) => readTop ty (rest.length + 1) rest

/-- The msgpack library (`github.com/vmihailenco/msgpack/v4`), which is not in /repo: `enc` encodes a record
(`MarshalRecord`, msgpack_record_serializer.go:48-69), `dec` decodes the next one (`UnmarshalRecord`,
msgpack_record_serializer.go:74-110): `.error true` is `ErrorEOF`, `.error false` another error. -/
structure Msgpack where
  enc : Record → Option Str
  dec : Str → Except Bool (Record × Str)

/-- What is assumed of the library: an encoded record is not empty and decodes, whatever follows it; there is
nothing to decode in an empty input. -/
structure Msgpack.Lawful (c : Msgpack) (good : Record → Prop) : Prop where
  roundTrip : ∀ r b rest, good r → c.enc r = some b → c.dec (b ++ rest) = .ok (r, rest)
  nonempty : ∀ r b, c.enc r = some b → b ≠ []
  eof : c.dec [] = .error true

/-- `Read` of the msgpack stream (msgpack_record_io_stream.go:53-85). -/
def readMsgpack (c : Msgpack) : (fuel : Nat) → Str → Iter
  | 0, _ => ⟨[], none⟩
  | fuel + 1, s =>
    match c.dec s with
    | .error true => ⟨[], none⟩
    | .error false => ⟨[], some .deserialize⟩
    | .ok (rec, rest) => Iter.cons rec (readMsgpack c fuel rest)

end RangeDB.Json

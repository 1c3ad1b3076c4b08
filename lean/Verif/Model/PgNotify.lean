import Verif.Model.Postgres

/-!
# Model: what PostgreSQL accepts and what it sends to the listener (provider/postgresstore/postgres_store.go)

`Model/Postgres.lean` hands rows to the listener and lets any statement fail. Here: the text that the trigger makes of a
row and how the listener reads it, and which inserts PostgreSQL refuses. PostgreSQL and lib/pq are not in /repo; modelled of
them are `row_to_json` (`escape_json` of src/backend/utils/adt/json.c), the limits of 65535 parameters of a statement, of
7999 bytes of a notification's payload (`NOTIFY_PAYLOAD_MAX_LENGTH`), of an `integer` column (`SERIAL`), and that a `TEXT`
is UTF-8 without the byte 0 (the encoding of the database is UTF8, the default).
-/

namespace RangeDB.Pgn

open RangeDB.Json

/-! ## The trigger -/

/-- How `escape_json` writes a byte. -/
def escByte (b : Nat) : Str :=
  if b = 8 then [92, 98]
  else if b = 12 then [92, 102]
  else if b = 10 then [92, 110]
  else if b = 13 then [92, 114]
  else if b = 9 then [92, 116]
  else if b = 34 then [92, 34]
  else if b = 92 then [92, 92]
  else if b < 32 then [92, 117, 48, 48, hexDigit (b / 16), hexDigit (b % 16)]
  else [b]

/-- A text between quotation marks. -/
def quote (s : Str) : Str := 34 :: (s.flatMap escByte ++ [34])

/-- The value of a column: `TEXT`, or `BIGINT` and `SERIAL`. -/
inductive Col where
  | text (s : Str)
  | num (n : Nat)

/-- A value in JSON. -/
def Col.json : Col → Str
  | .text s => quote s
  | .num n => Dec.natText n

/-- The names of the columns (postgres_store.go:537-548), which PostgreSQL turns into lower case. -/
def cStreamName : Str := [115, 116, 114, 101, 97, 109, 110, 97, 109, 101]
def cAggregateType : Str := [97, 103, 103, 114, 101, 103, 97, 116, 101, 116, 121, 112, 101]
def cAggregateID : Str := [97, 103, 103, 114, 101, 103, 97, 116, 101, 105, 100]
def cGlobalSequenceNumber : Str :=
  [103, 108, 111, 98, 97, 108, 115, 101, 113, 117, 101, 110, 99, 101, 110, 117, 109, 98, 101, 114]
def cStreamSequenceNumber : Str :=
  [115, 116, 114, 101, 97, 109, 115, 101, 113, 117, 101, 110, 99, 101, 110, 117, 109, 98, 101, 114]
def cInsertTimestamp : Str := [105, 110, 115, 101, 114, 116, 116, 105, 109, 101, 115, 116, 97, 109, 112]
def cEventID : Str := [101, 118, 101, 110, 116, 105, 100]
def cEventType : Str := [101, 118, 101, 110, 116, 116, 121, 112, 101]
def cData : Str := [100, 97, 116, 97]
def cMetadata : Str := [109, 101, 116, 97, 100, 97, 116, 97]

/-- The columns of the table in their order (postgres_store.go:537-548). -/
def columns (r : Record) : List (Str × Col) :=
  [(cStreamName, .text r.streamName),
   (cAggregateType, .text r.aggType),
   (cAggregateID, .text r.aggId),
   (cGlobalSequenceNumber, .num r.gsn),
   (cStreamSequenceNumber, .num r.seq),
   (cInsertTimestamp, .num r.ts),
   (cEventID, .text r.eventId),
   (cEventType, .text r.evType),
   (cData, .text r.data),
   (cMetadata, .text r.metadata)]

/-- The fields of an object, each followed by a comma or by the closing brace. -/
def fieldsText : List (Str × Col) → Str
  | [] => []
  | [c] => quote c.1 ++ 58 :: (c.2.json ++ [125])
  | c :: cs => quote c.1 ++ 58 :: (c.2.json ++ 44 :: fieldsText cs)

/-- `row_to_json(NEW)::text`, the payload of the notification (postgres_store.go:557-567). -/
def rowText (r : Record) : Str := 123 :: fieldsText (columns r)

/-! ## The listener -/

/-- A `PostgresJsonRecord` while it is decoded; `bad` is a field whose type did not match. -/
structure Note where
  out : Record
  bad : Bool

/-- `var jsonRecord PostgresJsonRecord` (postgres_store.go:737). -/
def Note.start : Note := ⟨⟨[], [], [], 0, 0, 0, [], [], [], []⟩, false⟩

/-- Decoding into a `string` field: `null` leaves it alone. -/
def Note.setStr (st : Note) (v : Json) (f : Record → Str → Record) : Note :=
  match v with
  | .str s => { st with out := f st.out s }
  | .null => st
  | _ => { st with bad := true }

/-- Decoding into a `uint64` field. -/
def Note.setNum (st : Note) (v : Json) (f : Record → Nat → Record) : Note :=
  match v with
  | .num t =>
    match Dec.parseUint t with
    | some n => { st with out := f st.out n }
    | none => { st with bad := true }
  | .null => st
  | _ => { st with bad := true }

/-- One field of the object: the tags of `PostgresJsonRecord` (postgres_store.go:717-728), matched without regard to
case. -/
def Note.field (st : Note) (kv : Str × Json) : Note :=
  if sameName kv.1 cStreamName then st.setStr kv.2 (fun r s => { r with streamName := s })
  else if sameName kv.1 cAggregateType then st.setStr kv.2 (fun r s => { r with aggType := s })
  else if sameName kv.1 cAggregateID then st.setStr kv.2 (fun r s => { r with aggId := s })
  else if sameName kv.1 cGlobalSequenceNumber then st.setNum kv.2 (fun r n => { r with gsn := n })
  else if sameName kv.1 cStreamSequenceNumber then st.setNum kv.2 (fun r n => { r with seq := n })
  else if sameName kv.1 cInsertTimestamp then st.setNum kv.2 (fun r n => { r with ts := n })
  else if sameName kv.1 cEventID then st.setStr kv.2 (fun r s => { r with eventId := s })
  else if sameName kv.1 cEventType then st.setStr kv.2 (fun r s => { r with evType := s })
  else if sameName kv.1 cData then st.setStr kv.2 (fun r s => { r with data := s })
  else if sameName kv.1 cMetadata then st.setStr kv.2 (fun r s => { r with metadata := s })
  else st

/-- `json.Unmarshal([]byte(n.Extra), &jsonRecord)` (postgres_store.go:738): nothing may follow the value. -/
def readNote (s : Str) : Option Record :=
  match parse s with
  | none => none
  | some (v, rest) =>
    if skipWs rest ≠ [] then none
    else
      match v with
      | .obj l =>
        let st := l.foldl Note.field .start
        if st.bad then none else some st.out
      | .null => some Note.start.out
      | _ => none

/-- `listen` (postgres_store.go:732-786): the records that it broadcasts. A nil notification, which lib/pq sends after it
has reconnected, is dereferenced (line 738). -/
def listenText (ty : Types) : List (Option Str) → List Record × PG.Listener
  | [] => ([], .listening)
  | none :: _ => ([], .panicked)
  | some s :: ns =>
    match readNote s with
    | none => ([], .stopped)
    | some p =>
      -- lines 744-752: the data
      match Rem.decodeData ty p.evType p.data with
      | none => ([], .stopped)
      | some d =>
        -- lines 754-761: any metadata but `null` is an error
        if p.metadata = nullText then
          let rest := listenText ty ns
          (⟨p.streamName, p.aggType, p.aggId, p.gsn, p.seq, p.ts, p.eventId, p.evType, d, nullText⟩ :: rest.1, rest.2)
        else ([], .stopped)

/-! ## What an insert accepts -/

/-- The texts of a row (postgres_store.go:474-484). -/
def texts (r : Record) : List Str := [r.streamName, r.aggType, r.aggId, r.eventId, r.evType, r.data, r.metadata]

/-- A `TEXT` value: UTF-8 without the byte 0. -/
def textOk (s : Str) : Bool := decide (Valid s) && !s.contains 0

/-- The numbers of a sequence, row by row. -/
def number : Nat → List Record → List Record
  | _, [] => []
  | n, r :: rs => { r with gsn := n } :: number (n + 1) rs

/-- The last number of a `SERIAL` column (postgres_store.go:541). -/
def serialMax : Nat := 2147483647

/-- `batchInsert` (postgres_store.go:465-517): the rows with their numbers, or an error, and the next number of the
sequence. There are nine parameters for a row. The triggers run when all rows have been inserted, so that a payload that is
too long wastes the numbers. -/
def insert (notify : Bool) (next : Nat) (rows : List Record) : Outcome (List Record) × Nat :=
  if 65535 < 9 * rows.length then (.err .db, next)
  else if !(rows.all fun r => (texts r).all textOk) then (.err .db, next)
  else if serialMax < next + rows.length - 1 then (.err .db, max next (serialMax + 1))
  else if notify && (number next rows).any (fun r => 8000 ≤ (rowText r).length) then (.err .db, next + rows.length)
  else (.ok (number next rows), next + rows.length)

/-- Several inserts, one after the other; what is in the table afterwards, and the next number. -/
def inserts (notify : Bool) : (next : Nat) → List (List Record) → List Record × Nat
  | next, [] => ([], next)
  | next, b :: bs =>
    match insert notify next b with
    | (.ok rs, n) => let rest := inserts notify n bs; (rs ++ rest.1, rest.2)
    | (_, n) => inserts notify n bs

end RangeDB.Pgn

import Verif.Base.Types

/-!
# Model: records in msgpack

`provider/msgpackrecordserializer`, `provider/msgpackrecordiostream`, and of the library
`github.com/vmihailenco/msgpack/v4`, which is not in /repo, what they use. The format is that of the MessagePack
specification. The library's choices are those of its source as it is known, and agree with the tests in /repo: numbers are written
in the width of their Go type (`int` and `int64` are read back as `int64`, msgpack_record_io_stream_test.go:64), and
the end of the input is reported by the error `EOF` whenever a read finds not a single byte
(msgpack_record_serializer_test.go:96).

Simplifications. Values with encodings of their own (`time.Time`, extension types) are left out. Strings of more than
a million bytes are read in pieces by the library and in one piece here.
-/

namespace RangeDB.Mp

/-- The types of numbers; `int` is `i64` and `uint` is `u64`. -/
inductive Kind where
  | f32 | f64 | u8 | u16 | u32 | u64 | i8 | i16 | i32 | i64
deriving DecidableEq, Repr

/-- A Go value as an encoder sees it. A number is given by its bits; a map or a struct by its keys and values in the
order in which they are written. -/
inductive Val where
  | nil
  | bool (b : Bool)
  | num (k : Kind) (bits : Nat)
  | str (s : Str)
  | bin (s : Str)
  | arr (vs : List Val)
  | map (fs : List (Str × Val))

/-! ## Encoding -/

/-- The first byte of a number. -/
def Kind.code : Kind → Nat
  | .f32 => 202 | .f64 => 203 | .u8 => 204 | .u16 => 205 | .u32 => 206 | .u64 => 207
  | .i8 => 208 | .i16 => 209 | .i32 => 210 | .i64 => 211

/-- How many bytes follow. -/
def Kind.width : Kind → Nat
  | .f32 => 4 | .f64 => 8 | .u8 => 1 | .u16 => 2 | .u32 => 4 | .u64 => 8
  | .i8 => 1 | .i16 => 2 | .i32 => 4 | .i64 => 8

/-- Big-endian, in `w` bytes. -/
def be : (w : Nat) → Nat → Str
  | 0, _ => []
  | w + 1, n => be w (n / 256) ++ [n % 256]

/-- The number in big-endian bytes. -/
def unbe (s : Str) : Nat := s.foldl (fun acc x => acc * 256 + x) 0

/-- The beginning of a string of `n` bytes. -/
def strLen (n : Nat) : Str :=
  if n < 32 then [160 + n] else if n < 256 then [217, n] else if n < 65536 then 218 :: be 2 n else 219 :: be 4 n

/-- The beginning of a byte slice. -/
def binLen (n : Nat) : Str :=
  if n < 256 then [196, n] else if n < 65536 then 197 :: be 2 n else 198 :: be 4 n

/-- The beginning of a slice of `n` values. -/
def arrLen (n : Nat) : Str :=
  if n < 16 then [144 + n] else if n < 65536 then 220 :: be 2 n else 221 :: be 4 n

/-- The beginning of a map or struct with `n` keys. -/
def mapLen (n : Nat) : Str :=
  if n < 16 then [128 + n] else if n < 65536 then 222 :: be 2 n else 223 :: be 4 n

mutual
/-- `Encode`. -/
def enc : Val → Str
  | .nil => [192]
  | .bool false => [194]
  | .bool true => [195]
  | .num k n => k.code :: be k.width n
  | .str s => strLen s.length ++ s
  | .bin s => binLen s.length ++ s
  | .arr vs => arrLen vs.length ++ encL vs
  | .map fs => mapLen fs.length ++ encM fs
/-- The elements of a slice. -/
def encL : List Val → Str
  | [] => []
  | v :: vs => enc v ++ encL vs
/-- The keys and values of a map. -/
def encM : List (Str × Val) → Str
  | [] => []
  | (k, v) :: fs => strLen k.length ++ k ++ enc v ++ encM fs
end

/-- A record (store.go:13-25). -/
structure Rec where
  streamName : Str
  aggType : Str
  aggId : Str
  gsn : Nat
  seq : Nat
  ts : Nat
  eventId : Str
  evType : Str
  data : Val
  metadata : Val

/-- The record without its data, by the msgpack names of its fields (store.go:14-24;
msgpack_record_serializer.go:51-52). -/
def Rec.fields (r : Rec) : List (Str × Val) :=
  [([110], .str r.streamName), ([97], .str r.aggType), ([105], .str r.aggId), ([103], .num .u64 r.gsn),
   ([115], .num .u64 r.seq), ([117], .num .u64 r.ts), ([101], .str r.eventId), ([116], .str r.evType), ([100], .nil),
   ([109], r.metadata)]

/-- `MarshalRecord` (msgpack_record_serializer.go:44-69): the record, then its data. -/
def marshal (r : Rec) : Str := enc (.map r.fields) ++ enc r.data

/-- What `Write` (msgpack_record_io_stream.go:28-51) writes for these records. (An error of the iterator ends it
without notice, C45.) -/
def writeAll : List Rec → Str
  | [] => []
  | r :: rs => marshal r ++ writeAll rs

/-! ## Decoding -/

/-- How decoding fails. -/
inductive Fault where
  /-- `EOF`: a read found no byte at all -/
  | eof
  /-- `unexpected EOF`: a read found too few bytes -/
  | torn
  /-- anything else -/
  | bad
deriving DecidableEq, Repr

/-- A decoder: what it makes of the input, and the rest. -/
abbrev R (α : Type) := Str → Except Fault (α × Str)

/-- One after the other. -/
def andThen {α β : Type} (d : R α) (k : α → R β) : R β := fun s =>
  match d s with
  | .error e => .error e
  | .ok (a, s') => k a s'

/-- Read nothing. -/
def pure {α : Type} (a : α) : R α := fun s => .ok (a, s)

/-- Fail. -/
def fail {α : Type} : R α := fun _ => .error .bad

/-- `ReadByte`. -/
def readByte : R Nat
  | [] => .error .eof
  | c :: s => .ok (c, s)

/-- `io.ReadFull`. -/
def readN (n : Nat) : R Str := fun s =>
  if n = 0 then .ok ([], s)
  else if s = [] then .error .eof
  else if s.length < n then .error .torn
  else .ok (s.take n, s.drop n)

/-- A length in `w` bytes. -/
def readLen (w : Nat) : R Nat := andThen (readN w) fun b => pure (unbe b)

/-- The length of a string with first byte `c`, if it is one. -/
def strLenR (c : Nat) : Option (R Nat) :=
  if 160 ≤ c ∧ c < 192 then some (pure (c - 160))
  else if c = 217 then some (readLen 1) else if c = 218 then some (readLen 2) else if c = 219 then some (readLen 4)
  else none

/-- The same for byte slices. -/
def binLenR (c : Nat) : Option (R Nat) :=
  if c = 196 then some (readLen 1) else if c = 197 then some (readLen 2) else if c = 198 then some (readLen 4)
  else none

/-- The same for slices. -/
def arrLenR (c : Nat) : Option (R Nat) :=
  if 144 ≤ c ∧ c < 160 then some (pure (c - 144))
  else if c = 220 then some (readLen 2) else if c = 221 then some (readLen 4) else none

/-- The same for maps. -/
def mapLenR (c : Nat) : Option (R Nat) :=
  if 128 ≤ c ∧ c < 144 then some (pure (c - 128))
  else if c = 222 then some (readLen 2) else if c = 223 then some (readLen 4) else none

/-- The type of a number with first byte `c`. -/
def kindOf (c : Nat) : Option Kind :=
  [Kind.f32, .f64, .u8, .u16, .u32, .u64, .i8, .i16, .i32, .i64].find? (fun k => k.code = c)

/-- A key: a string. -/
def decKey : R Str := andThen readByte fun c =>
  match strLenR c with
  | none => fail
  | some r => andThen r readN

/-- `n` values. -/
def decList (d : R Val) : Nat → R (List Val)
  | 0 => pure []
  | n + 1 => andThen d fun v => andThen (decList d n) fun vs => pure (v :: vs)

/-- `n` keys and values. -/
def decMap (d : R Val) : Nat → R (List (Str × Val))
  | 0 => pure []
  | n + 1 => andThen decKey fun k => andThen d fun v => andThen (decMap d n) fun fs => pure ((k, v) :: fs)

/-- The value that begins with byte `c`; `d` decodes values inside it. Bytes 0 to 127 and 224 to 255 are small
numbers, read as `int8`. -/
def decCode (d : R Val) (c : Nat) : R Val :=
  if c = 192 then pure .nil
  else if c = 194 then pure (.bool false)
  else if c = 195 then pure (.bool true)
  else if c < 128 ∨ 224 ≤ c then pure (.num .i8 c)
  else
    match kindOf c, strLenR c, binLenR c, arrLenR c, mapLenR c with
    | some k, _, _, _, _ => andThen (readN k.width) fun b => pure (.num k (unbe b))
    | none, some r, _, _, _ => andThen r fun n => andThen (readN n) fun s => pure (.str s)
    | none, none, some r, _, _ => andThen r fun n => andThen (readN n) fun s => pure (.bin s)
    | none, none, none, some r, _ => andThen r fun n => andThen (decList d n) fun vs => pure (.arr vs)
    | none, none, none, none, some r => andThen r fun n => andThen (decMap d n) fun fs => pure (.map fs)
    | none, none, none, none, none => fail

/-- `DecodeInterface`; `limit` is how deep values can be nested before the stack ends. -/
def decV : (limit : Nat) → R Val
  | 0 => fail
  | limit + 1 => andThen readByte (decCode (decV limit))

/-- A string field. -/
def asStr : Val → Option Str
  | .str s => some s
  | .bin s => some s
  | .nil => some []
  | _ => none

/-- A `uint64` field. Narrower signed numbers are widened. -/
def asUint : Val → Option Nat
  | .nil => some 0
  | .num .f32 _ => none
  | .num .f64 _ => none
  | .num .u8 n => some n
  | .num .u16 n => some n
  | .num .u32 n => some n
  | .num .u64 n => some n
  | .num k n => some (if n < 2 ^ (8 * k.width - 1) then n else 2 ^ 64 - 256 ^ k.width + n)
  | _ => none

/-- A record with no field set. -/
def Rec.zero : Rec := ⟨[], [], [], 0, 0, 0, [], [], .nil, .nil⟩

/-- Set a field; other keys are skipped. -/
def Rec.set (r : Rec) (key : Str) (v : Val) : Option Rec :=
  if key = [110] then (asStr v).map fun s => { r with streamName := s }
  else if key = [97] then (asStr v).map fun s => { r with aggType := s }
  else if key = [105] then (asStr v).map fun s => { r with aggId := s }
  else if key = [103] then (asUint v).map fun n => { r with gsn := n }
  else if key = [115] then (asUint v).map fun n => { r with seq := n }
  else if key = [117] then (asUint v).map fun n => { r with ts := n }
  else if key = [101] then (asStr v).map fun s => { r with eventId := s }
  else if key = [116] then (asStr v).map fun s => { r with evType := s }
  else if key = [100] then some { r with data := v }
  else if key = [109] then some { r with metadata := v }
  else some r

/-- The fields of a record. -/
def decFields (limit : Nat) : Nat → Rec → R Rec
  | 0, r => pure r
  | n + 1, r => andThen decKey fun k => andThen (decV limit) fun v =>
    match r.set k v with
    | none => fail
    | some r' => decFields limit n r'

/-- `decoder.Decode(&record)` (msgpack_record_serializer.go:78). An array or nil in place of the map, which
`MarshalRecord` never writes, is an error here. -/
def decHeader (limit : Nat) : R Rec := andThen readByte fun c =>
  match mapLenR c with
  | none => fail
  | some r => andThen r fun n => decFields limit n Rec.zero

/-- Event types known to the reader, each with what decoding into its struct makes of a value (`none`: an error). -/
abbrev Types := Str → Option (Val → Option Val)

/-- The data of an event of this type. -/
def Types.read (ty : Types) (evType : Str) (v : Val) : Option Val :=
  match ty evType with
  | none => some v
  | some f => f v

/-- The data (msgpack_record_serializer.go:90-107): every error is wrapped, so it is not `EOF` any more. -/
def decData (limit : Nat) (ty : Types) (r : Rec) : R Rec := fun s =>
  match decV limit s with
  | .error _ => .error .bad
  | .ok (v, s') =>
    match ty.read r.evType v with
    | none => .error .bad
    | some d => .ok ({ r with data := d }, s')

/-- `UnmarshalRecord` (msgpack_record_serializer.go:74-110). -/
def unmarshal (limit : Nat) (ty : Types) : R Rec := andThen (decHeader limit) (decData limit ty)

/-- `Read` (msgpack_record_io_stream.go:53-85): the records, and the error at the end if there is one. `EOF` of the
record proper is taken for the end of the file (lines 64-68; msgpack_record_serializer.go:81-82). -/
def readLoop (limit : Nat) (ty : Types) : (fuel : Nat) → Str → List Rec × Option Fault
  | 0, _ => ([], none)
  | fuel + 1, s =>
    match unmarshal limit ty s with
    | .error .eof => ([], none)
    | .error e => ([], some e)
    | .ok (r, s') => (r :: (readLoop limit ty fuel s').1, (readLoop limit ty fuel s').2)

/-- The same; every record takes at least one byte. -/
def readAll (limit : Nat) (ty : Types) (s : Str) : List Rec × Option Fault := readLoop limit ty (s.length + 1) s

/-! ## As a serializer of stores -/

/-- Records of the other models hold the encoded data and metadata. -/
def Rec.toRecord (r : Rec) : Record :=
  ⟨r.streamName, r.aggType, r.aggId, r.gsn, r.seq, r.ts, r.eventId, r.evType, enc r.data, enc r.metadata⟩

/-- The value with this encoding. -/
def value (limit : Nat) (s : Str) : Option Val :=
  match decV limit s with
  | .ok (v, []) => some v
  | _ => none

/-- The record with data and metadata as values. -/
def ofRecord (limit : Nat) (r : Record) : Option Rec :=
  match value limit r.data, value limit r.metadata with
  | some d, some m => some ⟨r.streamName, r.aggType, r.aggId, r.gsn, r.seq, r.ts, r.eventId, r.evType, d, m⟩
  | _, _ => none

mutual
/-- Does the value exist in Go (numbers as wide as their type, fewer than 2^32 bytes or elements) and is it not nested
too deep? -/
def Val.ok : (limit : Nat) → Val → Bool
  | 0, _ => false
  | _ + 1, .nil => true
  | _ + 1, .bool _ => true
  | _ + 1, .num k n => decide (n < 256 ^ k.width)
  | _ + 1, .str s => decide (s.length < 2 ^ 32)
  | _ + 1, .bin s => decide (s.length < 2 ^ 32)
  | limit + 1, .arr vs => decide (vs.length < 2 ^ 32) && Val.okL limit vs
  | limit + 1, .map fs => decide (fs.length < 2 ^ 32) && Val.okM limit fs
/-- All elements. -/
def Val.okL : (limit : Nat) → List Val → Bool
  | _, [] => true
  | limit, v :: vs => Val.ok limit v && Val.okL limit vs
/-- All keys and values. -/
def Val.okM : (limit : Nat) → List (Str × Val) → Bool
  | _, [] => true
  | limit, (k, v) :: fs => decide (k.length < 2 ^ 32) && Val.ok limit v && Val.okM limit fs
end

/-- The record exists in Go. -/
def Rec.ok (limit : Nat) (r : Rec) : Bool :=
  decide (r.streamName.length < 2 ^ 32) && decide (r.aggType.length < 2 ^ 32) && decide (r.aggId.length < 2 ^ 32) &&
  decide (r.gsn < 2 ^ 64) && decide (r.seq < 2 ^ 64) && decide (r.ts < 2 ^ 64) &&
  decide (r.eventId.length < 2 ^ 32) && decide (r.evType.length < 2 ^ 32) &&
  Val.ok limit r.data && Val.ok limit r.metadata

/-- `Serialize` and `Deserialize` (msgpack_record_serializer.go:30-39). -/
def serializer (limit : Nat) (ty : Types) : Serializer where
  ser r :=
    match ofRecord limit r with
    | none => none
    | some m => if m.ok limit then some (marshal m) else none
  deser s :=
    match unmarshal limit ty s with
    | .error _ => none
    | .ok (m, _) => some m.toRecord
  view r :=
    match ofRecord limit r with
    | none => r
    | some m => { r with data := enc ((ty.read r.evType m.data).getD m.data), metadata := enc m.metadata }

end RangeDB.Mp

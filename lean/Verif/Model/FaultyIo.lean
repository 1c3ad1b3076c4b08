import Verif.Model.JsonRecord
import Verif.Model.Msgpack

/-! # Model: record I/O streams over writers and readers that fail -/

namespace RangeDB.Json

/-- An `io.Writer` with state `σ`: of every slice it is given it takes some bytes, the first ones. (One that takes fewer than
all returns an error, and one that takes all may; the streams look at neither the number nor the error.) -/
structure Sink (σ : Type) where
  put : σ → Str → σ × Nat

/-- One call of `writer.Write`: the new state and the bytes that arrive. -/
def Sink.call {σ : Type} (w : Sink σ) (s : σ) (b : Str) : σ × Str := ((w.put s b).1, b.take (w.put s b).2)

/-- `_, _ = fmt.Fprint(writer, …)` of an opening, a separator or a closing (json_record_io_stream.go:30, 46, 53;
ndjson_record_io_stream.go:38): one call of `Write`, and none in a format that has no such text. -/
def Sink.text {σ : Type} (w : Sink σ) (s : σ) (b : Str) : σ × Str := if b = [] then (s, []) else w.call s b

/-- The loop of `Write` (json_record_io_stream.go:33-52, ndjson_record_io_stream.go:31-50,
msgpack_record_io_stream.go:34-47), as `writeLoop`, over a writer that may fail: what arrives, and the error that is
sent. -/
def writeLoopTo {σ : Type} (fm : Format) (marshal : Record → Option Str) (w : Sink σ) :
    (fuel : Nat) → (saved : Bool) → σ → RecordIterator → Str × Option Err
  | 0, _, _, _ => ([], none)
  | fuel + 1, saved, s, it =>
    match it.next with
    | (_, false) => ((w.text s fm.closing).2, none)
    | (it', true) =>
      if it'.error ≠ none then ([], it'.error)
      else
        match it'.record with
        | none => ([], some .serialize)
        | some r =>
          match marshal r with
          | none => (if fm = .ndjson ∧ saved then (w.text s fm.between).2 else [], some .serialize)
          | some b =>
            let sep := if saved then w.text s fm.between else (s, [])
            let rec_ := w.call sep.1 b
            let rest := writeLoopTo fm marshal w fuel true rec_.1 it'
            (sep.2 ++ (rec_.2 ++ rest.1), rest.2)

/-- `Write` (json_record_io_stream.go:24-57, ndjson_record_io_stream.go:24-54, msgpack_record_io_stream.go:28-51) over a writer
that may fail. -/
def writeTo {σ : Type} (fm : Format) (marshal : Record → Option Str) (w : Sink σ) (s : σ) (chan : List ResultRecord) :
    Str × Option Err :=
  let o := w.text s fm.opening
  let r := writeLoopTo fm marshal w (chan.length + 1) false o.1 (.new chan)
  (o.2 ++ r.1, r.2)

/-! ## Readers -/

/-- `Read` of the newline-delimited JSON stream (ndjson_record_io_stream.go:56-84) from a reader that delivers `s` and then
fails. `decoder.More()` (line 65) is false when the reader fails as it is at the end of the file: it drops the error.
`Decode` (line 66) fails in both cases, with different errors, that are not told apart here: a record is an object, complete
with its closing brace, and nothing else is read as a record without an error. -/
def readNdBroken (ty : Types) (s : Str) : Iter := readTop ty (s.length + 1) s

/-- `Read` of the JSON stream (json_record_io_stream.go:59-99), the same. `decoder.Token()` (line 68) reports the error, which
is not `io.EOF` (line 70), if there is nothing before it; a scalar value is only complete with the byte after it, or at the
end of the file. -/
def readJsonBroken (ty : Types) (s : Str) : Iter :=
  match skipWs s with
  | [] => ⟨[], some .deserialize⟩
  | c :: r =>
    if c = 91 then readArray ty (r.length + 1) true r
    else if c = 123 then
      match skipWs r with
      | [] => ⟨[], none⟩
      | d :: _ => if d = 93 ∨ d = 125 then ⟨[], none⟩ else ⟨[], some .deserialize⟩
    else
      match parse (c :: r) with
      | none => ⟨[], some .deserialize⟩
      | some (_, []) => ⟨[], some .deserialize⟩
      | some (_, rest) => readTop ty (rest.length + 1) rest

end RangeDB.Json

namespace RangeDB.Mp

/-- `Read` of the msgpack stream (msgpack_record_io_stream.go:53-85) from a reader that delivers `s` and then fails. Where the
decoder finds too few bytes it returns the error of the reader, which is not `EOF` (msgpack_record_serializer.go:79-87); it is
written as `Fault.bad` here. -/
def readLoopBroken (limit : Nat) (ty : Types) : (fuel : Nat) → Str → List Rec × Option Fault
  | 0, _ => ([], none)
  | fuel + 1, s =>
    match unmarshal limit ty s with
    | .error _ => ([], some .bad)
    | .ok (r, s') => (r :: (readLoopBroken limit ty fuel s').1, (readLoopBroken limit ty fuel s').2)

/-- The same; every record takes at least one byte. -/
def readBroken (limit : Nat) (ty : Types) (s : Str) : List Rec × Option Fault := readLoopBroken limit ty (s.length + 1) s

end RangeDB.Mp

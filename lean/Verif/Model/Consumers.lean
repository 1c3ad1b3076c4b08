import Verif.Model.Encrypted
import Verif.Model.JsonRecord

/-!
# Model: the loops that read from an iterator

Every loop of the repository over a `rangedb.RecordIterator` has the form
`for it.Next() { if it.Err() != nil {…}; use(it.Record()) }`. `Model/Iterator`, `Model/JsonRecord` and `Model/Remote` have
them for the iterators of the stores. Here the iterator is any implementation, so that the loops can also be run on the
decrypting iterator, whose `Record` can return nil after `Next` has returned true.
-/

namespace RangeDB.Use

open RangeDB.Key RangeDB.Cry RangeDB.ES

variable {ι ε α σ : Type}

/-- `rangedb.RecordIterator` (store.go:87-92). `record` yields `none` if the call panics, `some none` for nil. -/
structure It (ι ε : Type) where
  next : ι → ι × Bool
  record : ι → ι × Option (Option Record)
  err : ι → Option ε

/-- The iterator of the stores (record_iterator.go). -/
def plain : It RecordIterator Err := ⟨RecordIterator.next, fun it => (it, some it.record), RecordIterator.error⟩

/-- The iterator of the encrypted store (decrypting_record_iterator.go), with the state of the key store. -/
def decrypting (C : Codec) (K : Store σ) (enc : Encryptor) : It (World σ × DIter) RErr where
  next s := ((s.1, s.2.next.1), s.2.next.2)
  record s :=
    let r := s.2.record C K enc s.1
    ((r.1, r.2.1), r.2.2)
  err s := s.2.error

/-- What a loop's body does with what `Record` returned: go on, leave the loop, or panic. -/
inductive Body (α : Type) where
  | go (a : α)
  | stop (a : α)
  | panic
deriving DecidableEq, Repr

/-- How a loop ended: `Next` returned false, and then `Err` returns `err`; `Err` was not nil inside the loop; the body left
the loop; something panicked. -/
inductive End (α ε : Type) where
  | over (a : α) (err : Option ε)
  | seen (a : α) (e : ε)
  | stopped (a : α)
  | panicked (a : α)
deriving DecidableEq, Repr

/-- The loop. `enough` is a test before `Record` is called (store.go:150-152). `fuel` bounds the number of `Next` calls. -/
def loop (I : It ι ε) (enough : α → Bool) (body : α → Option Record → Body α) : (fuel : Nat) → ι → α → End α ε
  | 0, it, a => .over a (I.err it)
  | fuel + 1, it, a =>
    match I.next it with
    | (it, false) => .over a (I.err it)
    | (it, true) =>
      match I.err it with
      | some e => .seen a e
      | none =>
        if enough a then .stopped a
        else
          match I.record it with
          | (_, none) => .panicked a
          | (it, some r) =>
            match body a r with
            | .go a => loop I enough body fuel it a
            | .stop a => .stopped a
            | .panic => .panicked a

/-- The loop over the iterator of a store that yields `it`. -/
def overPlain (enough : α → Bool) (body : α → Option Record → Body α) (it : Iter) (a : α) : End α Err :=
  loop plain enough body (it.recs.length + 2) (.new it.results) a

/-- The loop over the iterator of an encrypted store whose parent yields `it`. -/
def overEncrypted (C : Codec) (K : Store σ) (enc : Encryptor) (enough : α → Bool) (body : α → Option Record → Body α)
    (w : World σ) (it : Iter) (a : α) : End α RErr :=
  loop (decrypting C K enc) enough body (it.recs.length + 2) (w, .new it) a

/-! ## The subscription's reads of the past -/

/-- `lastGlobalSequenceNumber` and the records that were handed to `consumeRecord`. -/
structure Sub where
  last : Nat
  out : List Record
deriving DecidableEq, Repr

/-- `writeRecord` (record_subscriber.go:141-144); it reads a field of the record, so that nil panics. `accept` is whether
`consumeRecord` returns nil. -/
def subBody (accept : Record → Bool) (s : Sub) : Option Record → Body Sub
  | none => .panic
  | some r => if accept r then .go ⟨r.gsn, s.out ++ [r]⟩ else .stop ⟨r.gsn, s.out ++ [r]⟩

/-- What `StartFrom` returned. -/
inductive Started (ε : Type) where
  | ok
  | readErr (e : ε)
  | consumerErr
  | panicked
deriving DecidableEq, Repr

/-- After `StartFrom`: the deliveries so far, the result, and whether the subscription is registered at the
broadcaster. -/
structure StartResult (ε : Type) where
  sub : Sub
  result : Started ε
  registered : Bool
deriving DecidableEq, Repr

/-- `StartFrom` (record_subscriber.go:57-75) with `writeRecords` (125-139). `read1` and `read2` are the two reads, each with
its loop: from a number on, with the state so far; the store can change in between. -/
def startFrom (read1 read2 : Nat → Sub → End Sub ε) (g : Nat) : StartResult ε :=
  match read1 g ⟨g, []⟩ with
  | .panicked s => ⟨s, .panicked, false⟩
  | .seen s e => ⟨s, .readErr e, false⟩
  | .stopped s => ⟨s, .consumerErr, false⟩
  | .over s _ =>
    match read2 (s.last + 1) s with
    | .panicked s => ⟨s, .panicked, true⟩
    | .seen s e => ⟨s, .readErr e, false⟩
    | .stopped s => ⟨s, .consumerErr, false⟩
    | .over s _ => ⟨s, .ok, true⟩

/-- A read of the past from a store. -/
def readPast (get : Nat → Iter) (accept : Record → Bool) (n : Nat) (s : Sub) : End Sub Err :=
  overPlain (fun _ => false) (subBody accept) (get n) s

/-- A read of the past from an encrypted store. -/
def readPastEncrypted (C : Codec) (K : Store σ) (enc : Encryptor) (w : World σ) (get : Nat → Iter) (accept : Record → Bool)
    (n : Nat) (s : Sub) : End Sub RErr :=
  overEncrypted C K enc (fun _ => false) (subBody accept) w (get n) s

/-! ## The gRPC server -/

/-- The body of the reading methods (server.go:89-97): `ToPbRecord` (translate.go:13-14) reads a field of the record, so that
nil panics. `send` is whether translation and `stream.Send` succeed. -/
def sendBody (send : Record → Bool) (out : List Record) : Option Record → Body (List Record)
  | none => .panic
  | some r => if send r then .go (out ++ [r]) else .stop out

/-- What becomes of a call: it ends without error, with the store's error, with another error, or the process ends,
because the gRPC library does not recover from panics of handlers. -/
inductive Reply (ε : Type) where
  | ok
  | err (e : ε)
  | failed
  | crash
deriving DecidableEq, Repr

/-- The end of the reading methods. Only `EventsByStream` (`trailing`) looks at the iterator's error after the loop
(server.go:122-124). -/
def reply (trailing : Bool) : End (List Record) ε → List Record × Reply ε
  | .over out e =>
    (out, match trailing, e with
      | true, some e => .err e
      | _, _ => .ok)
  | .seen out e => (out, .err e)
  | .stopped out => (out, .failed)
  | .panicked out => (out, .crash)

/-! ## Exports -/

/-- What an export has written, and whether it is the first record (`totalSaved > 0`). -/
structure Written where
  text : Str
  saved : Bool
deriving DecidableEq, Repr

/-- The body of `Write` (json_record_io_stream.go:39-51, ndjson_record_io_stream.go:37-49, msgpack_record_io_stream.go:40-46):
`json.Marshal` of a nil pointer is `null`; `MarshalRecord` dereferences it (msgpack_record_serializer.go:51). -/
def exportBody (fm : Json.Format) (marshal : Record → Option Str) (w : Written) (r : Option Record) : Body Written :=
  match fm, r with
  | .msgpack, none => .panic
  | _, none => .go ⟨w.text ++ (if w.saved then fm.between else []) ++ Json.nullText, true⟩
  | _, some r =>
    match marshal r with
    | none => .stop ⟨w.text ++ (if fm = .ndjson ∧ w.saved then fm.between else []), w.saved⟩
    | some b => .go ⟨w.text ++ (if w.saved then fm.between else []) ++ b, true⟩

/-- What an export wrote and how it ended: without an error, with one, or with the process, because the loop runs in a
goroutine of its own (json_record_io_stream.go:27). -/
def exported (fm : Json.Format) : End Written ε → Str × Reply ε
  | .over w _ => (fm.opening ++ w.text ++ fm.closing, .ok)
  | .seen w e => (fm.opening ++ w.text, .err e)
  | .stopped w => (fm.opening ++ w.text, .failed)
  | .panicked w => (fm.opening ++ w.text, .crash)

/-! ## Pages -/

/-- The loop of `ReadNRecords` (store.go:145-155): `cnt > totalEvents` is tested before `Record` is called. -/
def pageEnough (n : Nat) (recs : List (Option Record)) : Bool := n < recs.length + 1

/-- Line 154. -/
def pageBody (recs : List (Option Record)) (r : Option Record) : Body (List (Option Record)) := .go (recs ++ [r])

/-- The records that `ReadNRecords` returns; `none` if it panics. -/
def page : End (List (Option Record)) ε → Option (List (Option Record))
  | .over l _ => some l
  | .seen l _ => some l
  | .stopped l => some l
  | .panicked _ => none

end RangeDB.Use

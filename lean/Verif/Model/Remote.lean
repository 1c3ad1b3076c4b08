import Verif.Model.Http

/-!
# Model: the remote store and the gRPC server

`provider/remotestore/remote_store.go` (client), `pkg/grpc/rangedbserver/server.go` (server) and
`pkg/grpc/rangedbpb/translate.go`. The server's store is a parameter, as in `Model/Http.lean`.

gRPC and protobuf are not in /repo. Modelled of them: a message with a `string` field that is not UTF-8 is not sent;
the error text that a client sees is `rpc error: code = <code> desc = <text>`, where an error that the handler returns
as it is gets the code `Unknown`; records of a stream arrive in order, then the status. Not modelled: the limit on message
sizes. Broken connections, deadlines and cancellation of the client's context: for saves, in `Model/BrokenCalls`.

An `EventRecord` of the model carries the ID and the time that the server's store gives the event.
-/

namespace RangeDB.Rem

open RangeDB.Json RangeDB.Http

/-- `rpc error: code = ` -/
def tCode : Str :=
  [114, 112, 99, 32, 101, 114, 114, 111, 114, 58, 32, 99, 111, 100, 101, 32, 61, 32]

/-- `Internal desc = ` -/
def tInternalDesc : Str :=
  [73, 110, 116, 101, 114, 110, 97, 108, 32, 100, 101, 115, 99, 32, 61, 32]

/-- `Unknown desc = ` -/
def tUnknownDesc : Str :=
  [85, 110, 107, 110, 111, 119, 110, 32, 100, 101, 115, 99, 32, 61, 32]

/-- `InvalidArgument desc = ` -/
def tInvalidArgumentDesc : Str :=
  [73, 110, 118, 97, 108, 105, 100, 65, 114, 103, 117, 109, 101, 110, 116, 32, 100, 101, 115, 99, 32, 61, 32]

/-- `unable to save to store: ` -/
def tUnableSave : Str :=
  [117, 110, 97, 98, 108, 101, 32, 116, 111, 32, 115, 97, 118, 101, 32, 116, 111, 32, 115, 116, 111, 114, 101,
   58, 32]

/-- `unable to read event data: ` -/
def tUnableData : Str :=
  [117, 110, 97, 98, 108, 101, 32, 116, 111, 32, 114, 101, 97, 100, 32, 101, 118, 101, 110, 116, 32, 100, 97,
   116, 97, 58, 32]

/-- `unable to read event metadata: ` -/
def tUnableMetadata : Str :=
  [117, 110, 97, 98, 108, 101, 32, 116, 111, 32, 114, 101, 97, 100, 32, 101, 118, 101, 110, 116, 32, 109, 101,
   116, 97, 100, 97, 116, 97, 58, 32]

/-- `Canceled desc = context canceled` -/
def tErrCanceled : Str :=
  [67, 97, 110, 99, 101, 108, 101, 100, 32, 100, 101, 115, 99, 32, 61, 32, 99, 111, 110, 116, 101, 120, 116, 32,
   99, 97, 110, 99, 101, 108, 101, 100]

/-- `unexpected sequence number` -/
def tErrUnexpected : Str :=
  [117, 110, 101, 120, 112, 101, 99, 116, 101, 100, 32, 115, 101, 113, 117, 101, 110, 99, 101, 32, 110, 117,
   109, 98, 101, 114]

/-- `Unknown desc = stream not found` -/
def tErrNotFound : Str :=
  [85, 110, 107, 110, 111, 119, 110, 32, 100, 101, 115, 99, 32, 61, 32, 115, 116, 114, 101, 97, 109, 32, 110,
   111, 116, 32, 102, 111, 117, 110, 100]

/-- `missing events` -/
def tMissingEvents : Str :=
  [109, 105, 115, 115, 105, 110, 103, 32, 101, 118, 101, 110, 116, 115]

/-- `unmatched aggregate type` -/
def tUnmatchedType : Str :=
  [117, 110, 109, 97, 116, 99, 104, 101, 100, 32, 97, 103, 103, 114, 101, 103, 97, 116, 101, 32, 116, 121, 112,
   101]

/-- `unmatched aggregate ID` -/
def tUnmatchedId : Str :=
  [117, 110, 109, 97, 116, 99, 104, 101, 100, 32, 97, 103, 103, 114, 101, 103, 97, 116, 101, 32, 73, 68]

/-- `context canceled` -/
def tContextCanceled : Str :=
  [99, 111, 110, 116, 101, 120, 116, 32, 99, 97, 110, 99, 101, 108, 101, 100]

/-- `string field contains invalid UTF-8` -/
def tBadUtf8 : Str :=
  [115, 116, 114, 105, 110, 103, 32, 102, 105, 101, 108, 100, 32, 99, 111, 110, 116, 97, 105, 110, 115, 32, 105,
   110, 118, 97, 108, 105, 100, 32, 85, 84, 70, 45, 56]

/-- `strings.Contains(s, part)`. -/
def contains (s part : Str) : Bool := (Txt.cut part s).isSome

/-- The text of an error of a store. The texts of serializer and database errors are a parameter. -/
def errText (other : Err → Str) : Err → Str
  | .missingEvents => tMissingEvents
  | .unmatchedType => tUnmatchedType
  | .unmatchedId => tUnmatchedId
  | .canceled => tContextCanceled
  | .unexpected e a => Txt.unexpectedText e a
  | .notFound => Http.tNotFound
  | e => other e

/-- An error as the client of the remote store sees it: one of the errors of a store, or the error of the call, of
which only the text is left, or a failure to encode or decode. -/
inductive CErr where
  | store (e : Err)
  | rpc (text : Str)
  | codec
deriving DecidableEq, Repr

/-- A call's result on the client. -/
inductive CResult (α : Type) where
  | ok (a : α)
  | err (e : CErr)
  /-- the server does not answer, or its handler panics and takes the process down -/
  | none
deriving DecidableEq, Repr

/-- What a server handler returns: the response or the status, as the text that the client sees. -/
abbrev Reply (α : Type) := Option (Except Str α)

/-! ## Saving -/

/-- `rangedbpb.Event`. `uuid` and `now` are not sent: see above. -/
structure PbEvent where
  aggType : Str
  aggId : Str
  evType : Str
  data : Str
  metadata : Str
  uuid : Str
  now : Nat

/-- The strings of a message must be UTF-8. -/
def PbEvent.sendable (e : PbEvent) : Bool :=
  decide (Valid e.aggType) && decide (Valid e.aggId) && decide (Valid e.evType) && decide (Valid e.data) &&
    decide (Valid e.metadata)

/-- The loop of the client's `Save` and `OptimisticSave` (remote_store.go:151-184 and 214-247). -/
def clientEvents : (prevType prevId : Str) → List EventRecord → Except CErr (List PbEvent)
  | _, _, [] => .ok []
  | prevType, prevId, er :: ers =>
    if prevType ≠ [] ∧ prevType ≠ er.event.aggType then .error (.store .unmatchedType)
    else if prevId ≠ [] ∧ prevId ≠ er.event.aggId then .error (.store .unmatchedId)
    else
      match marshalValue er.event.data with
      | none => .error .codec
      | some d =>
        match marshalValue er.metadata with
        | none => .error .codec
        | some m =>
          match clientEvents er.event.aggType er.event.aggId ers with
          | .error e => .error e
          | .ok es =>
            .ok (⟨er.event.aggType, er.event.aggId, er.event.evType, d.text, m.text, er.uuid, er.now⟩ :: es)

/-- `json.Unmarshal` into an `interface{}`, marshalled again: the whole text must be one value, white space after it
is allowed; numbers become `float64`. -/
def unmarshal (fl : Str → Option Str) (s : Str) : Option Str :=
  match parse s with
  | some (v, rest) => if skipWs rest = [] then (decodeAny fl v).map Json.text else none
  | none => none

/-- The loop of the server's `Save` and `OptimisticSave` (server.go:164-193 and 219-248): the events for the store, or
the status. An empty metadata text stands for nil (lines 177, 232). The text of the JSON error is left out. -/
def serverEvents (fl : Str → Option Str) : List PbEvent → Except Str (List EventRecord)
  | [] => .ok []
  | e :: es =>
    match unmarshal fl e.data with
    | none => .error (tInvalidArgumentDesc ++ tUnableData)
    | some d =>
      match (if e.metadata = [] then some nullText else unmarshal fl e.metadata) with
      | none => .error (tInvalidArgumentDesc ++ tUnableMetadata)
      | some m =>
        match serverEvents fl es with
        | .error t => .error t
        | .ok ers => .ok (⟨⟨e.aggType, e.aggId, e.evType, d⟩, m, e.uuid, e.now⟩ :: ers)

/-- `Save` and `OptimisticSave` of the server (server.go:161-214 and 216-268). -/
def serverSave {σ : Type} (other : Err → Str) (save : σ → Str → Option Nat → List EventRecord → σ × Outcome Nat)
    (fl : Str → Option Str) (s : σ) (stream : Str) (expected : Option Nat) (es : List PbEvent) : σ × Reply Nat :=
  match serverEvents fl es with
  | .error t => (s, some (.error t))
  | .ok ers =>
    let p := save s stream expected ers
    (p.1,
      match p.2 with
      | .ok n => some (.ok n)
      | .err e => some (.error (tInternalDesc ++ (tUnableSave ++ errText other e)))
      | .panic => none
      | .blocked => none)

/-- What the client makes of a failed save (remote_store.go:194-204 and 256-262): only `OptimisticSave` looks for an
unexpected sequence number. -/
def saveError (optimistic : Bool) (text : Str) : CErr :=
  if contains text tErrCanceled then .store .canceled
  else if optimistic && contains text tErrUnexpected then
    .store (.unexpected (Txt.parseUnexpected text).1 (Txt.parseUnexpected text).2)
  else .rpc text

/-- `Save` (`expected = none`, remote_store.go:209-265) and `OptimisticSave` (remote_store.go:146-207) of the client,
together with the server. -/
def save {σ : Type} (other : Err → Str) (store : σ → Str → Option Nat → List EventRecord → σ × Outcome Nat)
    (fl : Str → Option Str) (s : σ) (stream : Str) (expected : Option Nat) (ers : List EventRecord) : σ × CResult Nat :=
  if ers.length < 1 then (s, .err (.store .missingEvents))
  else
    match clientEvents [] [] ers with
    | .error e => (s, .err e)
    | .ok es =>
      if !(decide (Valid stream) && es.all PbEvent.sendable) then (s, .err (.rpc (tCode ++ (tInternalDesc ++ tBadUtf8))))
      else
        let p := serverSave other store fl s stream expected es
        (p.1,
          match p.2 with
          | some (.ok n) => .ok n
          | some (.error t) => .err (saveError expected.isSome (tCode ++ t))
          | none => .none)

/-! ## Deleting and counting -/

/-- `OptimisticDeleteStream` of the client (remote_store.go:121-144) and the server (server.go:150-159). -/
def delete {σ : Type} (other : Err → Str) (store : σ → Str → Nat → σ × Outcome Unit) (s : σ) (stream : Str)
    (expected : Nat) : σ × CResult Unit :=
  if !decide (Valid stream) then (s, .err (.rpc (tCode ++ (tInternalDesc ++ tBadUtf8))))
  else
    let p := store s stream expected
    (p.1,
      match p.2 with
      | .ok _ => .ok ()
      | .err e =>
        let text := tCode ++ (tUnknownDesc ++ errText other e)
        .err (if contains text tErrCanceled then .store .canceled
          else if contains text tErrNotFound then .store .notFound
          else if contains text tErrUnexpected then
            .store (.unexpected (Txt.parseUnexpected text).1 (Txt.parseUnexpected text).2)
          else .rpc text)
      | .panic => .none
      | .blocked => .none)

/-- `TotalEventsInStream` of the client (remote_store.go:288-303) and the server (server.go:333-341). -/
def total {σ : Type} (other : Err → Str) (store : σ → Str → Outcome Nat) (s : σ) (stream : Str) : CResult Nat :=
  if !decide (Valid stream) then .err (.rpc (tCode ++ (tInternalDesc ++ tBadUtf8)))
  else
    match store s stream with
    | .ok n => .ok n
    | .err e =>
      let text := tCode ++ (tUnknownDesc ++ errText other e)
      .err (if contains text tErrCanceled then .store .canceled else .rpc text)
    | .panic => .none
    | .blocked => .none

/-! ## Reading -/

/-- `ToPbRecord` (translate.go:13-36). -/
def toPb (r : Record) : Option Record :=
  match marshalValue r.data, marshalValue r.metadata with
  | some d, some m => some { r with data := d.text, metadata := m.text }
  | _, _ => none

/-- The strings of the message are UTF-8. -/
def sendable (r : Record) : Bool :=
  decide (Valid r.streamName) && decide (Valid r.aggType) && decide (Valid r.aggId) && decide (Valid r.eventId) &&
    decide (Valid r.evType) && decide (Valid r.data) && decide (Valid r.metadata)

/-- `DecodeJsonData` (json_record_serializer.go:74-96) on a text: the first value of it. -/
def decodeData (ty : Types) (evType s : Str) : Option Str :=
  match parse s with
  | some (d, _) => ty evType d
  | none => none

/-- `ToRecord` (translate.go:39-69). -/
def toRecord (ty : Types) (fl : Str → Option Str) (p : Record) : Option Record :=
  match decodeData ty p.evType p.data with
  | none => none
  | some d =>
    match (if p.metadata ≠ nullText then unmarshal fl p.metadata else some nullText) with
    | none => none
    | some m => some { p with data := d, metadata := m }

/-- The loop of the server's reading methods (server.go:82-148): the records that are sent, and the status. Only
`EventsByStream` (`trailing`) looks at the iterator's error after the loop (lines 122-124). `fuel` bounds the number of
`Next` calls. -/
def serve (other : Err → Str) (trailing : Bool) : (fuel : Nat) → RecordIterator → List Record × Option Str
  | 0, _ => ([], none)
  | fuel + 1, it =>
    match it.next with
    | (it', false) =>
      ([], if trailing then it'.error.map (fun e => tUnknownDesc ++ errText other e) else none)
    | (it', true) =>
      match it'.error with
      | some e => ([], some (tUnknownDesc ++ errText other e))
      | none =>
        match it'.record with
        | none => ([], some tUnknownDesc)
        | some r =>
          match toPb r with
          | none => ([], some (tUnknownDesc ++ tBadUtf8))
          | some p =>
            if sendable p then
              let rest := serve other trailing fuel it'
              (p :: rest.1, rest.2)
            else ([], some (tInternalDesc ++ tBadUtf8))

/-- What the client reads: the records and the error. -/
structure CIter where
  recs : List Record
  err : Option CErr
deriving DecidableEq, Repr

/-- `readRecords` of the client (remote_store.go:305-347). -/
def receive (ty : Types) (fl : Str → Option Str) (status : Option Str) : List Record → CIter
  | [] =>
    ⟨[],
      match status with
      | none => none
      | some t =>
        let text := tCode ++ t
        some (if contains text tErrCanceled then .store .canceled
          else if contains text tErrNotFound then .store .notFound
          else .rpc text)⟩
  | p :: ps =>
    match toRecord ty fl p with
    | none => ⟨[], some .codec⟩
    | some r =>
      let rest := receive ty fl status ps
      ⟨r :: rest.recs, rest.err⟩

/-- The reading methods of the client and the server, when the server's store returns the iterator `it`. -/
def read (other : Err → Str) (ty : Types) (fl : Str → Option Str) (trailing : Bool) (it : Iter) : CIter :=
  let p := serve other trailing (it.results.length + 1) (.new it.results)
  receive ty fl p.2 p.1

/-- `Events` and `EventsByAggregateTypes` (remote_store.go:67-101). -/
def events (other : Err → Str) (ty : Types) (fl : Str → Option Str) (it : Iter) : CIter := read other ty fl false it

/-- `EventsByStream` (remote_store.go:103-119). -/
def eventsByStream (other : Err → Str) (ty : Types) (fl : Str → Option Str) (it : Iter) : CIter :=
  read other ty fl true it

end RangeDB.Rem

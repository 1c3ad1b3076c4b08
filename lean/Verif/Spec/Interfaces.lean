import Verif.Model.Remote
import Verif.Spec.Http

/-!
# Specification: a server that is used over HTTP and over gRPC at once

`cmd/rangedb/main.go` gives one store both an HTTP API (`pkg/rangedbapi`) and a gRPC server (`pkg/grpc/rangedbserver`).
-/

namespace RangeDB.Srv

open RangeDB.Json RangeDB.Http RangeDB.Rem

/-- A request that may change the store. `env i` is what the UUID generator and the clock of the server return for event
`i` of a posted body; over gRPC `PbEvent` carries them. -/
inductive Request where
  /-- `POST /save-events/...` -/
  | post (q : SaveRequest) (env : Nat → Str × Nat)
  /-- `POST /delete-stream/...`, with the text of its header -/
  | deletePath (stream header : Str)
  /-- the messages of `Save` and `OptimisticSave`, from any client -/
  | message (stream : Str) (expected : Option Nat) (es : List PbEvent)
  /-- `OptimisticDeleteStream` over gRPC -/
  | deleteMessage (stream : Str) (expected : Nat)

/-- The store after the request. A message whose strings are not UTF-8 is refused by protobuf. -/
def Request.handle {σ : Type} (save : σ → Str → Option Nat → List EventRecord → σ × Outcome Nat)
    (del : σ → Str → Nat → σ × Outcome Unit) (other : Err → Str) (fl : Str → Option Str) (s : σ) : Request → σ
  | .post q env => (handleSave save fl env s q).1
  | .deletePath stream header => (handleDelete del s stream header).1
  | .message stream expected es =>
    if decide (Valid stream) && es.all PbEvent.sendable then (serverSave other save fl s stream expected es).1 else s
  | .deleteMessage stream expected => (Rem.delete other del s stream expected).1

/-- The events that a request asks to save, as the server decodes them; none if it cannot. -/
def Request.events (fl : Str → Option Str) : Request → List EventRecord
  | .post q env =>
    match decodeBody fl q.body with
    | some es => toEventRecords env 0 es
    | none => []
  | .message _ _ es =>
    match serverEvents fl es with
    | .ok ers => ers
    | .error _ => []
  | _ => []

/-- The stream that a request names. -/
def Request.stream : Request → Str
  | .post q _ => q.stream
  | .deletePath st _ => st
  | .message st _ _ => st
  | .deleteMessage st _ => st

/-- What is asked of a request: every event has data, the server's UUIDs and times are sane, and the stream in the path
of a request to save is UTF-8. -/
structure Request.Given (fl : Str → Option Str) (r : Request) : Prop where
  data : ∀ er ∈ r.events fl, er.event.data ≠ nullText
  ids : ∀ er ∈ r.events fl, Valid er.uuid ∧ er.now < 2 ^ 64
  path : ∀ q env, r = .post q env → Valid q.stream

/-- Every way to read gives the records of the iterator of the store, in order and no error: the JSON and the
newline-separated JSON of the HTTP API, and the two kinds of reading methods of a gRPC client. -/
structure Agree (other : Err → Str) (fl : Str → Option Str) (it : Iter) : Prop where
  json : readJson unbound (writeEvents .json it).body = ⟨it.recs, none⟩
  ndjson : readNd unbound (writeEvents .ndjson it).body = ⟨it.recs, none⟩
  grpc : Rem.events other unbound fl it = ⟨it.recs, none⟩
  grpcStream : Rem.eventsByStream other unbound fl it = ⟨it.recs, none⟩

/-- `OptimisticDeleteStream` of the in-memory store. -/
def imDelete (s : IM.State) (st : Str) (n : Nat) : IM.State × Outcome Unit := IM.deleteStream s st n false

/-- `OptimisticDeleteStream` of the LevelDB store. -/
def ldDelete (z : Serializer) (s : LD.State) (st : Str) (n : Nat) : LD.State × Outcome Unit :=
  LD.deleteStream z s st n false

/-- The in-memory store of the server after the requests, from empty. -/
def imServe (other : Err → Str) (fl : Str → Option Str) (rs : List Request) : IM.State :=
  rs.foldl (Request.handle (imSave (serializer unbound)) imDelete other fl) IM.init

/-- The LevelDB store of the server after the requests, from empty. -/
def ldServe (other : Err → Str) (fl : Str → Option Str) (rs : List Request) : LD.State :=
  rs.foldl (Request.handle (ldSave (serializer unbound)) (ldDelete (serializer unbound)) other fl) LD.init

end RangeDB.Srv

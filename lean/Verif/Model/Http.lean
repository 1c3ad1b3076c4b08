import Verif.Model.JsonRecord
import Verif.Model.Text

/-!
# Model: the HTTP API (pkg/rangedbapi/api.go)

A handler is a function from a store and a request to a store and a response. The store is a parameter: its `Save`,
`OptimisticSave` and `OptimisticDeleteStream` as functions. Not modelled: routing of the other paths, unescaping of the
path by `gorilla/mux`, compression, request methods (the code does not look at them), base64 around msgpack.
A panic or a call that never returns gives no response (`none`).
-/

namespace RangeDB.Http

open RangeDB.Json

/-- A response: the status and the body. -/
structure Response where
  status : Nat
  body : Str
deriving DecidableEq, Repr

/-- `application/json` -/
def tContentType : Str :=
  [97, 112, 112, 108, 105, 99, 97, 116, 105, 111, 110, 47, 106, 115, 111, 110]

/-- `invalid content type\n` -/
def tInvalidContent : Str :=
  [105, 110, 118, 97, 108, 105, 100, 32, 99, 111, 110, 116, 101, 110, 116, 32, 116, 121, 112, 101, 10]

/-- `invalid json request body` -/
def tInvalidBody : Str :=
  [105, 110, 118, 97, 108, 105, 100, 32, 106, 115, 111, 110, 32, 114, 101, 113, 117, 101, 115, 116, 32, 98, 111,
  100, 121]

/-- `invalid ExpectedStreamSequenceNumber` -/
def tInvalidExpected : Str :=
  [105, 110, 118, 97, 108, 105, 100, 32, 69, 120, 112, 101, 99, 116, 101, 100, 83, 116, 114, 101, 97, 109, 83,
  101, 113, 117, 101, 110, 99, 101, 78, 117, 109, 98, 101, 114]

/-- `internal server error` -/
def tInternal : Str :=
  [105, 110, 116, 101, 114, 110, 97, 108, 32, 115, 101, 114, 118, 101, 114, 32, 101, 114, 114, 111, 114]

/-- `stream not found` -/
def tNotFound : Str :=
  [115, 116, 114, 101, 97, 109, 32, 110, 111, 116, 32, 102, 111, 117, 110, 100]

/-- `{"status":"Failed","message":"` -/
def tFailedHead : Str :=
  [123, 34, 115, 116, 97, 116, 117, 115, 34, 58, 34, 70, 97, 105, 108, 101, 100, 34, 44, 34, 109, 101, 115, 115,
  97, 103, 101, 34, 58, 34]

/-- `"}` -/
def tFailedTail : Str :=
  [34, 125]

/-- `{"status":"OK","streamSequenceNumber":` -/
def tSavedHead : Str :=
  [123, 34, 115, 116, 97, 116, 117, 115, 34, 58, 34, 79, 75, 34, 44, 34, 115, 116, 114, 101, 97, 109, 83, 101,
  113, 117, 101, 110, 99, 101, 78, 117, 109, 98, 101, 114, 34, 58]

/-- `{"status":"OK","eventsDeleted":` -/
def tDeletedHead : Str :=
  [123, 34, 115, 116, 97, 116, 117, 115, 34, 58, 34, 79, 75, 34, 44, 34, 101, 118, 101, 110, 116, 115, 68, 101,
  108, 101, 116, 101, 100, 34, 58]

/-- `writeFailedResponse` (api.go:255-258): the message is not escaped. -/
def failed (status : Nat) (message : Str) : Response := ⟨status, tFailedHead ++ (message ++ tFailedTail)⟩

mutual
/-- Do all number literals of the value satisfy `p`? -/
def allNums (p : Str → Bool) : Json → Bool
  | .num t => p t
  | .arr l => allNumss p l
  | .obj l => allNumsf p l
  | _ => true
def allNumss (p : Str → Bool) : List Json → Bool
  | [] => true
  | v :: vs => allNums p v && allNumss p vs
def allNumsf (p : Str → Bool) : List (Str × Json) → Bool
  | [] => true
  | f :: fs => allNums p f.2 && allNumsf p fs
end

/-- Decoding into an `interface{}` without `UseNumber`: number literals become `float64`. `fl t` is the text of the
literal `t` after `strconv.ParseFloat` and the encoder of `float64`, `none` if it is out of range. -/
def decodeAny (fl : Str → Option Str) (v : Json) : Option Json :=
  if allNums (fun t => (fl t).isSome) v then some (v.any (fun t => (fl t).getD t)) else none

/-- An event of the request body (api.go:261-267) while it is decoded; `bad` is a field of the wrong type. -/
structure EventIn where
  aggType : Str
  aggId : Str
  evType : Str
  data : Json
  metadata : Json
  bad : Bool

/-- The zero value. -/
def EventIn.zero : EventIn := ⟨[], [], [], .null, .null, false⟩

/-- Decoding into a `string` field. -/
def EventIn.setStr (e : EventIn) (v : Json) (f : EventIn → Str → EventIn) : EventIn :=
  match v with
  | .str s => f e s
  | .null => e
  | _ => { e with bad := true }

/-- Decoding into an `interface{}` field. -/
def EventIn.setAny (fl : Str → Option Str) (e : EventIn) (v : Json) (f : EventIn → Json → EventIn) : EventIn :=
  match decodeAny fl v with
  | some d => f e d
  | none => { e with bad := true }

/-- One field of the object. -/
def EventIn.field (fl : Str → Option Str) (e : EventIn) (kv : Str × Json) : EventIn :=
  if sameName kv.1 kAggregateType then e.setStr kv.2 (fun e s => { e with aggType := s })
  else if sameName kv.1 kAggregateID then e.setStr kv.2 (fun e s => { e with aggId := s })
  else if sameName kv.1 kEventType then e.setStr kv.2 (fun e s => { e with evType := s })
  else if sameName kv.1 kData then e.setAny fl kv.2 (fun e d => { e with data := d })
  else if sameName kv.1 kMetadata then e.setAny fl kv.2 (fun e d => { e with metadata := d })
  else e

/-- An element of the array: an object, or `null`, which leaves the zero value. -/
def decodeEvent (fl : Str → Option Str) (v : Json) : Option EventIn :=
  match v with
  | .obj l =>
    let e := l.foldl (EventIn.field fl) .zero
    if e.bad then none else some e
  | .null => some .zero
  | _ => none

/-- The elements of the array. -/
def decodeEvents (fl : Str → Option Str) : List Json → Option (List EventIn)
  | [] => some []
  | v :: vs =>
    match decodeEvent fl v with
    | none => none
    | some e =>
      match decodeEvents fl vs with
      | none => none
      | some es => some (e :: es)

/-- `json.NewDecoder(r.Body).Decode(&events)` (api.go:268-271): the first value of the body; the rest is not read. -/
def decodeBody (fl : Str → Option Str) (body : Str) : Option (List EventIn) :=
  match parse body with
  | some (.arr l, _) => decodeEvents fl l
  | some (.null, _) => some []
  | _ => none

/-- The event records that the store is given (api.go:273-279, store.go:172-195: a raw event is marshalled as its
data). `env i` is what the UUID generator and the clock return for event `i`. -/
def toEventRecords (env : Nat → Str × Nat) : (i : Nat) → List EventIn → List EventRecord
  | _, [] => []
  | i, e :: es =>
    ⟨⟨e.aggType, e.aggId, e.evType, e.data.text⟩, e.metadata.text, (env i).1, (env i).2⟩ :: toEventRecords env (i + 1) es

/-- A request to save events. A header that is absent is the empty string (`Header.Get`). -/
structure SaveRequest where
  contentType : Str
  expected : Str
  stream : Str
  body : Str

/-- `saveEvents` up to the call of the store (api.go:211-238): the response if it ends before that, else what the
store is called with (`none`: `Save`, `some n`: `OptimisticSave`). -/
def prepareSave (fl : Str → Option Str) (env : Nat → Str × Nat) (r : SaveRequest) :
    Except Response (Option Nat × List EventRecord) :=
  if r.contentType ≠ tContentType then .error ⟨400, tInvalidContent⟩
  else
    match decodeBody fl r.body with
    | none => .error (failed 400 tInvalidBody)
    | some es =>
      let ers := toEventRecords env 0 es
      if r.expected ≠ [] then
        match Dec.parseUint r.expected with
        | none => .error (failed 400 tInvalidExpected)
        | some n => .ok (some n, ers)
      else .ok (none, ers)

/-- The response to what the store returned (api.go:240-252). -/
def saveReply : Outcome Nat → Option Response
  | .ok n => some ⟨201, tSavedHead ++ (Dec.natText n ++ [125])⟩
  | .err (.unexpected e a) => some (failed 409 (Txt.unexpectedText e a))
  | .err _ => some (failed 500 tInternal)
  | .panic => none
  | .blocked => none

/-- `saveEvents` (api.go:210-253). -/
def handleSave {σ : Type} (save : σ → Str → Option Nat → List EventRecord → σ × Outcome Nat) (fl : Str → Option Str)
    (env : Nat → Str × Nat) (s : σ) (r : SaveRequest) : σ × Option Response :=
  match prepareSave fl env r with
  | .error resp => (s, some resp)
  | .ok (expected, ers) =>
    let p := save s r.stream expected ers
    (p.1, saveReply p.2)

/-- `expectedStreamSequenceNumberFromRequest` (api.go:352-364). -/
def expectedFromRequest (header : Str) : Option Nat :=
  if header ≠ [] then Dec.parseUint header else some 0

/-- `deleteStream` (api.go:176-208). -/
def handleDelete {σ : Type} (del : σ → Str → Nat → σ × Outcome Unit) (s : σ) (stream header : Str) :
    σ × Option Response :=
  match expectedFromRequest header with
  | none => (s, some (failed 400 tInvalidExpected))
  | some n =>
    let p := del s stream n
    (p.1,
      match p.2 with
      | .ok _ => some ⟨200, tDeletedHead ++ (Dec.natText n ++ [125])⟩
      | .err (.unexpected e a) => some (failed 409 (Txt.unexpectedText e a))
      | .err .notFound => some (failed 404 tNotFound)
      | .err _ => some (failed 500 tInternal)
      | .panic => none
      | .blocked => none)

/-- `writeEvents` (api.go:318-338) for `.json` and `.ndjson`: the status is 200 whatever happens, the error of `Write`
is dropped. -/
def writeEvents (fm : Format) (it : Iter) : Response := ⟨200, (write fm serialize it.results).1⟩

/-! ## Routing of `/events-by-aggregate-type/` -/

/-- A byte of the character class `[a-zA-Z-,]` (api.go:104). -/
def typeByte (c : Nat) : Bool := btw 97 122 c || btw 65 90 c || c = 45 || c = 44

/-- The aggregate types that a request for `/events-by-aggregate-type/` followed by `name` and `.json` asks for
(api.go:104, 166-171); `none`: the path does not match the route, 404. -/
def typesOfPath (name : Str) : Option (List Str) :=
  if name ≠ [] ∧ name.all typeByte then some (Txt.split [44] name) else none

end RangeDB.Http

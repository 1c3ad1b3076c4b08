import Verif.Model.Http
import Verif.Model.InMemory
import Verif.Model.LevelDB
import Verif.Spec.Json

/-!
# Specification: what a client of the HTTP API sends and gets
-/

namespace RangeDB.Http

open RangeDB.Json

def kStatus : Str := [115, 116, 97, 116, 117, 115]
def kMessage : Str := [109, 101, 115, 115, 97, 103, 101]
def kEventsDeleted : Str := [101, 118, 101, 110, 116, 115, 68, 101, 108, 101, 116, 101, 100]
def tOK : Str := [79, 75]
def tFailed : Str := [70, 97, 105, 108, 101, 100]

/-- `{"status":"OK","streamSequenceNumber":n}` -/
def okSaved (n : Nat) : Json := .obj [(kStatus, .str tOK), (kStreamSequenceNumber, .num (Dec.natText n))]

/-- `{"status":"OK","eventsDeleted":n}` -/
def okDeleted (n : Nat) : Json := .obj [(kStatus, .str tOK), (kEventsDeleted, .num (Dec.natText n))]

/-- `{"status":"Failed","message":message}` -/
def notOk (message : Str) : Json := .obj [(kStatus, .str tFailed), (kMessage, .str message)]

/-- The body is this JSON value and nothing else. -/
def Response.Is (r : Response) (v : Json) : Prop := parse r.body = some (v, [])

/-- An event that a client sends. -/
structure Sent where
  aggType : Str
  aggId : Str
  evType : Str
  data : Json
  metadata : Json

/-- Its JSON object. -/
def Sent.json (e : Sent) : Json :=
  .obj [(kAggregateType, .str e.aggType), (kAggregateID, .str e.aggId), (kEventType, .str e.evType), (kData, e.data),
    (kMetadata, e.metadata)]

/-- The body of the request. -/
def bodyOf (es : List Sent) : Str := (Json.arr (es.map Sent.json)).text

/-- Every number literal of the value survives `float64`: it is printed as it was read. -/
def Exact (fl : Str → Option Str) (v : Json) : Prop := allNums (fun t => fl t == some t) v = true

/-- What a client must respect for its events to come back as they were sent. -/
structure Sent.Good (fl : Str → Option Str) (e : Sent) : Prop where
  aggType : Valid e.aggType
  aggId : Valid e.aggId
  evType : Valid e.evType
  data : e.data.WF
  notNull : e.data ≠ .null
  metadata : e.metadata.WF
  exactData : Exact fl e.data
  exactMetadata : Exact fl e.metadata

/-- The events that the server is to save for it, with the given IDs and times. -/
def sentRecords (env : Nat → Str × Nat) : (i : Nat) → List Sent → List EventRecord
  | _, [] => []
  | i, e :: es =>
    ⟨⟨e.aggType, e.aggId, e.evType, e.data.canon.text⟩, e.metadata.canon.text, (env i).1, (env i).2⟩ ::
      sentRecords env (i + 1) es

/-- What is assumed of `strconv.ParseFloat` and of printing a `float64`: it gives number literals, integers up to
2^53 are exact, and 2^53 + 1 is not. -/
structure FloatLaw (fl : Str → Option Str) : Prop where
  literal : ∀ t u, fl t = some u → scanNum u = some (u, [])
  exact : ∀ n, n ≤ 2 ^ 53 → fl (Dec.natText n) = some (Dec.natText n)
  rounds : fl (Dec.natText (2 ^ 53 + 1)) = some (Dec.natText (2 ^ 53))

/-- `Save` and `OptimisticSave` of the in-memory store. -/
def imSave (z : Serializer) (s : IM.State) (st : Str) (expected : Option Nat) (ers : List EventRecord) :
    IM.State × Outcome Nat :=
  ((IM.saveEvents z s st expected none ers).state, (IM.saveEvents z s st expected none ers).out)

/-- `Save` and `OptimisticSave` of the LevelDB store. -/
def ldSave (z : Serializer) (s : LD.State) (st : Str) (expected : Option Nat) (ers : List EventRecord) :
    LD.State × Outcome Nat :=
  ((LD.saveEvents z s st expected none ers).state, (LD.saveEvents z s st expected none ers).out)

end RangeDB.Http

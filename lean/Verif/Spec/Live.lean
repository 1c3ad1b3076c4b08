import Verif.Model.Live
import Verif.Spec.Interfaces

/-!
# Specification: what the live subscribers of a server are told
-/

namespace RangeDB.Srv

open RangeDB.Json RangeDB.Http RangeDB.Rem

/-- A store that keeps a list of the records it has handed to its subscribers: `Save` and `OptimisticSave`, in memory. -/
def imTell (z : Serializer) (s : IM.State × List Record) (st : Str) (expected : Option Nat) (ers : List EventRecord) :
    (IM.State × List Record) × Outcome Nat :=
  let r := IM.saveEvents z s.1 st expected none ers
  ((r.state, s.2 ++ r.broadcast), r.out)

/-- The same for LevelDB. -/
def ldTell (z : Serializer) (s : LD.State × List Record) (st : Str) (expected : Option Nat) (ers : List EventRecord) :
    (LD.State × List Record) × Outcome Nat :=
  let r := LD.saveEvents z s.1 st expected none ers
  ((r.state, s.2 ++ r.broadcast), r.out)

/-- A delete hands nothing to the subscribers. -/
def quietly {σ : Type} (del : σ → Str → Nat → σ × Outcome Unit) (s : σ × List Record) (st : Str) (n : Nat) :
    (σ × List Record) × Outcome Unit :=
  (((del s.1 st n).1, s.2), (del s.1 st n).2)

/-- The in-memory store of the server and all that its subscribers were told, after one more request. -/
def imTold (other : Err → Str) (fl : Str → Option Str) (s : IM.State × List Record) (r : Request) : IM.State × List Record :=
  r.handle (imTell (serializer unbound)) (quietly imDelete) other fl s

/-- The same for LevelDB. -/
def ldTold (other : Err → Str) (fl : Str → Option Str) (s : LD.State × List Record) (r : Request) : LD.State × List Record :=
  r.handle (ldTell (serializer unbound)) (quietly (ldDelete (serializer unbound))) other fl s

/-- Is it a request to save? -/
def Request.saves : Request → Bool
  | .post .. => true
  | .message .. => true
  | _ => false

/-- The server answers a request to save with success. -/
def Request.Accepted {σ : Type} (save : σ → Str → Option Nat → List EventRecord → σ × Outcome Nat) (other : Err → Str)
    (fl : Str → Option Str) (s : σ) : Request → Prop
  | .post q env => ∃ resp, (handleSave save fl env s q).2 = some resp ∧ resp.status = 201
  | .message st expected es => Valid st ∧ es.all PbEvent.sendable = true ∧
    ∃ k, (serverSave other save fl s st expected es).2 = some (.ok k)
  | _ => False

/-- A subscriber over a WebSocket and a subscriber over gRPC are both sent a message that they decode to this record. -/
structure Shown (fl : Str → Option Str) (r : Record) : Prop where
  ws : ∃ t, wsMessage r = some t ∧ deserialize unbound t = some r
  grpc : ∃ p, grpcMessage r = some p ∧ toRecord unbound fl p = some r

end RangeDB.Srv

import Verif.Model.Remote

/-!
# Model: the counts in the replies of the gRPC server

`pkg/grpc/rangedbserver/server.go:150-268`. `Model/Remote.lean` leaves these fields out, because the client of the remote store does
not look at them; other gRPC clients do (rangedbtest/cmd/random-data/main.go:55).
-/

namespace RangeDB.Rem

/-- Go's conversion to `uint32`. -/
def uint32 (n : Nat) : Nat := n % 2 ^ 32

/-- `rangedbpb.SaveResponse` -/
structure SaveResponse where
  eventsSaved : Nat
  last : Nat
deriving DecidableEq, Repr

/-- `Save` and `OptimisticSave` of the server (server.go:161-214 and 216-268), with the whole response (lines 210-213 and
264-267). -/
def replySave {σ : Type} (other : Err → Str) (save : σ → Str → Option Nat → List EventRecord → σ × Outcome Nat)
    (fl : Str → Option Str) (s : σ) (stream : Str) (expected : Option Nat) (es : List PbEvent) : σ × Reply SaveResponse :=
  match serverEvents fl es with
  | .error t => (s, some (.error t))
  | .ok ers =>
    let p := save s stream expected ers
    (p.1,
      match p.2 with
      | .ok n => some (.ok ⟨uint32 ers.length, n⟩)
      | .err e => some (.error (tInternalDesc ++ (tUnableSave ++ errText other e)))
      | .panic => none
      | .blocked => none)

/-- `OptimisticDeleteStream` of the server (server.go:150-159), with the response: it returns the number of the request. -/
def replyDelete {σ : Type} (other : Err → Str) (delete : σ → Str → Nat → σ × Outcome Unit) (s : σ) (stream : Str)
    (expected : Nat) : σ × Reply Nat :=
  let p := delete s stream expected
  (p.1,
    match p.2 with
    | .ok _ => some (.ok (uint32 expected))
    | .err e => some (.error (tUnknownDesc ++ errText other e))
    | .panic => none
    | .blocked => none)

end RangeDB.Rem

import Verif.Model.Postgres

/-!
# Model: the contexts of the calls of the PostgreSQL store

`BeginTx(ctx, nil)` (postgres_store.go:226, 276) ties the transaction to the context of the call: when the context is
cancelled, `database/sql` rolls the transaction back and takes its connection back, also after the call has returned. The
HTTP and gRPC libraries cancel the context of a request when its handler has returned (the handlers of rangedbserver/server.go
and rangedb_api.go pass it on; `OptimisticDeleteStream` is called at server.go:151). None of these libraries is in /repo. A
context that is cancelled while the call runs is, for the call, a statement that fails (`Move.fail`), and a cancellation after
its return.
-/

namespace RangeDB.PG

/-- The store, and for every client the number of transactions that its calls have neither committed nor rolled back when
they returned. -/
structure CState where
  s : State
  left : Nat → Nat

/-- What happens next to a client. -/
inductive CMove where
  /-- its call goes on -/
  | move (m : Move)
  /-- the contexts of its calls that have returned are cancelled -/
  | cancel

/-- The call returns with its transaction open: the three returns of `OptimisticDeleteStream` without `Rollback`
(postgres_store.go:232, 236, 240), and a panic in `saveEvents` (281). -/
def leaves (cfg : Config) (s : State) (p : Nat) (m : Move) : Bool :=
  match s.procs p, (step cfg s p m).procs p with
  | .begun (.delete _ _), .returned _ _ => true
  | .locked _ _ _, .returned _ .panic => true
  | _, _ => false

/-- The call of the client has panicked. -/
def panicked (s : State) (p : Nat) : Bool :=
  match s.procs p with
  | .returned _ .panic => true
  | _ => false

/-- One step of client `p`. The rollback of a cancelled transaction gives its connection back and releases its advisory lock;
of the transactions that were left open only that of a save that panicked holds one. -/
def cstep (cfg : Config) (t : CState) (p : Nat) : CMove → CState
  | .move m =>
    ⟨step cfg t.s p m, if leaves cfg t.s p m then fun q => if q = p then t.left p + 1 else t.left q else t.left⟩
  | .cancel =>
    ⟨{ t.s with
        conns := t.s.conns - t.left p
        locks := fun k => if panicked t.s p ∧ t.s.locks k = some p then none else t.s.locks k },
      fun q => if q = p then 0 else t.left q⟩

abbrev CSchedule := List (Nat × CMove)

def crunFrom (cfg : Config) (t : CState) (ms : CSchedule) : CState := ms.foldl (fun t m => cstep cfg t m.1 m.2) t

def crun (cfg : Config) (ms : CSchedule) : CState := crunFrom cfg ⟨init, fun _ => 0⟩ ms

end RangeDB.PG

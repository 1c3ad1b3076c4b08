import Verif.Base.Types

/-!
# Model: how the `rangedb` command ends

`main`, `serveHTTP` and `serveGRPC` of `cmd/rangedb/main.go`. A state machine whose labels are the goroutines of
the process and its clients; a schedule is a list of labels. From the libraries, as they document it:
`http.Server.Serve` returns an error at once when `Shutdown` has been called, `Shutdown` waits until no request
is being handled, and does not count connections that a handler has taken over (WebSockets); `grpc.Server.Serve`
returns no error after `Stop`; `log.Fatal` ends the process with status 1, whatever its other goroutines do.
Not modelled: a second signal (ignored by the program) and errors of `Shutdown` (its context never ends).
-/

namespace RangeDB.Proc

/-- Where `main` is: waiting for the interrupt (main.go:134); about to stop the RangeDB gRPC server (137), the
gRPC server (143), the WebSocket API (146); about to begin `Shutdown` (149); in `Shutdown`, waiting for the
requests; about to close the store (155); about to return (159). -/
inductive Pc where
  | waiting
  | stopServer
  | stopGrpc
  | stopWs
  | shutdown
  | drain
  | closeStore
  | ret
deriving DecidableEq, Repr

/-- The process. -/
structure State where
  pc : Pc
  /-- the HTTP listener accepts connections -/
  listening : Bool
  /-- the gRPC server accepts calls -/
  grpcUp : Bool
  /-- `serveGRPC` still runs -/
  grpcServing : Bool
  /-- HTTP requests that came, that are being handled, that were answered, that became WebSockets -/
  came : Nat
  active : Nat
  answered : Nat
  sockets : Nat
  storeOpen : Bool
  /-- the status the process ended with -/
  exit : Option Nat
deriving DecidableEq, Repr

inductive Label where
  | interrupt
  | main
  | http
  | grpc
  | arrive
  | answer
  | upgrade
deriving DecidableEq, Repr

/-- The running process (main.go:119-134). -/
def start : State := ⟨.waiting, true, true, true, 0, 0, 0, 0, true, none⟩

/-- The next statement of `main` (136-159). -/
def mainStep (s : State) : Option State :=
  match s.pc with
  | .waiting => none
  | .stopServer => some { s with pc := .stopGrpc }
  | .stopGrpc => some { s with pc := .stopWs, grpcUp := false }
  | .stopWs => some { s with pc := .shutdown }
  | .shutdown => some { s with pc := .drain, listening := false }
  | .drain => if s.active = 0 then some { s with pc := .closeStore } else none
  | .closeStore => some { s with pc := .ret, storeOpen := false }
  | .ret => some { s with exit := some 0 }

/-- One step; none once the process has ended. `http` and `grpc` are the goroutines in `serveHTTP` (206-212)
and `serveGRPC` (214-220) returning from `Serve`. -/
def step (s : State) (l : Label) : Option State :=
  if s.exit.isSome then none
  else match l with
    | .interrupt => if s.pc = .waiting then some { s with pc := .stopServer } else some s
    | .main => mainStep s
    | .http => if s.listening then none else some { s with exit := some 1 }
    | .grpc => if s.grpcUp = false ∧ s.grpcServing then some { s with grpcServing := false } else none
    | .arrive => if s.listening then some { s with came := s.came + 1, active := s.active + 1 } else none
    | .answer => if s.active = 0 then none
        else some { s with active := s.active - 1, answered := s.answered + 1 }
    | .upgrade => if s.active = 0 then none
        else some { s with active := s.active - 1, sockets := s.sockets + 1 }

def exec (s : State) : List Label → Option State
  | [] => some s
  | l :: ls =>
    match step s l with
    | some s' => exec s' ls
    | none => none

end RangeDB.Proc

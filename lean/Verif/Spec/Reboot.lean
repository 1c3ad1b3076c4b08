import Verif.Spec.Restarts
import Verif.Spec.Live

/-!
# Specification: a server with a LevelDB store that is used over HTTP and gRPC, stopped, killed and started again

`cmd/rangedb/main.go` opens the directory and gives the store both interfaces.
-/

namespace RangeDB.Srv

open RangeDB.Json RangeDB.Http RangeDB.Rem

/-- A part of the life of the server. -/
inductive Turn where
  /-- it handles a request, and answers it unless the store hangs (C14) -/
  | serve (r : Request)
  /-- it ends between two requests and is started again -/
  | restart
  /-- it is killed while it handles a request, when its call of the store has taken `n` steps, and is started again -/
  | killed (r : Request) (n : Nat)

/-- The store after it. The call of a request whose handler is killed leaves what `LD.crashed` says; a request that does
not get as far as a call of the store leaves what is on the disk. -/
def Turn.after (other : Err → Str) (fl : Str → Option Str) (s : LD.State) : Turn → LD.State
  | .serve r => r.handle (ldSave (serializer unbound)) (ldDelete (serializer unbound)) other fl s
  | .restart => LD.reopen s.db
  | .killed r n =>
    LD.reopen (r.handle (fun s st e ers => (LD.crashed (serializer unbound) s (.save st e none ers) n, .blocked))
      (fun s st k => (LD.crashed (serializer unbound) s (.delete st k false) n, .blocked)) other fl s).db

/-- The store after the life so far, from an empty directory. -/
def ldLife (other : Err → Str) (fl : Str → Option Str) (ts : List Turn) : LD.State := ts.foldl (Turn.after other fl) LD.init

/-- The request that is part of it. -/
def Turn.request : Turn → Option Request
  | .serve r => some r
  | .restart => none
  | .killed r _ => some r

/-- The server is started again. -/
def Turn.starts : Turn → Bool
  | .serve _ => false
  | _ => true

/-- What is asked of it: its request is sane (`Request.Given`), and its names do not run into others (C12). -/
def Turn.Given (N : Names) (fl : Str → Option Str) (t : Turn) : Prop :=
  ∀ r, t.request = some r → r.Given fl ∧ N.streams r.stream ∧ ∀ er ∈ r.events fl, N.types er.event.aggType

/-- The number of events that it tries to save. -/
def Turn.size (fl : Str → Option Str) (t : Turn) : Nat := ((t.request.map (fun r => (r.events fl).length)).getD 0)

/-- It is no request to delete the stream. -/
def Turn.Keeps (stream : Str) (t : Turn) : Prop := ∀ r, t.request = some r → r.saves = false → r.stream ≠ stream

end RangeDB.Srv

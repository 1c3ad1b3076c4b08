import Verif.Model.Pages

/-!
# Model: how a live statistics page ends (pkg/rangedbui/ui.go:341-387)

`realtimeAggregateTypes` never reads from the WebSocket connection; it learns that the browser has gone only from
`WriteMessage`. `Model/Pages.lean` with a browser that may leave. A write to a browser that has gone may still succeed,
because the operating system buffers it, or fail; a write to a browser that is there succeeds.
-/

namespace RangeDB.Web

/-- A connection: the handler and the statistics, whether the browser has gone, and whether the handler has returned. -/
structure Conn where
  s : State
  gone : Bool
  ended : Bool

inductive CLabel where
  /-- the statistics accept a record, or the handler makes a step whose write, if it is one, succeeds -/
  | base (l : Label)
  /-- the browser goes away -/
  | leave
  /-- the handler's write fails (ui.go:381-385) -/
  | fail

/-- Is the handler about to write (ui.go:381)? -/
def writing (s : State) : Bool :=
  match s.pc with
  | .count [] _ => true
  | _ => false

/-- One step of a connection. -/
def cstep (c : Conn) : CLabel → Option Conn
  | .base .page => if c.ended then none else (step true c.s .page).map (fun s => { c with s := s })
  | .base l => (step true c.s l).map (fun s => { c with s := s })
  | .leave => some { c with gone := true }
  | .fail => if c.gone && writing c.s && !c.ended then some { c with ended := true } else none

def cexec (c : Conn) : List CLabel → Option Conn
  | [] => some c
  | l :: ls =>
    match cstep c l with
    | some c' => cexec c' ls
    | none => none

/-- A browser opens the live page (ui.go:341-352). -/
def opened (st : Prj.Stats) (rs : List Record) : Conn := ⟨connect st rs, false, false⟩

end RangeDB.Web

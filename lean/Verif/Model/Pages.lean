import Verif.Model.Projection

/-!
# Model: the pages of the web UI that show the statistics while events arrive

`aggregateTypes`, `aggregateTypesLive` and `realtimeAggregateTypes` of `pkg/rangedbui/ui.go` call the methods
of `AggregateTypeStats` one after the other, while the subscription of the HTTP API calls `Accept` from another
goroutine. A state machine with the two goroutines as its labels; a schedule is a list of labels. `Accept`
holds the mutex and takes two steps, because `TotalEvents` reads without the mutex
(aggregate_type_stats.go:62-64) and so may read in the middle of it; that data race is taken to read either
the old or the new counter. The map is not nil (`Prj.C33_foreign_snapshot_panics` is about a nil map).
Not modelled: the templates, the JSON text of a message and the WebSocket connection.
-/

namespace RangeDB.Web

open Prj

/-- `aggregateTypesTemplateVars` and `liveAggregateTypesTemplateVars` (ui.go:120-129): one row with
name and count for each type, and the total. -/
structure Page where
  rows : List (Str × Nat)
  total : Nat
deriving DecidableEq, Repr

/-- Where the handler is: at the head of the loop of `realtimeAggregateTypes` (ui.go:354-359); about to
read the latest number into its variable (361); about to read the sorted types (364, and 134 for the plain
page); about to read the counts of the remaining types, with the rows so far, and then the total (364-374;
134-143); finished (plain page). -/
inductive Pc where
  | head
  | set
  | keys
  | count (todo : List Str) (rows : List (Str × Nat))
  | done
deriving DecidableEq, Repr

/-- The statistics, whether `Accept` is under way, the records still to be accepted, the handler and what it
has sent. -/
structure State where
  stats : Stats
  busy : Bool
  incoming : List Record
  latest : Nat
  pc : Pc
  sent : List Page
deriving DecidableEq, Repr

inductive Label where
  | accept
  | finish
  | page
deriving DecidableEq, Repr

/-- One step of a handler. `live` is the endless loop of `realtimeAggregateTypes` (ui.go:341-387; the sleep
is any pause), otherwise the handler of one page (131-145, 147-161). The methods that take the read lock
wait while `Accept` holds the mutex; `TotalEvents` does not. -/
def pageStep (live : Bool) (s : State) : Option State :=
  match s.pc with
  | .done => none
  | .head =>
    if s.busy then none
    else if s.stats.latest ≤ s.latest then some s
    else some { s with pc := .set }
  | .set => if s.busy then none else some { s with latest := s.stats.latest, pc := .keys }
  | .keys => if s.busy then none else some { s with pc := .count s.stats.sortedTypes [] }
  | .count (t :: ts) rows =>
    if s.busy then none else some { s with pc := .count ts (rows ++ [(t, s.stats.totalByType t)]) }
  | .count [] rows =>
    some { s with sent := s.sent ++ [⟨rows, s.stats.total⟩], pc := if live then .head else .done }

/-- One step. `accept` is `Accept` up to its last statement (aggregate_type_stats.go:35-37), `finish` the last
increment and the unlock (38-39). -/
def step (live : Bool) (s : State) : Label → Option State
  | .accept =>
    if s.busy then none
    else match s.incoming with
      | [] => none
      | r :: rest =>
        some { s with stats := ⟨s.stats.byType.map (bump r.aggType), r.gsn, s.stats.total⟩,
                      busy := true, incoming := rest }
  | .finish =>
    if s.busy then some { s with stats := { s.stats with total := s.stats.total + 1 }, busy := false } else none
  | .page => pageStep live s

def exec (live : Bool) (s : State) : List Label → Option State
  | [] => some s
  | l :: ls =>
    match step live s l with
    | some s' => exec live s' ls
    | none => none

/-- A request for a page (131, 147), with statistics `st`; `rs` are the records that will arrive. -/
def request (st : Stats) (rs : List Record) : State := ⟨st, false, rs, 0, .keys, []⟩

/-- A live connection (341-352). -/
def connect (st : Stats) (rs : List Record) : State := ⟨st, false, rs, 0, .head, []⟩

end RangeDB.Web

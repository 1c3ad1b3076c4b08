import Verif.Model.Projection

/-!
# Model: the statistics with their lock

`AggregateTypeStats` (aggregate_type_stats.go:18-84) is written by the goroutine of a subscription and read by the handlers of the API and
the web UI. Here every access to a field is a step of its own. `sync.RWMutex` keeps back new readers when a writer waits; here they may go
on, which allows more schedules. Left out: `LoadFromSnapshot`, which is called before the subscription starts (api.go:109-129).
-/

namespace RangeDB.Prj

/-- The fields (aggregate_type_stats.go:12-16). -/
inductive Field where
  | counts
  | latest
  | total
  deriving DecidableEq, Repr

/-- The methods (aggregate_type_stats.go:34-84). -/
inductive Call where
  /-- `Accept` (34-40) -/
  | accept (r : Record)
  /-- `SortedAggregateTypes` (43-52) and `TotalEventsByAggregateType` (55-59) -/
  | counts
  /-- `LatestGlobalSequenceNumber` (67-71) -/
  | latest
  /-- `SaveSnapshot` (79-84) -/
  | save
  /-- `TotalEvents` (62-64), which takes no lock -/
  | total
  deriving DecidableEq, Repr

/-- What a method reads under `RLock`; `none`: it does not take that lock
(aggregate_type_stats.go:44-49, 56-58, 68-70, 80-83). -/
def Call.fields : Call → Option (List Field)
  | .accept _ => none
  | .counts => some [.counts]
  | .latest => some [.latest]
  | .save => some [.counts, .latest, .total]
  | .total => none

/-- Where a goroutine is in a method (aggregate_type_stats.go:34-84). -/
inductive Pos where
  | out
  /-- under `RLock`, with these fields to read -/
  | reading (l : List Field)
  /-- in `Accept`, under `Lock`, after so many of its three writes -/
  | writing (r : Record) (k : Nat)
  deriving DecidableEq, Repr

/-- A goroutine: where it is, and the calls it is going to make (aggregate_type_stats.go:34-84). -/
structure Gor where
  pos : Pos
  todo : List Call
  deriving DecidableEq, Repr

/-- The statistics, the holders of the lock (aggregate_type_stats.go:19-22), and the goroutines. `log`: the records whose `Accept` has unlocked. -/
structure Shared where
  data : Stats
  writer : Option Nat
  readers : List Nat
  gors : Nat → Gor
  log : List Record

/-- Goroutine `i` is now at `g` (a helper; it models no code of its own). -/
def Shared.put (s : Shared) (i : Nat) (g : Gor) : Nat → Gor := fun j => if j = i then g else s.gors j

/-- `m[k]++` under the lock (aggregate_type_stats.go:36). -/
def Stats.bumped (d : Stats) (r : Record) : Stats := { d with byType := d.byType.map (bump r.aggType) }

/-- The next step of goroutine `i` (aggregate_type_stats.go:34-84; the lines are on the right); it waits if it cannot take the lock. -/
def Shared.step (s : Shared) (i : Nat) : Shared :=
  match (s.gors i).pos with
  | .writing r 0 => { s with data := s.data.bumped r, gors := s.put i ⟨.writing r 1, (s.gors i).todo⟩ }                  -- 36
  | .writing r 1 => { s with data := { s.data with latest := r.gsn }, gors := s.put i ⟨.writing r 2, (s.gors i).todo⟩ }  -- 37
  | .writing r 2 =>                                                                                                      -- 38
    { s with data := { s.data with total := s.data.total + 1 }, gors := s.put i ⟨.writing r 3, (s.gors i).todo⟩ }
  | .writing r (_ + 3) => { s with writer := none, gors := s.put i ⟨.out, (s.gors i).todo⟩, log := s.log ++ [r] }        -- 39
  | .reading (_ :: l) => { s with gors := s.put i ⟨.reading l, (s.gors i).todo⟩ }                                        -- 46, 58, 70, 83
  | .reading [] =>                                                                                                       -- 49, 57, 69, 81
    { s with readers := s.readers.filter (fun j => decide (j ≠ i)), gors := s.put i ⟨.out, (s.gors i).todo⟩ }
  | .out =>
    match (s.gors i).todo with
    | [] => s
    | .accept r :: cs =>                                                                                                 -- 35
      if s.writer = none ∧ s.readers = [] then { s with writer := some i, gors := s.put i ⟨.writing r 0, cs⟩ } else s
    | .total :: cs => { s with gors := s.put i ⟨.out, cs⟩ }                                                              -- 63
    | c :: cs =>                                                                                                         -- 44, 56, 68, 80
      if s.writer = none then { s with readers := i :: s.readers, gors := s.put i ⟨.reading (c.fields.getD []), cs⟩ } else s

/-- A schedule: which goroutine goes on (aggregate_type_stats.go:34-84). -/
def Shared.run (s : Shared) (sched : List Nat) : Shared := sched.foldl Shared.step s

/-- New statistics (25-31), and goroutines that are going to make these calls. -/
def Shared.init (calls : Nat → List Call) : Shared := ⟨.new, none, [], fun i => ⟨.out, calls i⟩, []⟩

/-- The field that a goroutine accesses next, and whether it writes (aggregate_type_stats.go:36-38, 46, 58, 63, 70, 83). -/
def Gor.access (g : Gor) : Option (Field × Bool) :=
  match g.pos, g.todo with
  | .writing _ 0, _ => some (.counts, true)
  | .writing _ 1, _ => some (.latest, true)
  | .writing _ 2, _ => some (.total, true)
  | .reading (f :: _), _ => some (f, false)
  | .out, .total :: _ => some (.total, false)
  | _, _ => none

end RangeDB.Prj

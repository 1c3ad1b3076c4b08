import Verif.Base.Types

/-!
# Model of pkg/broadcast/broadcaster.go

The broadcaster is one goroutine; its state changes only in the branches of the `select` of `start`. One
`Ev` is one branch taken. Subscribers are numbers. A Go map used as a set is a duplicate-free list; the
order in which `range` visits it is an input of the event, restricted to be a permutation of the map.
-/

namespace RangeDB.Bc

/-- `broadcaster` (broadcaster.go:35-45), plus what has been sent to and done to each subscriber. -/
structure State where
  /-- `allEventsSubscribers` -/
  all : List Nat
  /-- `aggregateTypeSubscribers`: the map of maps as a set of pairs -/
  byType : List (Str × Nat)
  /-- what was sent on each subscriber's `Receiver()`, oldest first -/
  sent : Nat → List Record
  /-- how often each subscriber's `Stop()` was called -/
  stops : Nat → Nat
  /-- the goroutine has returned (line 126) -/
  closed : Bool

/-- `New` (broadcaster.go:48-66). -/
def init : State := ⟨[], [], fun _ => [], fun _ => 0, false⟩

/-- The branches of the `select` in `start` (broadcaster.go:101-128). For a record: the order in which
the two `range` loops visit the maps, and which sends time out in each loop. -/
inductive Ev where
  | subscribeAll (i : Nat)
  | unsubscribeAll (i : Nat)
  | subscribeType (t : Str) (i : Nat)
  | unsubscribeType (t : Str) (i : Nat)
  | record (r : Record) (order1 order2 : List Nat) (slow1 slow2 : Nat → Bool)
  | stop (order1 : List Nat) (order2 : List (Str × Nat))

/-- `m[i] = struct{}{}`. -/
def insert {α : Type} [DecidableEq α] (l : List α) (i : α) : List α := if i ∈ l then l else l ++ [i]

/-- Call `Stop` on a subscriber. -/
def stop1 (s : State) (i : Nat) : State :=
  { s with stops := fun j => if j = i then s.stops j + 1 else s.stops j }

/-- Send a record to a subscriber. -/
def send1 (r : Record) (s : State) (i : Nat) : State :=
  { s with sent := fun j => if j = i then s.sent j ++ [r] else s.sent j }

/-- One loop of `broadcastRecord` (broadcaster.go:131-139, 141-149); `del` deletes from the map that is
being visited, the list argument is the visiting order. -/
def sendLoop (r : Record) (slow : Nat → Bool) (del : State → Nat → State) : List Nat → State → State
  | [], s => s
  | i :: is, s =>
    if slow i then sendLoop r slow del is (stop1 (del s i) i)
    else sendLoop r slow del is (send1 r s i)

/-- The subscribers of one aggregate type. -/
def ofType (s : State) (t : Str) : List Nat := (s.byType.filter (fun x => x.1 = t)).map (·.2)

/-- One branch of the `select`; `none` if it cannot happen (the goroutine has returned, or the visiting
order is not an order of the map). -/
def step (s : State) (e : Ev) : Option State :=
  if s.closed then none
  else match e with
  | .subscribeAll i => some { s with all := insert s.all i }                       -- line 105
  | .unsubscribeAll i => some { s with all := s.all.erase i }                      -- line 108
  | .subscribeType t i => some { s with byType := insert s.byType (t, i) }         -- lines 111-114
  | .unsubscribeType t i => some { s with byType := s.byType.erase (t, i) }        -- line 117
  | .record r o1 o2 slow1 slow2 =>                                                 -- lines 130-149
    if o1.isPerm s.all ∧ o2.isPerm (ofType s r.aggType) then
      some (sendLoop r slow2 (fun s i => { s with byType := s.byType.erase (r.aggType, i) }) o2
        (sendLoop r slow1 (fun s i => { s with all := s.all.erase i }) o1 s))
    else none
  | .stop o1 o2 =>                                                                 -- lines 123-126, 155-165
    if o1.isPerm s.all ∧ o2.isPerm s.byType then
      some { (o2.map (·.2)).foldl stop1 (o1.foldl stop1 s) with closed := true }
    else none

/-- A run of the goroutine. -/
def run : State → List Ev → Option State
  | s, [] => some s
  | s, e :: es => match step s e with
    | none => none
    | some s' => run s' es

end RangeDB.Bc

import Verif.Model.InMemory

/-!
# Model of rangedbtest/bdd/bdd.go: the Given/When/Then helper

The store of the test case is the in-memory store. The command dispatcher under test is any function of the store that makes
calls which change it.
-/

namespace RangeDB.Bdd

open IM

/-- `GetEventStream` (store.go:124-126). -/
def streamOf (e : Event) : Str := getStream e.aggType e.aggId

/-- A test case: `Given(previous...)`, `When(command)` and what dispatching the command does to the store
(bdd.go:25-52). `asValue` is `eventAsValue` (bdd.go:157-168): the event that a record's data points to, or `none` for an
unbound event type, whose data is no pointer. -/
structure Case where
  previous : List EventRecord
  dispatch : State → List Op
  asValue : Record → Option Event

/-- `rangedbtest.BlockingSaveEvents` (verify_store.go:1858-1869) of one event: `none` is a failed test. The save must succeed
and its record must be broadcast. Simplification: a record that is broadcast reaches the subscriber before the time out. -/
def blockingSave (z : Serializer) (s : State) (er : EventRecord) : Option State :=
  let r := saveEvents z s (streamOf er.event) none none [er]
  match r.out with
  | .ok _ => if r.broadcast.length = 1 then some r.state else none
  | _ => none

/-- The loop over the previous events (bdd.go:60-64, 98-102). -/
def given (z : Serializer) : State → List EventRecord → Option State
  | s, [] => some s
  | s, er :: ers =>
    match blockingSave z s er with
    | some s' => given z s' ers
    | none => none

/-- `streamPreviousEventCounts` (bdd.go:59-61). -/
def previousCount (previous : List EventRecord) (st : Str) : Nat :=
  (previous.filter (fun er => streamOf er.event = st)).length

/-- `recordIteratorToSlice` (bdd.go:139-155). `Next` returns false at an error, and `Err` is asked for only inside the loop: an
iterator that ends in an error looks like one that ends. -/
def toSlice (asValue : Record → Option Event) (it : Iter) : Option (List Event) := it.recs.mapM asValue

/-- `Then(expected...)` (bdd.go:55-92): does the test pass? Each stream is checked independently of the others, so that the
order in which Go visits the map `streamExpectedEvents` makes no difference. -/
def thenPasses (z : Serializer) (c : Case) (s : State) (expected : List Event) : Bool :=
  match given z s c.previous with
  | none => false
  | some s1 =>
    let s2 := (c.dispatch s1).foldl (step z) s1
    if expected = [] then
      match toSlice c.asValue (events z s2 none 0) with
      | none => false
      | some all => decide ((all.length : Int) - c.previous.length = 0)
    else
      expected.all fun e =>
        toSlice c.asValue (eventsByStream z s2 none (previousCount c.previous (streamOf e) + 1) (streamOf e)) ==
          some (expected.filter (fun e' => streamOf e' = streamOf e))

/-- The names that `getStreamsFromStore` (bdd.go:121-137) collects: those of the aggregates, not of the streams. -/
def aggregateStreams (z : Serializer) (s : State) : List Str :=
  (events z s none 0).recs.map (fun r => getStream r.aggType r.aggId)

/-- The loop of `ThenInspectEvents` (bdd.go:106-114) over the names in the order in which Go visits the map: `none` if the test
has failed before the function is called. -/
def collect (z : Serializer) (asValue : Record → Option Event) (count : Str → Nat) (s : State) :
    List Str → Option (List Event)
  | [] => some []
  | st :: rest =>
    match toSlice asValue (eventsByStream z s none (count st + 1) st) with
    | none => none
    | some es => (collect z asValue count s rest).map (es ++ ·)

/-- `ThenInspectEvents` (bdd.go:95-119): the events handed to the function. `order` is the order in which Go visits the map of
names. -/
def inspected (z : Serializer) (c : Case) (s : State) (order : List Str → List Str) : Option (List Event) :=
  match given z s c.previous with
  | none => none
  | some s1 =>
    let s2 := (c.dispatch s1).foldl (step z) s1
    collect z c.asValue (previousCount c.previous) s2 (order (aggregateStreams z s2))

end RangeDB.Bdd

import Verif.Model.Json
import Verif.Model.InMemory

/-!
# Model of pkg/cqrs/cqrs.go and of the generated aggregate code

(pkg/aggregategenerator/write_aggregate.go, whose output is examples/chat/room_aggregate_gen.go and
user_aggregate_gen.go.) An application owns one object per registered aggregate; all commands of that
aggregate, whatever stream they are about, go through that one object. `ι` names the objects, `σ` is the
state an object holds besides its pending events, `κ` the commands. The store is the in-memory one; its
state is threaded through.
-/

namespace RangeDB.Cqrs

/-- `Aggregate` (cqrs.go:25-29) as far as user code and the generated code determine it. -/
structure Aggregate (σ κ : Type) where
  /-- what one record of the stream does to the object's state: the type assertion in `Load`
  (room_aggregate_gen.go:14) followed by `apply` (lines 21-61) -/
  apply : σ → Record → σ
  /-- the events raised for a command (room_aggregate_gen.go:63-106): the method called by the `switch`
  may change the object's state. Pending events are empty before and after (`defer resetPendingEvents`);
  the effect of overlapping calls on them is modelled separately, in `Race` below. -/
  handle : σ → κ → σ × List Event
  /-- `CommandTypes()` (room_aggregate_gen.go:112-121) -/
  commandTypes : List Str

/-- `Load` (room_aggregate_gen.go:11-19). `recordIterator.Next()` is false on an error, so an iterator
contributes exactly its records; a stream that does not exist contributes nothing. The object's state is
the one left by the previous commands: nothing resets it. -/
def load {σ κ : Type} (a : Aggregate σ κ) (s : σ) (it : Iter) : σ := it.recs.foldl a.apply s

/-- `Command` (cqrs.go:11-14): what `Dispatch` reads of a command. -/
structure CmdInfo where
  cmdType : Str
  aggType : Str
  aggId : Str

/-- An application: `New` with `WithAggregates` (cqrs.go:46-69). `aggregates` is the list given to
`WithAggregates`; `info` are the interface methods of the commands. -/
structure App (ι σ κ : Type) where
  objects : List ι
  aggregate : ι → Aggregate σ κ
  /-- the objects' state when the program starts -/
  fresh : ι → σ
  info : κ → CmdInfo

/-- `c.aggregates[commandType]` (cqrs.go:46-54, 74): the map is filled in the order of the aggregates,
later entries replace earlier ones. -/
def App.handlerOf {ι σ κ : Type} (A : App ι σ κ) (cmdType : Str) : Option ι :=
  A.objects.foldl (fun found i => if cmdType ∈ (A.aggregate i).commandTypes then some i else found) none

/-- What the environment contributes to one save: the generated UUID and the clock. -/
structure Stamp where
  uuid : Str
  now : Nat

/-- `&rangedb.EventRecord{Event: event}` (cqrs.go:94): no metadata, that is nil, which marshals as `null`. -/
def toRecord (t : Stamp) (e : Event) : EventRecord := ⟨e, Json.nullText, t.uuid, t.now⟩

/-- One iteration of the loop in `saveEvents` (cqrs.go:92-101): `Save` of one event on the stream of its
own aggregate, never cancelled (`context.Background()`), without an expected sequence number. -/
def saveOne (z : Serializer) (s : IM.State) (t : Stamp) (e : Event) : IM.SaveResult :=
  IM.saveEvents z s (getStream e.aggType e.aggId) none none [toRecord t e]

/-- `saveEvents` (cqrs.go:90-104). An event that cannot be saved is skipped. `stamps n` is what the
environment gives to the n-th event. A panic or a block of the store ends the loop. -/
def saveEvents (z : Serializer) (stamps : Nat → Stamp) :
    (n : Nat) → IM.State → List Event → IM.State × Outcome (List Event)
  | _, s, [] => (s, .ok [])
  | n, s, e :: es =>
    match (saveOne z s (stamps n) e).out with
    | .ok _ =>
      match saveEvents z stamps (n + 1) (saveOne z s (stamps n) e).state es with
      | (s', .ok saved) => (s', .ok (e :: saved))
      | r => r
    | .err _ => saveEvents z stamps (n + 1) (saveOne z s (stamps n) e).state es
    | .panic => ((saveOne z s (stamps n) e).state, .panic)
    | .blocked => ((saveOne z s (stamps n) e).state, .blocked)

/-- The first half of `Dispatch` (cqrs.go:71-86): find the object, load the stream of the command into
it, handle. Result: the objects afterwards and the events raised. -/
def decideEvents {ι σ κ : Type} [DecidableEq ι] (A : App ι σ κ) (z : Serializer) (objs : ι → σ)
    (s : IM.State) (c : κ) : (ι → σ) × List Event :=
  match A.handlerOf (A.info c).cmdType with
  | none => (objs, [])
  | some i =>
    let loaded := load (A.aggregate i) (objs i)
      (IM.eventsByStream z s none 0 (getStream (A.info c).aggType (A.info c).aggId))
    let r := (A.aggregate i).handle loaded c
    (fun j => if j = i then r.1 else objs j, r.2)

/-- A running application: its objects and the store. -/
structure State (ι σ : Type) where
  objs : ι → σ
  store : IM.State

/-- `Dispatch` (cqrs.go:71-88), without any other call in between. -/
def dispatch {ι σ κ : Type} [DecidableEq ι] (A : App ι σ κ) (z : Serializer) (stamps : Nat → Stamp)
    (st : State ι σ) (c : κ) : State ι σ × Outcome (List Event) :=
  let d := decideEvents A z st.objs st.store c
  let r := saveEvents z stamps 0 st.store d.2
  (⟨d.1, r.1⟩, r.2)

/-! ## Several goroutines and several programs on one store

A goroutine runs one `Dispatch` after the other; it belongs to a process (a running program with its own
objects). The steps of a `Dispatch` are: load and handle, then one `Save` per event. Load and handle are
one step here: the interleavings inside it concern the object's pending events (`Race`) and Go data races
on the object's fields, which are not modelled. -/

/-- The goroutines, processes and the store. -/
structure Sys (ι σ : Type) where
  /-- the objects of each process -/
  objs : Nat → ι → σ
  store : IM.State
  /-- what each goroutine still has to save -/
  pending : Nat → List Event
  /-- what each goroutine's current `Dispatch` has saved -/
  saved : Nat → List Event

/-- One step. -/
inductive SysStep (κ : Type) where
  /-- goroutine `g` of process `p` starts `Dispatch c`: lookup, load, handle -/
  | call (p g : Nat) (c : κ)
  /-- goroutine `g` saves its next event -/
  | save (g : Nat) (t : Stamp)
  /-- process `p` is restarted: its objects are fresh. (Goroutines of `p` should be gone; those that are
  in the middle of a `Dispatch` may still save, which only adds behaviours.) -/
  | restart (p : Nat)
  /-- somebody else uses the store directly -/
  | other (op : Op)

/-- All processes fresh, empty store. -/
def Sys.init {ι σ κ : Type} (A : App ι σ κ) : Sys ι σ :=
  ⟨fun _ => A.fresh, IM.init, fun _ => [], fun _ => []⟩

/-- Steps of goroutines (cqrs.go:71-104). A goroutine that has not finished saving does not start a new
`Dispatch`. -/
def Sys.step {ι σ κ : Type} [DecidableEq ι] (A : App ι σ κ) (z : Serializer) (S : Sys ι σ) :
    SysStep κ → Sys ι σ
  | .call p g c =>
    if S.pending g = [] then
      let d := decideEvents A z (S.objs p) S.store c
      { S with
        objs := fun q => if q = p then d.1 else S.objs q
        pending := fun h => if h = g then d.2 else S.pending h
        saved := fun h => if h = g then [] else S.saved h }
    else S
  | .save g t =>
    match S.pending g with
    | [] => S
    | e :: es =>
      { S with
        store := (saveOne z S.store t e).state
        pending := fun h => if h = g then es else S.pending h
        saved := match (saveOne z S.store t e).out with
          | .ok _ => fun h => if h = g then S.saved h ++ [e] else S.saved h
          | _ => S.saved }
  | .restart p => { S with objs := fun q => if q = p then A.fresh else S.objs q }
  | .other op => { S with store := IM.step z S.store op }

/-- A run. -/
def Sys.run {ι σ κ : Type} [DecidableEq ι] (A : App ι σ κ) (z : Serializer)
    (steps : List (SysStep κ)) : Sys ι σ := steps.foldl (Sys.step A z) (Sys.init A)

/-! ## The pending events of one object under overlapping `Handle` calls -/

/-- `pendingEvents` of one object and what each goroutine's call is about to return. -/
structure Race where
  pendingEvents : List Event
  result : Nat → Option (List Event)

/-- The three steps of `Handle` (room_aggregate_gen.go:63-110, 123-125) that touch `pendingEvents`. -/
inductive RaceStep where
  /-- `raise` (lines 123-125) -/
  | raise (g : Nat) (es : List Event)
  /-- `return a.pendingEvents`: the result is evaluated (line 105) -/
  | ret (g : Nat)
  /-- the deferred `resetPendingEvents` runs (lines 104, 108-110) -/
  | reset (g : Nat)

/-- An object nobody has used yet. -/
def Race.init : Race := ⟨[], fun _ => none⟩

/-- One step of `Handle`. -/
def Race.step (r : Race) : RaceStep → Race
  | .raise _ es => { r with pendingEvents := r.pendingEvents ++ es }
  | .ret g => { r with result := fun h => if h = g then some r.pendingEvents else r.result h }
  | .reset _ => { r with pendingEvents := [] }

/-- A run of overlapping `Handle` calls. -/
def Race.run (steps : List RaceStep) : Race := steps.foldl Race.step Race.init

/-- `Handle` of goroutine `g`, which raises `es`. -/
def handleSteps (g : Nat) (es : List Event) : List RaceStep := [.raise g es, .ret g, .reset g]

end RangeDB.Cqrs

import Verif.Model.Cqrs
import Verif.Model.Encrypted

/-!
# Model of command handling over other stores than the in-memory one

`Model/Cqrs` has `Dispatch` over the in-memory store with every event type bound. Here is `Dispatch` over
whatever a store's `EventsByStream` gives, in particular over the encrypted store.
-/

namespace RangeDB.Disp

open RangeDB.Cqrs RangeDB.ES RangeDB.Key RangeDB.Cry

variable {ι α κ σ : Type}

/-- The generated `Load` (pkg/aggregategenerator/write_aggregate.go:57-67) over what an iterator gives, from
the object's state. `isEvent r`: the data of `r` is a `rangedb.Event`, which it is only if its event type was
bound (json_record_serializer.go:74-96); otherwise it is a map and the record is passed over. `Err()` is asked
before `Record()`, and never again after the loop: an error only ends the loop. `none`: `Record()` returned nil
and `.Data` panics. -/
def genLoad (isEvent : Record → Bool) (a : Aggregate α κ) : α → List (Option Record) → Option α
  | s, [] => some s
  | _, none :: _ => none
  | s, some r :: rs => genLoad isEvent a (if isEvent r then a.apply s r else s) rs

/-- The first half of `Dispatch` (cqrs.go:71-85) when `EventsByStream` gives `got`: the objects afterwards
and the events raised; `none`: it panics. -/
def decideGot [DecidableEq ι] (A : App ι α κ) (isEvent : Record → Bool) (objs : ι → α) (got : Got) (c : κ) :
    Option ((ι → α) × List Event) :=
  match A.handlerOf (A.info c).cmdType with
  | none => some (objs, [])
  | some i =>
    if got.panicked then none
    else match genLoad isEvent (A.aggregate i) (objs i) got.recs with
      | none => none
      | some loaded =>
        let r := (A.aggregate i).handle loaded c
        some (fun j => if j = i then r.1 else objs j, r.2)

/-- What a store without encryption gives. -/
def plainGot (it : Iter) : Got := ⟨it.recs.map some, it.err.map .store, false⟩

/-- `saveEvents` (cqrs.go:90-104) over the encrypted store: one `Save` per event, a failed one is logged and
passed over. The events returned are the event objects, which the store has encrypted in place
(encrypted_store.go:54-63). `none`: a save panics. -/
def saveAll (C : Codec) (K : Store σ) (enc : Encryptor) (z : Serializer) (stamps : Nat → Stamp) :
    (n : Nat) → ES.State σ → List Event → ES.State σ × Option (List Event)
  | _, s, [] => (s, some [])
  | n, s, e :: es =>
    let r := ES.save C K enc z s (getStream e.aggType e.aggId) none none [toRecord (stamps n) e]
    match r.out with
    | .parent (.ok _) =>
      match saveAll C K enc z stamps (n + 1) r.state es with
      | (s', some saved) => (s', some (r.events.map (·.event) ++ saved))
      | (s', none) => (s', none)
    | .parent (.err _) | .encErr _ => saveAll C K enc z stamps (n + 1) r.state es
    | .parent .panic | .parent .blocked | .panic => (r.state, none)

/-- `Dispatch` (cqrs.go:71-88) over the encrypted store. `none`: it panics. -/
def dispatch [DecidableEq ι] (A : App ι α κ) (isEvent : Record → Bool) (C : Codec) (K : Store σ)
    (enc : Encryptor) (z : Serializer) (stamps : Nat → Stamp) (objs : ι → α) (s : ES.State σ) (c : κ) :
    ES.State σ × Option ((ι → α) × List Event) :=
  match ES.eventsByStream C K enc z s none 0 (getStream (A.info c).aggType (A.info c).aggId) with
  | (w, got) =>
    match decideGot A isEvent objs got c with
    | none => ({ s with world := w }, none)
    | some (objs', raised) =>
      match saveAll C K enc z stamps 0 { s with world := w } raised with
      | (s', none) => (s', none)
      | (s', some saved) => (s', some (objs', saved))

end RangeDB.Disp

import Verif.Model.Cqrs

/-!
# Specification of command handling

What a user of `cqrs.New` expects: the events a command yields are a function of the command and of the
stream it is about, and exactly the events `Dispatch` returns are in the store afterwards.
-/

namespace RangeDB.Cqrs

/-- The events that command `c` should yield when the records of its stream are `recs`: those of an
aggregate that has seen these records and nothing else. -/
def decision {ι σ κ : Type} (A : App ι σ κ) (c : κ) (recs : List Record) : List Event :=
  match A.handlerOf (A.info c).cmdType with
  | none => []
  | some i => ((A.aggregate i).handle (recs.foldl (A.aggregate i).apply (A.fresh i)) c).2

/-- The stream a command is about. -/
def App.stream {ι σ κ : Type} (A : App ι σ κ) (c : κ) : Str :=
  getStream (A.info c).aggType (A.info c).aggId

/-- Record `r` is what event `e` becomes when it is saved on the stream of its own aggregate. -/
def Stored (z : Serializer) (e : Event) (r : Record) : Prop :=
  ∃ g q t, r = z.view (mkRecord (getStream e.aggType e.aggId) g q (toRecord t e))

/-- The two lists have the same length and their members are related one by one, in order. -/
inductive Each {α β : Type} (R : α → β → Prop) : List α → List β → Prop where
  | nil : Each R [] []
  | cons {a b as bs} : R a b → Each R as bs → Each R (a :: as) (b :: bs)

/-- One thing that happens in a single-threaded use: a command is dispatched by process `p`, a process is
restarted, or somebody else uses the store. -/
inductive Item (κ : Type) where
  | dispatch (p : Nat) (stamps : Nat → Stamp) (c : κ)
  | restart (p : Nat)
  | other (op : Op)

/-- The processes and the store in a single-threaded use. -/
structure Serial (ι σ : Type) where
  objs : Nat → ι → σ
  store : IM.State

/-- One item. -/
def Serial.step {ι σ κ : Type} [DecidableEq ι] (A : App ι σ κ) (z : Serializer) (S : Serial ι σ) :
    Item κ → Serial ι σ
  | .dispatch p stamps c =>
    let r := (Cqrs.dispatch A z stamps ⟨S.objs p, S.store⟩ c).1
    ⟨fun q => if q = p then r.objs else S.objs q, r.store⟩
  | .restart p => { S with objs := fun q => if q = p then A.fresh else S.objs q }
  | .other op => { S with store := IM.step z S.store op }

/-- The start: all processes fresh, empty store. -/
def Serial.init {ι σ κ : Type} (A : App ι σ κ) : Serial ι σ := ⟨fun _ => A.fresh, IM.init⟩

/-- A single-threaded history. -/
def Serial.run {ι σ κ : Type} [DecidableEq ι] (A : App ι σ κ) (z : Serializer) (items : List (Item κ)) :
    Serial ι σ := items.foldl (Serial.step A z) (Serial.init A)

/-- Items that keep the store free of the multi-event rollback defect (C07). -/
def Item.Guarded {κ : Type} (z : Serializer) : Item κ → Prop
  | .other op => op.Guarded z
  | _ => True

/-- The same for the steps of concurrent goroutines. -/
def SysStep.Guarded {κ : Type} (z : Serializer) : SysStep κ → Prop
  | .other op => op.Guarded z
  | _ => True

/-- The operation is not a deletion of stream `st`. -/
def keeps (st : Str) : Op → Prop
  | .delete st' _ _ => st' ≠ st
  | _ => True

end RangeDB.Cqrs

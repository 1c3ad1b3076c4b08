import Verif.Model.Chain

/-! # Vocabulary of the properties of subscriptions through servers -/

namespace RangeDB.Chain

/-- No record is on its way: none with a saver, in a queue or in a buffer that somebody still reads; and
the subscriber waits for records or has ended (a cancelled one ends). -/
def AtRest (c : State) : Prop :=
  c.sub.savers = [] ∧ (∀ h ∈ c.hops, h.queue = [] ∧ h.buf = []) ∧ c.sub.queue = [] ∧
  ((c.sub.pc = .working ∧ c.sub.buf = [] ∧ c.sub.cancelled = false) ∨ c.sub.pc = .finished)

/-- No hop is cut or dies in the schedule. -/
def NoCut (ls : List Label) : Prop :=
  ∀ k op, Label.hop k op ∈ ls → op ≠ .take true ∧ op ≠ .die

/-- The step is no save while another saver has yet to broadcast, and no part of a failed batch. -/
def SerialAt (c : State) : Label → Prop
  | .base (.commit _ _) => c.sub.savers = []
  | .base (.orphan _ _) => False
  | _ => True

/-- No saver stores anything while another one has yet to broadcast, and none stores part of a batch. -/
def Serial (z : Serializer) (p : Sub.Params) (c : State) (ls : List Label) : Prop :=
  ∀ pre l post c', ls = pre ++ l :: post → exec z p c pre = some c' → SerialAt c' l

/-- Every hop is registered. -/
def Up (hs : List Hop) : Prop := ∀ h ∈ hs, h.st = .up

/-- A chain through which nothing has passed yet. -/
def Fresh (hs : List Hop) : Prop := ∀ h ∈ hs, h.queue = [] ∧ h.buf = [] ∧ h.last = 0

/-- The chain is dead: a stopped hop has nothing left to hand on, and there is nothing behind it. -/
def Dead : List Hop → Prop
  | [] => False
  | h :: hs => (h.st = .down ∧ h.buf = [] ∧ ∀ x ∈ hs, x.queue = [] ∧ x.buf = []) ∨ Dead hs

end RangeDB.Chain

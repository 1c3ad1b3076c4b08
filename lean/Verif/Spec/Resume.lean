import Verif.Spec.ReadOrder

/-!
# Specification: a consumer that resumes

A consumer reads, stops somewhere, and later reads again from the number after the last one it has seen, as the documentation of
`Events` and `EventsByAggregateTypes` suggests. The store grows meanwhile.
-/

namespace RangeDB.Left

/-- Where the consumer starts to read: `globalSequenceNumber` of its next read. -/
def startOf (got : List Nat) : Nat :=
  match got.getLast? with
  | none => 0
  | some x => x + 1

/-- The records from a number on, per type (inmemory_store.go:157, leveldb_store.go:419-425; the stores read so by C03, C04 and C11). -/
def cut (start : Nat) (srcs : List (List Nat × Bool)) : List (List Nat × Bool) :=
  srcs.map (fun p => (p.1.filter (fun x => decide (start ≤ x)), p.2))

/-- One attempt to read: what the store holds by then, per type, and what the goroutines of the read do. -/
structure Attempt where
  srcs : List (List Nat × Bool)
  acts : List Act

/-- What a read hands over: reads of one type, of one stream, or of all events have one goroutine, others a merging one too. -/
def handed (srcs : List (List Nat × Bool)) (acts : List Act) : List Nat :=
  match srcs with
  | [p] => (One.run ⟨.at p.1 p.2, false, []⟩ acts).out
  | _ => (run (init srcs) acts).out

/-- The read has come to its end. -/
def Finished (srcs : List (List Nat × Bool)) (acts : List Act) : Prop :=
  match srcs with
  | [p] => (One.run ⟨.at p.1 p.2, false, []⟩ acts).src = .over
  | _ => (run (init srcs) acts).merge = .over

/-- What a consumer has got after it has read again and again. -/
def resume : (got : List Nat) → List Attempt → List Nat
  | got, [] => got
  | got, a :: as => resume (got ++ handed (cut (startOf got) a.srcs) a.acts) as

/-- All records. -/
def recs (srcs : List (List Nat × Bool)) : List Nat := srcs.flatMap (·.1)

/-- The store grows: nothing is deleted, and what is new has larger numbers. -/
def Grows (a b : List (List Nat × Bool)) : Prop :=
  (∀ x ∈ recs a, x ∈ recs b) ∧ ∀ x ∈ recs b, x ∈ recs a ∨ ∀ y ∈ recs a, y < x

/-- The attempts of one consumer at a store that grows. -/
def OneStore (as : List Attempt) : Prop :=
  (∀ a ∈ as, Sorted a.srcs) ∧ as.Pairwise (fun a b => Grows a.srcs b.srcs)

/-- The full property: whatever happened to the attempts before, after a last one that comes to its end without being cancelled the
consumer has got every record of the store. -/
def C170_full : Prop :=
  ∀ (as : List Attempt) (a : Attempt), OneStore (as ++ [a]) → .cancel ∉ a.acts →
    Finished (cut (startOf (resume [] as)) a.srcs) a.acts → ∀ x ∈ recs a.srcs, x ∈ resume [] (as ++ [a])

end RangeDB.Left

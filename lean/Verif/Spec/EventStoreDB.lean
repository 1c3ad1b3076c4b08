import Verif.Spec.EventLog

/-!
# Specification: the account of an EventStoreDB-backed store

What was persisted, in the order of persisting, and which streams were deleted. Nothing here knows of
revisions, prefixes, tombstones or payloads.
-/

namespace RangeDB.EDB

/-- A persisted event: its stream, the event, and the position the server gave it. -/
structure Entry where
  name : Str
  event : EventRecord
  position : Nat
deriving DecidableEq, Repr

/-- The account. -/
structure Account where
  entries : List Entry
  dead : List Str
deriving DecidableEq, Repr

/-- The empty account. -/
def Account.empty : Account := ⟨[], []⟩

/-- The entries of one stream, oldest first. -/
def Account.stream (A : Account) (name : Str) : List Entry := A.entries.filter (fun e => e.name = name)

/-- How many events were persisted in the stream. -/
def Account.len (A : Account) (name : Str) : Nat := (A.stream name).length

/-- The batch as entries. -/
def batch (name : Str) : List EventRecord → (Nat → Nat) → List Entry
  | [], _ => []
  | er :: ers, positions => ⟨name, er, positions 0⟩ :: batch name ers (fun i => positions (i + 1))

/-- Persisting a batch. -/
def Account.add (A : Account) (name : Str) (ers : List EventRecord) (positions : Nat → Nat) : Account :=
  { A with entries := A.entries ++ batch name ers positions }

/-- Deleting a stream. -/
def Account.kill (A : Account) (name : Str) : Account := { A with dead := name :: A.dead }

/-- The records of a stream: the k-th event has stream sequence number k (from `k` on). `view` is how an
event reads back, `g` how its position becomes the global sequence number. -/
def recordsFrom (view : EventRecord → EventRecord) (g : Nat → Nat) : (k : Nat) → List Entry → List Record
  | _, [] => []
  | k, e :: es => mkRecord e.name (g e.position) k (view e.event) :: recordsFrom view g (k + 1) es

/-- The records of the live stream `name`. -/
def Account.records (view : EventRecord → EventRecord) (g : Nat → Nat) (A : Account) (name : Str) :
    List Record :=
  if name ∈ A.dead then [] else recordsFrom view g 1 (A.stream name)

/-- Event types that do not start with `$` (36). -/
def Plain (ers : List EventRecord) : Prop := ∀ er ∈ ers, er.event.evType.head? ≠ some 36

end RangeDB.EDB

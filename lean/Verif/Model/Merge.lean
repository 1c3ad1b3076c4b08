import Verif.Model.InMemory

/-!
# Model of merge_record_iterators.go
-/

namespace RangeDB

/-- `pipe` (merge_record_iterators.go:3-6) after a successful `ReadNext`: the current record and what
the iterator still holds. An error of the iterator is not kept: `ReadNext` (lines 12-19) returns
`Record != nil`, which is `false` for an error exactly as for exhaustion, and callers look at nothing
else. -/
structure Pipe where
  cur : Record
  rest : List Record
deriving DecidableEq, Repr

/-- `ReadNext` (merge_record_iterators.go:12-19) on an iterator that still holds `rest`. -/
def Pipe.read : List Record → Option Pipe
  | [] => none
  | r :: rs => some ⟨r, rs⟩

/-- The inner loop (merge_record_iterators.go:54-63): emit while the next record of the same pipe has
global sequence number `pos + 1`. Returns what was emitted and the pipe, or `none` if it ran dry. -/
def follow (pos : Nat) (cur : Record) : List Record → List Record × Option Pipe
  | [] => if cur.gsn = pos + 1 then ([cur], none) else ([], some ⟨cur, []⟩)
  | r :: rs =>
    if cur.gsn = pos + 1 then
      let q := follow cur.gsn r rs
      (cur :: q.1, q.2)
    else ([], some ⟨cur, r :: rs⟩)

/-- `getIndexWithSmallestGlobalSequenceNumber` (merge_record_iterators.go:75-85): `best`, `min` are the
loop variables, `i` the index of the head of the list. -/
def smallestIdx : (best min i : Nat) → List Pipe → Nat
  | best, _, _, [] => best
  | best, min, i, p :: ps =>
    if p.cur.gsn < min then smallestIdx i p.cur.gsn (i + 1) ps else smallestIdx best min (i + 1) ps

/-- `remove` (merge_record_iterators.go:70-73): overwrite with the last element, then shorten. -/
def removePipe (pipes : List Pipe) (i : Nat) : List Pipe :=
  match pipes.getLast? with
  | none => []
  | some l => (pipes.set i l).dropLast

/-- The outer loop (merge_record_iterators.go:42-64). `fuel` bounds the rounds; each round emits at
least one record, so the number of records suffices (proved in `Verif/Proof/Merge.lean`). -/
def mergeLoop : (fuel : Nat) → List Pipe → List Record
  | 0, _ => []
  | fuel + 1, pipes =>
    match pipes with
    | [] => []
    | p0 :: _ =>
      let i := smallestIdx 0 p0.cur.gsn 0 pipes
      match pipes[i]? with
      | none => []
      | some p =>
        p.cur ::
          (match p.rest with
           | [] => mergeLoop fuel (removePipe pipes i)
           | r :: rs =>
             let q := follow p.cur.gsn r rs
             q.1 ++ (match q.2 with
               | none => mergeLoop fuel (removePipe pipes i)
               | some p' => mergeLoop fuel (pipes.set i p')))

/-- `MergeRecordIteratorsInOrder` (merge_record_iterators.go:26-68). The merged iterator never carries
an error. -/
def mergeIters (its : List Iter) : Iter :=
  ⟨mergeLoop (its.map (fun it => it.recs.length)).sum (its.filterMap (fun it => Pipe.read it.recs)), none⟩

/-- `EventsByAggregateTypes` of the in-memory store (inmemory_store.go:101-114). `cancelAt t` is the
point at which the iterator for type `t` observes the cancelled context. -/
def IM.eventsByAggregateTypes (z : Serializer) (s : IM.State) (cancelAt : Str → Option Nat) (g : Nat)
    (types : List Str) : Iter :=
  match types with
  | [t] => IM.eventsByType z s (cancelAt t) g t
  | _ => mergeIters (types.map (fun t => IM.eventsByType z s (cancelAt t) g t))

end RangeDB

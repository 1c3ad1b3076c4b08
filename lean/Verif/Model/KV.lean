import Verif.Base.Types

/-!
# The part of goleveldb that the LevelDB store uses

goleveldb is a dependency, not part of /repo; this is the contract assumed of it: a sorted map from
byte strings to byte strings, batches, range iterators and transactions whose commit is atomic.
-/

namespace RangeDB.KV

/-- The default comparer of goleveldb: bytewise lexicographic order, as a Boolean `a < b`. -/
def ltKey : Str → Str → Bool
  | [], [] => false
  | [], _ :: _ => true
  | _ :: _, [] => false
  | a :: as, b :: bs => if a < b then true else if b < a then false else ltKey as bs

/-- A database: key/value pairs in ascending key order. -/
abbrev DB := List (Str × Str)

/-- `db.Get` / `transaction.Get`: `none` is `leveldb.ErrNotFound`. -/
def get : DB → Str → Option Str
  | [], _ => none
  | (k', v) :: db, k => if k' = k then some v else get db k

/-- `Put`. -/
def put : DB → Str → Str → DB
  | [], k, v => [(k, v)]
  | (k', v') :: db, k, v =>
    if k = k' then (k, v) :: db
    else if ltKey k k' then (k, v) :: (k', v') :: db
    else (k', v') :: put db k v

/-- `Delete`. -/
def del (db : DB) (k : Str) : DB := db.filter (fun p => decide (p.1 ≠ k))

/-- An entry of a `leveldb.Batch`. -/
inductive Write where
  | put (k v : Str)
  | del (k : Str)
deriving DecidableEq, Repr

/-- `Batch` application (`transaction.Write`). -/
def apply (db : DB) (batch : List Write) : DB :=
  batch.foldl (fun db w => match w with
    | .put k v => put db k v
    | .del k => del db k) db

/-- `util.BytesPrefix`: the exclusive upper end of the range of keys that start with `p`: `p` cut after
its last byte below 255, with that byte incremented; `none` is "no limit". -/
def prefixLimit (p : Str) : Option Str :=
  match p.reverse.dropWhile (fun c => decide (255 ≤ c)) with
  | [] => none
  | c :: r => some (((c + 1) :: r).reverse)

/-- The entries that an iterator over `util.BytesPrefix(p)` ranges over. -/
def slice (db : DB) (p : Str) : DB :=
  db.filter (fun e => !ltKey e.1 p && (match prefixLimit p with
    | none => true
    | some l => ltKey e.1 l))

/-- Position of an `iterator.Iterator`: before the first entry, at an entry, after the last one. -/
inductive Pos where
  | soi
  | at (i : Nat)
  | eoi
deriving DecidableEq, Repr

/-- An `iterator.Iterator` over the entries `items`. -/
structure DbIter where
  items : DB
  pos : Pos
deriving DecidableEq, Repr

namespace DbIter

/-- `NewIterator(util.BytesPrefix(p))`. -/
def new (db : DB) (p : Str) : DbIter := ⟨slice db p, .soi⟩

/-- `Next`. -/
def next (it : DbIter) : DbIter × Bool :=
  match it.pos with
  | .soi => if 0 < it.items.length then ({ it with pos := .at 0 }, true) else ({ it with pos := .eoi }, false)
  | .at i =>
    if i + 1 < it.items.length then ({ it with pos := .at (i + 1) }, true)
    else ({ it with pos := .eoi }, false)
  | .eoi => (it, false)

/-- `Last`. -/
def last (it : DbIter) : DbIter × Bool :=
  if 0 < it.items.length then ({ it with pos := .at (it.items.length - 1) }, true)
  else ({ it with pos := .eoi }, false)

/-- `Prev`. -/
def prev (it : DbIter) : DbIter × Bool :=
  match it.pos with
  | .soi => (it, false)
  | .at 0 => ({ it with pos := .soi }, false)
  | .at (i + 1) => ({ it with pos := .at i }, true)
  | .eoi => it.last

/-- Index of the first entry whose key is not below `k`. -/
def seekIdx (k : Str) : DB → Nat
  | [] => 0
  | e :: es => if ltKey e.1 k then seekIdx k es + 1 else 0

/-- `Seek`. -/
def seek (it : DbIter) (k : Str) : DbIter × Bool :=
  let i := seekIdx k it.items
  if i < it.items.length then ({ it with pos := .at i }, true) else ({ it with pos := .eoi }, false)

/-- `Key`/`Value`: nil when not at an entry. -/
def entry (it : DbIter) : Option (Str × Str) :=
  match it.pos with
  | .at i => it.items[i]?
  | _ => none

/-- The entries visited by a loop `for iter.Next() { ... }`; `fuel` bounds the number of calls. -/
def each : (fuel : Nat) → DbIter → DB
  | 0, _ => []
  | fuel + 1, it =>
    match it.next with
    | (it', true) => (match it'.entry with
        | some e => e :: each fuel it'
        | none => [])
    | (_, false) => []

end DbIter
end RangeDB.KV

import Verif.Model.KeyStore

/-!
# Model: the DynamoDB key store with the reads it asks for (pkg/crypto/provider/dynamodbkeystore/dynamodb_keystore.go)

`GetItem` is called without `ConsistentRead` (lines 37-49), so DynamoDB may answer from a replica that has not seen the
latest writes: the answer is some earlier version of the item, or that there is none. Reads are not ordered: a later read
may be older. Writes, and the condition of a write, always see the current item. `Model/KeyStore.lean` has the same store
with reads that are up to date.
-/

namespace RangeDB.Key

/-- The versions of each item, oldest first, and how many versions behind each of the next reads will be (up to date when
the list is used up). -/
structure DynOld where
  versions : Str → List Item
  lags : List Nat

def DynOld.new (lags : List Nat) : DynOld := ⟨fun _ => [], lags⟩

/-- `Get` (dynamodb_keystore.go:36-82) on the version that the replica has. -/
def DynOld.get (t : DynOld) (s : Str) : DynOld × Str × Option KErr :=
  let seen := (t.versions s).take ((t.versions s).length - t.lags.headD 0)
  let t := { t with lags := t.lags.tail }
  match seen.getLast? with
  | none => (t, [], some .notFound)
  | some i => if i.deletedAt.getD 0 > 0 then (t, [], some .wasDeleted) else (t, i.key, none)

/-- `Set` (dynamodb_keystore.go:84-114). -/
def DynOld.set (t : DynOld) (s key : Str) : DynOld × Option KErr :=
  if key = [] then (t, some .invalidKey)
  else if t.versions s ≠ [] then (t, some .exists)
  else ({ t with versions := upd t.versions s [⟨key, none⟩] }, none)

/-- `Delete` (dynamodb_keystore.go:116-147). -/
def DynOld.delete (t : DynOld) (now : Nat) (s : Str) : DynOld × Option KErr :=
  ({ t with versions := upd t.versions s (t.versions s ++ [⟨[], some now⟩]) }, none)

/-- The store as a `crypto.KeyStore`. -/
def dynOld : Store DynOld := ⟨DynOld.get, DynOld.set, DynOld.delete⟩

end RangeDB.Key

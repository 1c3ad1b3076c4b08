import Verif.Base.Types

/-!
# Model: the encryption key stores

`pkg/crypto/crypto.go` and `pkg/crypto/provider/*`. A key store is a state type with three calls. Every
call is one atomic step: the in-memory store holds its mutex for the whole call, the database-backed
ones send one statement. Vault's `Set` sends two requests (a read and a write); it is one step here.
-/

namespace RangeDB.Key

/-- The errors of crypto.go:34-50; `other` is any error of a database or HTTP call, or of a full disk,
a random source, ... -/
inductive KErr where
  /-- `ErrKeyWasDeleted` -/
  | wasDeleted
  /-- `ErrKeyNotFound` -/
  | notFound
  /-- `ErrKeyExistsForSubjectID` -/
  | exists
  /-- `ErrKeyAlreadyUsed` -/
  | alreadyUsed
  /-- `ErrInvalidKey` -/
  | invalidKey
  /-- `ErrInvalidCipherText` -/
  | invalidCipherText
  | other
deriving DecidableEq, Repr

/-- `crypto.KeyStore` (crypto.go:28-32) with states of type `σ`. `Get` returns Go's pair of a key and an
error (`none` is `nil`). `Delete` also gets the current Unix time: two stores record it. -/
structure Store (σ : Type) where
  get : σ → Str → σ × Str × Option KErr
  set : σ → Str → Str → σ × Option KErr
  delete : σ → Nat → Str → σ × Option KErr

/-! ## In memory -/

/-- `inMemoryKeyStore` (inmemory_keystore.go:9-13): the two maps. -/
structure Mem where
  /-- `EncryptionKeysBySubjectID` -/
  bySubject : Str → Option Str
  /-- `EncryptionKeys`: is the key a key of this set? -/
  used : Str → Bool

/-- Assignment to a map entry. -/
def upd {β : Type} (m : Str → β) (k : Str) (v : β) : Str → β := fun x => if x = k then v else m x

/-- `New` (inmemory_keystore.go:15-20). -/
def Mem.new : Mem := ⟨fun _ => none, fun _ => false⟩

/-- `Get` (inmemory_keystore.go:22-35). -/
def Mem.get (m : Mem) (s : Str) : Mem × Str × Option KErr :=
  match m.bySubject s with
  | some key => if key = [] then (m, [], some .wasDeleted) else (m, key, none)
  | none => (m, [], some .notFound)

/-- `Set` (inmemory_keystore.go:37-57). -/
def Mem.set (m : Mem) (s key : Str) : Mem × Option KErr :=
  if key = [] then (m, some .invalidKey)
  else if m.used key then (m, some .alreadyUsed)
  else if (m.bySubject s).isSome then (m, some .exists)
  else (⟨upd m.bySubject s (some key), upd m.used key true⟩, none)

/-- `Delete` (inmemory_keystore.go:59-66). -/
def Mem.delete (m : Mem) (_now : Nat) (s : Str) : Mem × Option KErr :=
  (⟨upd m.bySubject s (some []), m.used⟩, none)

/-- The in-memory store as a `crypto.KeyStore`. -/
def mem : Store Mem := ⟨Mem.get, Mem.set, Mem.delete⟩

/-! ## PostgreSQL -/

/-- A row of the table `vault` (postgres_keystore.go:118-122). `EncryptionKey` is never NULL in rows
written by this code. -/
structure Row where
  subject : Str
  key : Str
  deletedAt : Option Nat
deriving DecidableEq, Repr

/-- `Get` (postgres_keystore.go:42-62): `SELECT ... WHERE SubjectID = $1`; `SubjectID` is the primary
key, so there is at most one row. -/
def Pg.get (t : List Row) (s : Str) : List Row × Str × Option KErr :=
  match t.find? (fun r => r.subject = s) with
  | none => (t, [], some .notFound)
  | some r => if r.deletedAt.isSome then (t, [], some .wasDeleted) else (t, r.key, none)

/-- `Set` (postgres_keystore.go:64-87): an `INSERT` into a table with the two unique indexes
`vault_pkey` (created first, so checked first) and `vault_encryptionkey_key`. -/
def Pg.set (t : List Row) (s key : Str) : List Row × Option KErr :=
  if key = [] then (t, some .invalidKey)
  else if t.any (fun r => r.subject = s) then (t, some .exists)
  else if t.any (fun r => r.key = key) then (t, some .alreadyUsed)
  else (t ++ [⟨s, key, none⟩], none)

/-- `Delete` (postgres_keystore.go:89-98): `UPDATE vault SET DeletedAtTimestamp = now, EncryptionKey = ''
WHERE SubjectID = s`. The update of a row fails if another row has the empty key, because
`EncryptionKey` is `UNIQUE` (postgres_keystore.go:120). No row is no error. -/
def Pg.delete (t : List Row) (now : Nat) (s : Str) : List Row × Option KErr :=
  if t.any (fun r => r.subject = s) ∧ t.any (fun r => r.subject ≠ s ∧ r.key = []) then
    (t, some .other)
  else (t.map (fun r => if r.subject = s then ⟨s, [], some now⟩ else r), none)

/-- The PostgreSQL store as a `crypto.KeyStore`. -/
def pg : Store (List Row) := ⟨Pg.get, Pg.set, Pg.delete⟩

/-! ## DynamoDB -/

/-- The attributes of an item: `EncryptionKey` and, if deleted, `DeletedAtTimestamp`. -/
structure Item where
  key : Str
  deletedAt : Option Nat
deriving DecidableEq, Repr

/-- A table: hash key `SubjectID` (dynamodb_keystore.go:149-168). -/
abbrev Dyn := Str → Option Item

/-- `Get` (dynamodb_keystore.go:36-82). A missing `DeletedAtTimestamp` unmarshals as 0. The request asks
for an eventually consistent read; the model reads the current item. -/
def Dyn.get (t : Dyn) (s : Str) : Dyn × Str × Option KErr :=
  match t s with
  | none => (t, [], some .notFound)
  | some i => if i.deletedAt.getD 0 > 0 then (t, [], some .wasDeleted) else (t, i.key, none)

/-- `Set` (dynamodb_keystore.go:84-114): `PutItem` if `attribute_not_exists(SubjectID)`. -/
def Dyn.set (t : Dyn) (s key : Str) : Dyn × Option KErr :=
  if key = [] then (t, some .invalidKey)
  else if (t s).isSome then (t, some .exists)
  else (upd t s (some ⟨key, none⟩), none)

/-- `Delete` (dynamodb_keystore.go:116-147): `UpdateItem`, which creates the item if there is none. -/
def Dyn.delete (t : Dyn) (now : Nat) (s : Str) : Dyn × Option KErr :=
  (upd t s (some ⟨[], some now⟩), none)

/-- The DynamoDB store as a `crypto.KeyStore`. -/
def dyn : Store Dyn := ⟨Dyn.get, Dyn.set, Dyn.delete⟩

/-! ## HashiCorp Vault -/

/-- A Vault KV-2 secret: for each subject its versions, oldest first; `none` is a destroyed version.
Vault's limit on the number of versions is not modelled. -/
abbrev Vault := Str → List (Option Str)

/-- `Get` (hashicorp_vault_keystore.go:37-70): reads the latest version. Vault answers 404 with
`destroyed: true` if that version is destroyed, 404 without metadata if there is no version. -/
def Vault.get (v : Vault) (s : Str) : Vault × Str × Option KErr :=
  match (v s).getLast? with
  | none => (v, [], some .notFound)
  | some none => (v, [], some .wasDeleted)
  | some (some key) => (v, key, none)

/-- `Set` (hashicorp_vault_keystore.go:72-109): refused if `Get` succeeds, otherwise (whatever the error
of `Get` was) writes a new version. -/
def Vault.set (v : Vault) (s key : Str) : Vault × Option KErr :=
  if key = [] then (v, some .invalidKey)
  else match (Vault.get v s).2.2 with
    | none => (v, some .exists)
    | some _ => (upd v s (v s ++ [some key]), none)

/-- `Delete` (hashicorp_vault_keystore.go:111-131) destroys versions 1 and 2:
`deleteAllHashiVersionsJSON` is `{"versions":[1,2]}` (hashicorp_vault_keystore.go:16). Vault ignores
version numbers that do not exist. -/
def Vault.delete (v : Vault) (_now : Nat) (s : Str) : Vault × Option KErr :=
  (upd v s (((v s).take 2).map (fun _ => none) ++ (v s).drop 2), none)

/-- The Vault store as a `crypto.KeyStore`. -/
def vault : Store Vault := ⟨Vault.get, Vault.set, Vault.delete⟩

/-! ## The cache -/

section Cache

variable {σ τ : Type} (first : Store σ) (second : Store τ)

/-- `Get` (cache_keystore.go:19-31). -/
def Cache.get (c : σ × τ) (s : Str) : (σ × τ) × Str × Option KErr :=
  match first.get c.1 s with
  | (f, key, none) => ((f, c.2), key, none)
  | (f, _, some _) =>
    match second.get c.2 s with
    | (t, _, some e) => ((f, t), [], some e)
    | (t, key, none) =>
      match first.set f s key with
      | (f, e) => ((f, t), key, e)

/-- `Set` (cache_keystore.go:33-40). -/
def Cache.set (c : σ × τ) (s key : Str) : (σ × τ) × Option KErr :=
  match second.set c.2 s key with
  | (t, some e) => ((c.1, t), some e)
  | (t, none) =>
    match first.set c.1 s key with
    | (f, e) => ((f, t), e)

/-- `Delete` (cache_keystore.go:42-49). -/
def Cache.delete (c : σ × τ) (now : Nat) (s : Str) : (σ × τ) × Option KErr :=
  match second.delete c.2 now s with
  | (t, some e) => ((c.1, t), some e)
  | (t, none) =>
    match first.delete c.1 now s with
    | (f, e) => ((f, t), e)

/-- The cache as a `crypto.KeyStore`. -/
def cache : Store (σ × τ) := ⟨Cache.get first second, Cache.set first second, Cache.delete first second⟩

end Cache

/-! ## Histories -/

/-- A call of a key store. -/
inductive Call where
  | get (s : Str)
  | set (s key : Str)
  | delete (now : Nat) (s : Str)
deriving DecidableEq, Repr

/-- What a call returned. -/
structure Res where
  key : Str
  err : Option KErr
deriving DecidableEq, Repr

/-- One call: the new state and what it returned. -/
def Store.call {σ : Type} (K : Store σ) (m : σ) : Call → σ × Res
  | .get s => match K.get m s with | (m, k, e) => (m, ⟨k, e⟩)
  | .set s key => match K.set m s key with | (m, e) => (m, ⟨[], e⟩)
  | .delete now s => match K.delete m now s with | (m, e) => (m, ⟨[], e⟩)

/-- A sequence of calls: the final state and the trace, i.e. each call with what it returned. -/
def Store.run {σ : Type} (K : Store σ) : σ → List Call → σ × List (Call × Res)
  | m, [] => (m, [])
  | m, c :: cs => match K.call m c with
    | (m, r) => match K.run m cs with
      | (m, t) => (m, (c, r) :: t)

/-- How one call of an unreliable key store goes. -/
inductive Fault where
  /-- as it should -/
  | fine
  /-- the request is lost: no effect, an error -/
  | lost
  /-- the reply is lost: the effect takes place, the caller sees an error -/
  | lostReply
deriving DecidableEq, Repr

/-- An unreliable key store: the next call goes as the head of a list says (as it should when the list
is used up). -/
def faulty {σ : Type} (K : Store σ) : Store (σ × List Fault) where
  get m s := match m.2.headD .fine, K.get m.1 s with
    | .fine, (n, k, e) => ((n, m.2.tail), k, e)
    | .lost, _ => ((m.1, m.2.tail), [], some .other)
    | .lostReply, (n, _, _) => ((n, m.2.tail), [], some .other)
  set m s key := match m.2.headD .fine, K.set m.1 s key with
    | .fine, (n, e) => ((n, m.2.tail), e)
    | .lost, _ => ((m.1, m.2.tail), some .other)
    | .lostReply, (n, _) => ((n, m.2.tail), some .other)
  delete m now s := match m.2.headD .fine, K.delete m.1 now s with
    | .fine, (n, e) => ((n, m.2.tail), e)
    | .lost, _ => ((m.1, m.2.tail), some .other)
    | .lostReply, (n, _) => ((n, m.2.tail), some .other)

end RangeDB.Key

import Verif.Model.Crypto

/-!
# Goroutines that encrypt, decrypt and use the key store at the same time

`Model/KeyStore` and `Model/Crypto` treat calls as running one after the other. Here every call is a program
of atomic actions on the key store, and any number of calls run at once: a schedule says which goroutine
takes the next action. The engine itself keeps no lock over its `Get` and `Set`
(pkg/crypto/eventencryptor/event_encryptor.go:56-72).
-/

namespace RangeDB.Race

open RangeDB.Key RangeDB.Cry

/-- A program over a shared state `σ`: finished with a result, or an atomic action that changes the state and
goes on with what it saw. -/
inductive Prog (σ β : Type) where
  | ret (b : β)
  | act (f : σ → σ) (k : σ → Prog σ β)

variable {σ τ β γ : Type}

/-- One program after another. -/
def Prog.bind : Prog σ β → (β → Prog σ γ) → Prog σ γ
  | .ret b, g => g b
  | .act f k, g => .act f (fun m => (k m).bind g)

/-- A call that is one atomic action. -/
def atom (f : σ → σ × β) : Prog σ β := .act (fun m => (f m).1) (fun m => .ret (f m).2)

/-- A program of the first of two stores. -/
def Prog.onFst : Prog σ β → Prog (σ × τ) β
  | .ret b => .ret b
  | .act f k => .act (fun c => (f c.1, c.2)) (fun c => (k c.1).onFst)

/-- A program of the second of two stores. -/
def Prog.onSnd : Prog τ β → Prog (σ × τ) β
  | .ret b => .ret b
  | .act f k => .act (fun c => (c.1, f c.2)) (fun c => (k c.2).onSnd)

/-- `crypto.KeyStore` (pkg/crypto/crypto.go:28-32) whose methods are programs. -/
structure CStore (σ : Type) where
  get : Str → Prog σ (Str × Option KErr)
  set : Str → Str → Prog σ (Option KErr)
  delete : Nat → Str → Prog σ (Option KErr)

/-- A key store each of whose methods is one atomic action: the in-memory key store, whose methods hold its
mutex (pkg/crypto/provider/inmemorykeystore/inmemory_keystore.go:22-66), the PostgreSQL key store, whose
methods are one statement each (pkg/crypto/provider/postgreskeystore/postgres_keystore.go:42-98), and the
DynamoDB key store, whose methods are one request each
(pkg/crypto/provider/dynamodbkeystore/dynamodb_keystore.go:43-147). Simplified: DynamoDB's reads are taken to
be up to date, though `GetItem` does not ask for consistent reads; with `dynOld` (Model/DynStale) as `K` they may be old. -/
def atomic (K : Store σ) : CStore σ where
  get s := atom (fun m => K.get m s)
  set s k := atom (fun m => K.set m s k)
  delete now s := atom (fun m => K.delete m now s)

/-- The Vault key store: `Set` reads in one request and writes in another
(pkg/crypto/provider/vaultkeystore/hashicorp_vault_keystore.go:72-109). -/
def vaultC : CStore Vault where
  get s := atom (fun v => Vault.get v s)
  set s key :=
    if key = [] then .ret (some .invalidKey)
    else (atom (fun v => Vault.get v s)).bind (fun r => match r.2 with
      | none => .ret (some .exists)
      | some _ => atom (fun v => (upd v s (v s ++ [some key]), none)))
  delete now s := atom (fun v => Vault.delete v now s)

/-- The cache: every method calls the two stores one after the other
(pkg/crypto/provider/cachekeystore/cache_keystore.go:19-48). -/
def cacheC (first : CStore σ) (second : CStore τ) : CStore (σ × τ) where
  get s := (first.get s).onFst.bind (fun r => match r.2 with
    | none => .ret (r.1, none)
    | some _ => (second.get s).onSnd.bind (fun q => match q.2 with
      | some e => .ret ([], some e)
      | none => (first.set s q.1).onFst.bind (fun e => .ret (q.1, e))))
  set s key := (second.set s key).onSnd.bind (fun e => match e with
    | some e => .ret (some e)
    | none => (first.set s key).onFst)
  delete now s := (second.delete now s).onSnd.bind (fun e => match e with
    | some e => .ret (some e)
    | none => (first.delete now s).onFst)

/-- `engine.Encrypt` (pkg/crypto/eventencryptor/event_encryptor.go:56-72). `raw`: the 32 bytes this call would
draw for a new key; `tape`: the random bytes the cipher would draw. Simplified: drawing a new key does not
fail. -/
def encrypt (C : CStore σ) (enc : Encryptor) (s data raw tape : Str) : Prog σ R :=
  (C.get s).bind (fun r => match r.2 with
    | none => .ret (enc.encrypt r.1 data tape).1
    | some .notFound => (C.set s (b64enc raw)).bind (fun e => match e with
      | none => .ret (enc.encrypt (b64enc raw) data tape).1
      | some e => .ret (.err e))
    | some e => .ret (.err e))

/-- `engine.Decrypt` (pkg/crypto/eventencryptor/event_encryptor.go:74-81). -/
def decrypt (C : CStore σ) (enc : Encryptor) (s cipher : Str) : Prog σ R :=
  (C.get s).bind (fun r => match r.2 with
    | none => .ret (enc.decrypt r.1 cipher)
    | some e => .ret (.err e))

/-- The calls of an application: `Encrypt` and `Decrypt` of the engine, and the key store's own methods. -/
inductive Call where
  | encrypt (s data raw tape : Str)
  | decrypt (s cipher : Str)
  | get (s : Str)
  | set (s key : Str)
  | delete (now : Nat) (s : Str)
deriving DecidableEq, Repr

/-- An error, or success without a value. -/
def ofErr : Option KErr → R
  | none => .ok []
  | some e => .err e

/-- The program of a call. -/
def prog (C : CStore σ) (enc : Encryptor) : Call → Prog σ R
  | .encrypt s data raw tape => encrypt C enc s data raw tape
  | .decrypt s cipher => decrypt C enc s cipher
  | .get s => (C.get s).bind (fun r => match r.2 with
    | none => .ret (.ok r.1)
    | some e => .ret (.err e))
  | .set s key => (C.set s key).bind (fun e => .ret (ofErr e))
  | .delete now s => (C.delete now s).bind (fun e => .ret (ofErr e))

/-- The key store and what each goroutine has still to do. -/
structure Sys (σ : Type) where
  ks : σ
  threads : Nat → Prog σ R

/-- Goroutine `i` is to make the call `calls i`. Goroutines that make several calls one after the other are
covered: each call is a goroutine of its own here, which starts when it is first scheduled. -/
def Sys.init (C : CStore σ) (enc : Encryptor) (m0 : σ) (calls : Nat → Call) : Sys σ :=
  ⟨m0, fun i => prog C enc (calls i)⟩

/-- Goroutine `i` takes one action. -/
def Sys.step (y : Sys σ) (i : Nat) : Sys σ :=
  match y.threads i with
  | .ret _ => y
  | .act f k => ⟨f y.ks, fun n => if n = i then k y.ks else y.threads n⟩

/-- A schedule. -/
def Sys.run (y : Sys σ) (sched : List Nat) : Sys σ := sched.foldl Sys.step y

/-- Goroutine `i` has finished with the result `r`. -/
def Sys.Finished (y : Sys σ) (i : Nat) (r : R) : Prop := y.threads i = .ret r

end RangeDB.Race

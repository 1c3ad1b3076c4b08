import Verif.Model.Encrypted
import Verif.Model.Restarts

/-!
# Model: the encrypted store over a LevelDB store, with restarts and crashes

`provider/encryptedstore/*` on top of `provider/leveldbstore/leveldb_store.go`. Everything but the store underneath is as in
`Verif/Model/Encrypted.lean`. What a new process finds of the key store is a parameter: a PostgreSQL, DynamoDB or Vault key store
is elsewhere and loses nothing; the in-memory key store is empty again (inmemory_keystore.go:15-20).
-/

namespace RangeDB.EL

open RangeDB.Key RangeDB.Cry RangeDB.ES

variable {σ : Type}

/-- An encrypted store: the LevelDB store underneath, the key store and the sources of randomness (encrypted_store.go:9-12). -/
structure State (σ : Type) where
  parent : LD.State
  world : World σ

/-- `Save` (`expected = none`) and `OptimisticSave` (encrypted_store.go:43-63). -/
def save (C : Codec) (K : Store σ) (enc : Encryptor) (z : Serializer) (s : State σ) (st : Str) (expected cancelAt : Option Nat)
    (ers : List EventRecord) : State σ × SaveEnd :=
  match encBatch C K enc s.world ers with
  | (w, _, .panic) => (⟨s.parent, w⟩, .panic)
  | (w, _, .err e) => (⟨s.parent, w⟩, .encErr e)
  | (w, ers', .ok) =>
    let r := LD.saveEvents z s.parent st expected cancelAt ers'
    (⟨r.state, w⟩, .parent r.out)

/-- `OptimisticDeleteStream` (encrypted_store.go:39-41). -/
def delete (z : Serializer) (s : State σ) (st : Str) (expected : Nat) (cancelled : Bool) : State σ × Outcome Unit :=
  let r := LD.deleteStream z s.parent st expected cancelled
  (⟨r.1, s.world⟩, r.2)

/-- What a reader gets from an iterator of the LevelDB store through the encrypted store (encrypted_store.go:27-37). -/
def drain (C : Codec) (K : Store σ) (enc : Encryptor) (w : World σ) : Outcome Iter → Outcome Got
  | .ok it => .ok (readAll C K enc w it).2
  | .err e => .err e
  | .panic => .panic
  | .blocked => .blocked

/-- `Events`, drained (encrypted_store.go:27-29). -/
def events (C : Codec) (K : Store σ) (enc : Encryptor) (z : Serializer) (s : State σ) (cancelAt : Option Nat) (g : Nat) :
    Outcome Got := drain C K enc s.world (LD.events z s.parent cancelAt g)

/-- `EventsByStream`, drained (encrypted_store.go:35-37). -/
def eventsByStream (C : Codec) (K : Store σ) (enc : Encryptor) (z : Serializer) (s : State σ) (cancelAt : Option Nat) (n : Nat)
    (st : Str) : Outcome Got := drain C K enc s.world (LD.eventsByStream z s.parent cancelAt n st)

/-- `EventsByAggregateTypes`, drained (encrypted_store.go:31-33). -/
def eventsByTypes (C : Codec) (K : Store σ) (enc : Encryptor) (z : Serializer) (s : State σ) (cancelAt : Str → Option Nat) (g : Nat)
    (types : List Str) : Outcome Got := drain C K enc s.world (LD.eventsByAggregateTypes z s.parent cancelAt g types)

/-- `TotalEventsInStream` (encrypted_store.go:73-75). -/
def totalEventsInStream (s : State σ) (st : Str) (cancelled : Bool) : Outcome Nat :=
  LD.totalEventsInStream s.parent st cancelled

/-- A new process: it opens the directory (leveldb_store.go:80-100) and connects to the key store. -/
def reopened (keep : σ → σ) (parent : LD.State) (w : World σ) : State σ := ⟨parent, { w with ks := keep w.ks }⟩

/-- What can happen: calls, operations on the key store and engine by anybody, and the end of a process at any moment, after
which another process goes on. A process that is killed within the encryption of one event has stored the key of its subject or
not: that is `killedEncrypting` before or after an operation of anybody that stores it. -/
inductive Turn where
  | save (st : Str) (expected cancelAt : Option Nat) (ers : List EventRecord)
  | delete (st : Str) (expected : Nat) (cancelled : Bool)
  | world (o : Cry.Op)
  | restart
  /-- killed within a save, when `k` of its events have been encrypted (encrypted_store.go:44-49, 55-60) -/
  | killedEncrypting (ers : List EventRecord) (k : Nat)
  /-- killed within a save, when all events have been encrypted and the LevelDB store has taken `n` steps -/
  | killedSaving (st : Str) (expected cancelAt : Option Nat) (ers : List EventRecord) (n : Nat)
  /-- killed within a delete -/
  | killedDeleting (st : Str) (expected : Nat) (cancelled : Bool) (n : Nat)

/-- One of these (encrypted_store.go:39-63, leveldb_store.go:80-100, 133-193, 203-274). A save whose events cannot all be
encrypted never calls the LevelDB store: for it `killedSaving` is a kill after it returned. -/
def step (C : Codec) (K : Store σ) (enc : Encryptor) (z : Serializer) (keep : σ → σ) (s : State σ) : Turn → State σ
  | .save st expected cancelAt ers => (save C K enc z s st expected cancelAt ers).1
  | .delete st expected cancelled => (delete z s st expected cancelled).1
  | .world o => { s with world := opStep K enc s.world o }
  | .restart => reopened keep (LD.reopen s.parent.db) s.world
  | .killedEncrypting ers k => reopened keep (LD.reopen s.parent.db) (encBatch C K enc s.world (ers.take k)).1
  | .killedSaving st expected cancelAt ers n =>
    match encBatch C K enc s.world ers with
    | (w, ers', .ok) => reopened keep (LD.crashed z s.parent (.save st expected cancelAt ers') n) w
    | (w, _, _) => reopened keep (LD.reopen s.parent.db) w
  | .killedDeleting st expected cancelled n =>
    reopened keep (LD.crashed z s.parent (.delete st expected cancelled) n) s.world

/-- An encrypted store over an empty directory. -/
def start (m0 : σ) (keys nonces : Str) : State σ := ⟨LD.init, ⟨m0, keys, nonces⟩⟩

/-- The store after its life so far. -/
def run (C : Codec) (K : Store σ) (enc : Encryptor) (z : Serializer) (keep : σ → σ) (s : State σ) (ts : List Turn) : State σ :=
  ts.foldl (step C K enc z keep) s

end RangeDB.EL

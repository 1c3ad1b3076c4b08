import Verif.Proof.KeyRace
import Verif.Thm.Crypto

/-!
# Encryption by goroutines that run at the same time (C83, C84, C85)

`calls n` is the call that goroutine `n` makes; a schedule is a list of goroutines. A call whose goroutine
does not occur in `before` has not begun when `before` is over.
-/

namespace RangeDB.Race

open RangeDB.Key RangeDB.Cry

variable {σ : Type}

/-- Nobody deletes subject `s`. -/
def NeverDeleted (calls : Nat → Call) (s : Str) : Prop := ∀ n now, calls n ≠ .delete now s

/-! ## C83 -/

/-- The claim of **C83** for a key store: whatever runs at the same time, once an `Encrypt` has returned a
cipher text, every `Decrypt` of it that begins later and finishes returns the plain text. -/
def Readable (C : CStore σ) (m0 : σ) (enc : Encryptor) : Prop :=
  ∀ (calls : Nat → Call) (s : Str), NeverDeleted calls s →
    ∀ (before after : List Nat) (i j : Nat) (data raw tape cipher : Str) (r : Cry.R), Bytes data → Bytes tape →
      calls i = .encrypt s data raw tape →
      ((Sys.init C enc m0 calls).run before).Finished i (.ok cipher) →
      j ∉ before → calls j = .decrypt s cipher →
      ((Sys.init C enc m0 calls).run (before ++ after)).Finished j r → r = .ok data

/-- **C83**, the full statement: for every key store of the library (behind a cache or not). -/
def C83_full : Prop := ∀ enc : Encryptor, enc.Lawful →
  Readable (atomic mem) Mem.new enc ∧ Readable (atomic pg) [] enc ∧ Readable (atomic dyn) (fun _ => none) enc ∧
  Readable vaultC (fun _ => []) enc

/-- An AEAD whose tag is the first byte of the key. -/
def keyedAead : Aead where
  sealed key _ p := p.map (255 - ·) ++ [key.headD 0 % 256]
  opened key _ c := if c.getLast? = some (key.headD 0 % 256) then some (c.dropLast.map (255 - ·)) else none

theorem keyedAead_lawful : keyedAead.Lawful where
  open_seal k n p hp := by
    simp only [keyedAead, List.getLast?_append, List.getLast?_singleton, Option.some_or, if_true,
      List.dropLast_concat, List.map_map, Option.some.injEq]
    conv => rhs; rw [← List.map_id p]
    apply List.map_congr_left
    intro b hb
    have := hp b hb
    simp only [Function.comp, id]
    omega
  bytes k n p hp := by
    intro b hb
    simp only [keyedAead, List.mem_append, List.mem_map, List.mem_singleton] at hb
    rcases hb with ⟨a, _, rfl⟩ | rfl
    · omega
    · omega

/-- Two first encryptions for one subject, and a decryption of what the first returned. -/
def raceCalls (cipher : Str) : Nat → Call
  | 0 => .encrypt [1] [72, 105] (List.replicate 32 1) (tape0 12)
  | 1 => .encrypt [1] [88] (List.replicate 32 2) (tape0 12)
  | 2 => .decrypt [1] cipher
  | _ => .get [2]

/-- What the first encryption returns. -/
def raceCipher : Str := b64enc (tape0 12 ++ keyedAead.sealed (List.replicate 32 1) [] [72, 105])

/-- **C83 is false** of the Vault key store: two goroutines find no key for a subject and both store one; the
later write wins, although both encryptions succeed, and what the first encrypted cannot be read any more. -/
theorem C83_false_vault : ¬ Readable vaultC (fun _ => []) (gcm keyedAead) := by
  intro h
  have hb : Bytes ([72, 105] : Str) := by intro b hb; simp at hb; omega
  have h1 := h (raceCalls raceCipher) [1] (by
    intro n now
    match n with
    | 0 | 1 | 2 | _ + 3 => simp [raceCalls])
    [0, 1, 0, 1, 0, 1] [2] 0 2 [72, 105] (List.replicate 32 1) (tape0 12) raceCipher (.err .other) hb
    (tape0_bytes _ (by decide)) rfl rfl (by decide) rfl rfl
  cases h1

theorem C83_false : ¬ C83_full := fun h =>
  C83_false_vault (h (gcm keyedAead) (gcm_lawful keyedAead_lawful)).2.2.2

/-- Both encryptions of the counterexample succeed. -/
example : ((Sys.init vaultC (gcm keyedAead) (fun _ => []) (raceCalls raceCipher)).run [0, 1, 0, 1, 0, 1]).Finished 0
      (.ok raceCipher) ∧
    ((Sys.init vaultC (gcm keyedAead) (fun _ => []) (raceCalls raceCipher)).run [0, 1, 0, 1, 0, 1]).Finished 1
      (.ok (b64enc (tape0 12 ++ keyedAead.sealed (List.replicate 32 2) [] [88]))) := ⟨rfl, rfl⟩

theorem readable_of {C : CStore σ} {R : Str → σ → σ → Prop} {ok : σ → Prop} {has : Str → σ → Str → Prop}
    (H : ∀ s, Holds C s (R s) ok (has s)) {m0 : σ} (h0 : ok m0) {enc : Encryptor} (he : enc.Lawful) :
    Readable C m0 enc := by
  intro calls s hd before after i j data raw tape cipher r hdata htape hi hf hj hcj hfj
  obtain ⟨k, hek, hlater⟩ := (H s).main (enc := enc) h0 calls hd before after i data raw tape cipher hi hf
  rw [(hlater j hj).2 cipher r hcj hfj]
  exact he.roundTrip k data tape cipher _ hdata htape (Prod.ext hek rfl)

/-- **C83**, what holds: with the in-memory, PostgreSQL and DynamoDB key stores, and with an in-memory cache
in front of each of them, whatever the backing store holds at the start. Missing: the Vault key store, for
which it is false. -/
theorem C83_partial (enc : Encryptor) (he : enc.Lawful) (m : Mem) (t : List Row) (d : Dyn) :
    Readable (atomic mem) m enc ∧ Readable (atomic pg) t enc ∧ Readable (atomic dyn) d enc ∧
    Readable (cacheC (atomic mem) (atomic mem)) (Mem.new, m) enc ∧
    Readable (cacheC (atomic mem) (atomic pg)) (Mem.new, t) enc ∧
    Readable (cacheC (atomic mem) (atomic dyn)) (Mem.new, d) enc :=
  ⟨readable_of (fun s => atomic_holds mem_keeps s) trivial he,
   readable_of (fun s => atomic_holds pg_keeps s) trivial he,
   readable_of (fun s => atomic_holds dyn_keeps s) trivial he,
   readable_of (fun s => cache_holds mem_keeps s) trivial he,
   readable_of (fun s => cache_holds pg_keeps s) trivial he,
   readable_of (fun s => cache_holds dyn_keeps s) trivial he⟩

/-- The hypotheses are met with two racing encryptions, with and without a cache. -/
example : ((Sys.init (atomic mem) (gcm keyedAead) Mem.new (raceCalls raceCipher)).run [0, 1, 0, 1]).Finished 0
      (.ok raceCipher) ∧
    ((Sys.init (atomic mem) (gcm keyedAead) Mem.new (raceCalls raceCipher)).run ([0, 1, 0, 1] ++ [2])).Finished 2
      (.ok [72, 105]) ∧
    ((Sys.init (cacheC (atomic mem) (atomic dyn)) (gcm keyedAead) (Mem.new, fun _ => none)
      (raceCalls raceCipher)).run [0, 1, 0, 1, 0, 1, 0]).Finished 0 (.ok raceCipher) := ⟨rfl, rfl, rfl⟩

/-! ## C84 -/

/-- The claim of **C84** for a key store: goroutines that only encrypt and decrypt do not make each other fail:
no `Encrypt` or `Decrypt` returns an error that says that a key exists. -/
def NoClash (C : CStore σ) (m0 : σ) (enc : Encryptor) : Prop :=
  ∀ calls : Nat → Call, (∀ n, (∃ s data raw tape, calls n = .encrypt s data raw tape) ∨
      ∃ s cipher, calls n = .decrypt s cipher) →
    ∀ (sched : List Nat) (i : Nat) (r : Cry.R), ((Sys.init C enc m0 calls).run sched).Finished i r →
      r ≠ .err .exists ∧ r ≠ .err .alreadyUsed

/-- The full claim of **C84**: for the in-memory key store, and for a cache in front of it. -/
def C84_full : Prop := ∀ enc : Encryptor, enc.Lawful →
  NoClash (atomic mem) Mem.new enc ∧ ∀ m, NoClash (cacheC (atomic mem) (atomic mem)) (Mem.new, m) enc

/-- Two encryptions for a new subject at once. -/
def clashCalls : Nat → Call
  | 0 => .encrypt [1] [72, 105] (List.replicate 32 1) (tape0 12)
  | _ => .encrypt [1] [88] (List.replicate 32 2) (tape0 12)

/-- **C84 is false** of the in-memory key store: of two first encryptions for a subject one can fail with
`ErrKeyExistsForSubjectID`; the save it belongs to fails. -/
theorem C84_false_encrypt : ¬ NoClash (atomic mem) Mem.new (gcm keyedAead) := by
  intro h
  exact (h clashCalls (by
    intro n
    left
    match n with
    | 0 => exact ⟨_, _, _, _, rfl⟩
    | _ + 1 => exact ⟨_, _, _, _, rfl⟩) [0, 1, 0, 1] 1 (.err .exists) rfl).1 rfl

theorem C84_false : ¬ C84_full := fun h =>
  C84_false_encrypt (h (gcm keyedAead) (gcm_lawful keyedAead_lawful)).1

/-- **C84 is false** of a new cache in front of a store that has the key: of two decryptions at once one fails
with `ErrKeyAlreadyUsed`, although the key is there. -/
theorem C84_false_cache : ∃ m : Mem, (mem.get m [1]).2 = (b64enc (List.replicate 32 1), none) ∧
    ((Sys.init (cacheC (atomic mem) (atomic mem)) (gcm keyedAead) (Mem.new, m)
      (fun _ => .decrypt [1] raceCipher)).run [0, 1, 0, 1, 0, 1]).Finished 0 (.ok [72, 105]) ∧
    ((Sys.init (cacheC (atomic mem) (atomic mem)) (gcm keyedAead) (Mem.new, m)
      (fun _ => .decrypt [1] raceCipher)).run [0, 1, 0, 1, 0, 1]).Finished 1 (.err .alreadyUsed) :=
  ⟨(mem.set Mem.new [1] (b64enc (List.replicate 32 1))).1, rfl, rfl, rfl⟩

/-- One `Encrypt` for a subject has succeeded: there is a key such that all calls for the subject that begin
later do what the engine does with that key, and nothing else. -/
def Settled (C : CStore σ) (m0 : σ) (enc : Encryptor) : Prop :=
  ∀ (calls : Nat → Call) (s : Str), NeverDeleted calls s →
    ∀ (before after : List Nat) (i : Nat) (data raw tape cipher : Str),
      calls i = .encrypt s data raw tape →
      ((Sys.init C enc m0 calls).run before).Finished i (.ok cipher) →
      ∃ key, (enc.encrypt key data tape).1 = .ok cipher ∧ ∀ j, j ∉ before →
        (∀ data' raw' tape' r, calls j = .encrypt s data' raw' tape' →
          ((Sys.init C enc m0 calls).run (before ++ after)).Finished j r → r = (enc.encrypt key data' tape').1) ∧
        (∀ cipher' r, calls j = .decrypt s cipher' →
          ((Sys.init C enc m0 calls).run (before ++ after)).Finished j r → r = enc.decrypt key cipher')

/-- **C84**, what holds: once one encryption for a subject has succeeded, every later call for it uses the
same key and does not fail because of other goroutines. Missing: calls that run at the same time as the first
encryption, or as the first read through a new cache, for which it is false. -/
theorem C84_partial (enc : Encryptor) (m : Mem) (t : List Row) (d : Dyn) :
    Settled (atomic mem) m enc ∧ Settled (atomic pg) t enc ∧ Settled (atomic dyn) d enc ∧
    Settled (cacheC (atomic mem) (atomic mem)) (Mem.new, m) enc ∧
    Settled (cacheC (atomic mem) (atomic pg)) (Mem.new, t) enc ∧
    Settled (cacheC (atomic mem) (atomic dyn)) (Mem.new, d) enc :=
  ⟨fun calls s hd b a i x1 x2 x3 x4 h1 h2 =>
      (atomic_holds mem_keeps s).main trivial calls hd b a i x1 x2 x3 x4 h1 h2,
   fun calls s hd b a i x1 x2 x3 x4 h1 h2 =>
      (atomic_holds pg_keeps s).main trivial calls hd b a i x1 x2 x3 x4 h1 h2,
   fun calls s hd b a i x1 x2 x3 x4 h1 h2 =>
      (atomic_holds dyn_keeps s).main trivial calls hd b a i x1 x2 x3 x4 h1 h2,
   fun calls s hd b a i x1 x2 x3 x4 h1 h2 =>
      (cache_holds mem_keeps s).main trivial calls hd b a i x1 x2 x3 x4 h1 h2,
   fun calls s hd b a i x1 x2 x3 x4 h1 h2 =>
      (cache_holds pg_keeps s).main trivial calls hd b a i x1 x2 x3 x4 h1 h2,
   fun calls s hd b a i x1 x2 x3 x4 h1 h2 =>
      (cache_holds dyn_keeps s).main trivial calls hd b a i x1 x2 x3 x4 h1 h2⟩

/-- A later encryption for the same subject uses the first key: its own key bytes are not used. -/
example : ((Sys.init (atomic mem) (gcm keyedAead) Mem.new clashCalls).run ([0, 0] ++ [1])).Finished 1
    ((gcm keyedAead).encrypt (b64enc (List.replicate 32 1)) [88] (tape0 12)).1 := rfl

/-! ## C85 -/

/-- The claim of **C85** for a key store: once a `Delete` of subject `s` has returned `nil`, every call for it
that begins later fails, `Encrypt`, `Decrypt` and `Get` with `ErrKeyWasDeleted`, whatever was under way during
the deletion. -/
def Gone (C : CStore σ) (m0 : σ) (enc : Encryptor) : Prop :=
  ∀ (calls : Nat → Call) (s : Str), (∀ n now x, calls n = .delete now x → 0 < now) →
    ∀ (before after : List Nat) (i j now : Nat) (r : Cry.R), calls i = .delete now s →
      ((Sys.init C enc m0 calls).run before).Finished i (.ok []) → j ∉ before →
      ((Sys.init C enc m0 calls).run (before ++ after)).Finished j r →
      (((∃ data raw tape, calls j = .encrypt s data raw tape) ∨ (∃ cipher, calls j = .decrypt s cipher) ∨
        calls j = .get s) → r = .err .wasDeleted) ∧
      (∀ key, calls j = .set s key → ∃ e, r = .err e)

/-- The full claim of **C85**: for every key store of the library. -/
def C85_full : Prop := ∀ enc : Encryptor, enc.Lawful →
  Gone (atomic mem) Mem.new enc ∧ Gone (atomic pg) [] enc ∧ Gone (atomic dyn) (fun _ => none) enc ∧
  Gone vaultC (fun _ => []) enc

/-- An encryption, a deletion and a later decryption. -/
def goneCalls : Nat → Call
  | 0 => .encrypt [1] [72, 105] (List.replicate 32 1) (tape0 12)
  | 1 => .delete 7 [1]
  | _ => .decrypt [1] raceCipher

/-- **C85 is false** of the Vault and the PostgreSQL key stores: an encryption under way stores its key after
the deletion, and the data can be decrypted. -/
theorem C85_false : ¬ Gone vaultC (fun _ => []) (gcm keyedAead) ∧ ¬ Gone (atomic pg) [] (gcm keyedAead) := by
  have ht : ∀ n now x, goneCalls n = .delete now x → 0 < now := by
    intro n now x h
    match n with
    | 0 => simp [goneCalls] at h
    | 1 => simp [goneCalls] at h; omega
    | _ + 2 => simp [goneCalls] at h
  constructor
  · intro h
    have := (h goneCalls [1] ht [0, 0, 1, 0] [2] 1 2 7 (.ok [72, 105]) rfl rfl (by decide) rfl).1
      (Or.inr (Or.inl ⟨_, rfl⟩))
    cases this
  · intro h
    have := (h goneCalls [1] ht [0, 1, 0] [2] 1 2 7 (.ok [72, 105]) rfl rfl (by decide) rfl).1
      (Or.inr (Or.inl ⟨_, rfl⟩))
    cases this

theorem gone_of {C : CStore σ} {R : Str → σ → σ → Prop} {dead : Str → σ → Prop}
    (H : ∀ s, Buries C s (R s) (dead s)) (m0 : σ) (enc : Encryptor) : Gone C m0 enc := by
  intro calls s ht before after i j now r hi hf hj hfj
  refine (H s).main calls (fun n => ?_) before after i now hi hf j hj r hfj
  cases hcn : calls n with
  | delete now' x => exact ht n now' x hcn
  | _ => trivial

/-- **C85**, what holds: with the in-memory and DynamoDB key stores, and with an in-memory cache in front of
them, from every state. Missing: PostgreSQL (for subjects without a key) and Vault, for which it is false. -/
theorem C85_partial (enc : Encryptor) (m f : Mem) (d : Dyn) :
    Gone (atomic mem) m enc ∧ Gone (atomic dyn) d enc ∧
    Gone (cacheC (atomic mem) (atomic mem)) (f, m) enc ∧ Gone (cacheC (atomic mem) (atomic dyn)) (f, d) enc :=
  ⟨gone_of (fun s => atomic_buries mem_sticky s) m enc, gone_of (fun s => atomic_buries dyn_sticky s) d enc,
   gone_of (fun s => cache_buries mem_sticky mem_sticky s) (f, m) enc,
   gone_of (fun s => cache_buries mem_sticky dyn_sticky s) (f, d) enc⟩

/-- The encryption under way fails; so does the later decryption. -/
example : ((Sys.init (atomic mem) (gcm keyedAead) Mem.new goneCalls).run [0, 1, 0]).Finished 1 (.ok []) ∧
    ((Sys.init (atomic mem) (gcm keyedAead) Mem.new goneCalls).run ([0, 1, 0] ++ [2])).Finished 0 (.err .exists) ∧
    ((Sys.init (atomic mem) (gcm keyedAead) Mem.new goneCalls).run ([0, 1, 0] ++ [2])).Finished 2 (.err .wasDeleted) :=
  ⟨rfl, rfl, rfl⟩

end RangeDB.Race

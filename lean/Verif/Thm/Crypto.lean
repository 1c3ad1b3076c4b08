import Verif.Proof.Engine

/-!
# Properties of encryption

A world is a key store with the two random sources. `opRun K enc w ops` performs operations one after
another: calls of the key store by anybody, and generated `Encrypt` and `Decrypt` methods of events.
The ciphers themselves are parameters about which only `Aead.Lawful` and `BlockCipher.Lawful` are
assumed (opening undoes sealing, the block cipher is invertible).
-/

namespace RangeDB.Cry

open RangeDB.Key

variable {σ : Type}

/-! ## The engines -/

/-- **C28.** AES/GCM: what was encrypted with a key is decrypted with it. -/
theorem C28_gcm (A : Aead) (hA : A.Lawful) (key plain tape cipher rest : Str) (hp : Bytes plain)
    (ht : Bytes tape) (h : (gcm A).encrypt key plain tape = (.ok cipher, rest)) :
    (gcm A).decrypt key cipher = .ok plain :=
  (gcm_lawful hA).roundTrip key plain tape cipher rest hp ht h

/-- **C28.** XChaCha20-Poly1305. -/
theorem C28_xchacha (A : Aead) (hA : A.Lawful) (key plain tape cipher rest : Str) (hp : Bytes plain)
    (ht : Bytes tape) (h : (xcha A).encrypt key plain tape = (.ok cipher, rest)) :
    (xcha A).decrypt key cipher = .ok plain :=
  (xcha_lawful hA).roundTrip key plain tape cipher rest hp ht h

/-- **C28.** AES/CBC with PKCS#5 padding. -/
theorem C28_cbc (B : BlockCipher) (hB : B.Lawful) (key plain tape cipher rest : Str)
    (hp : Bytes plain) (ht : Bytes tape)
    (h : (cbc B).encrypt key plain tape = (.ok cipher, rest)) :
    (cbc B).decrypt key cipher = .ok plain :=
  (cbc_lawful hB).roundTrip key plain tape cipher rest hp ht h

/-- **C28.** Encryption succeeds exactly when the key is base64 for an AES key and the random source
yields a nonce. -/
theorem C28_gcm_succeeds (A : Aead) (key plain tape : Str) :
    (∃ c, ((gcm A).encrypt key plain tape).1 = .ok c) ↔
      12 ≤ tape.length ∧ ∃ raw, b64dec key = some raw ∧
        (raw.length = 16 ∨ raw.length = 24 ∨ raw.length = 32) := by
  simp only [gcm, encrypt64]
  cases hk : b64dec key with
  | none => simp
  | some raw =>
    simp only [Option.some.injEq, exists_eq_left', gcmEnc]
    by_cases h1 : raw.length = 16 ∨ raw.length = 24 ∨ raw.length = 32
    · have : aesKeyOk raw = true := by simpa [aesKeyOk, or_assoc] using h1
      rw [if_neg (by simp [this])]
      by_cases h2 : tape.length < 12
      · simp only [readFull, if_pos h2]
        simp; omega
      · simp only [readFull, if_neg h2]
        simp [h1]; omega
    · have : ¬ aesKeyOk raw = true := by simpa [aesKeyOk, or_assoc] using h1
      rw [if_pos this]
      simp [h1]

/-- A lawful toy AEAD: complement of every byte, and a tag byte. -/
def toyAead : Aead where
  sealed _ _ p := p.map (255 - ·) ++ [7]
  opened _ _ c := if c.getLast? = some 7 then some (c.dropLast.map (255 - ·)) else none

theorem toyAead_lawful : toyAead.Lawful where
  open_seal k n p hp := by
    simp only [toyAead, List.getLast?_append, List.getLast?_singleton, Option.some_or, if_true,
      List.dropLast_concat, List.map_map, Option.some.injEq]
    conv => rhs; rw [← List.map_id p]
    apply List.map_congr_left
    intro a ha
    have := hp a ha
    simp only [Function.comp, id]; omega
  bytes k n p _ := by
    intro b hb
    simp only [toyAead, List.mem_append, List.mem_map, List.mem_singleton] at hb
    rcases hb with ⟨a, _, rfl⟩ | rfl <;> omega

/-- A lawful toy block cipher: reversal of the block. -/
def toyBlock : BlockCipher := ⟨fun _ b => b.reverse, fun _ b => b.reverse⟩

theorem toyBlock_lawful : toyBlock.Lawful where
  dec_enc _ b _ _ := by simp [toyBlock]
  len _ b h := by simp [toyBlock, h]
  lenD _ b h := by simp [toyBlock, h]
  bytes _ b _ h := by intro x hx; exact h x (by simpa [toyBlock] using hx)

/-- A random source: bytes 0, 1, 2, ... -/
def tape0 (n : Nat) : Str := List.range n

theorem tape0_bytes (n : Nat) (h : n ≤ 256) : Bytes (tape0 n) := by
  intro b hb
  simp only [tape0, List.mem_range] at hb
  omega

example : ((gcm toyAead).encrypt (b64enc (tape0 32)) [72, 105] (tape0 20)).1 ≠ .err .other ∧
    (gcm toyAead).decrypt (b64enc (tape0 32))
      (b64enc (tape0 12 ++ toyAead.sealed [] [] [72, 105])) = .ok [72, 105] := by decide
example : ((cbc toyBlock).encrypt (b64enc (tape0 32)) [72, 105] (tape0 20)).1 =
    .ok (b64enc (tape0 16 ++ (xorS (pkcs5Pad [72, 105] 16) (tape0 16)).reverse)) := by decide

/-- **C28.** The rot13 engine of the tests round-trips too. -/
theorem C28_rot13 (key plain tape cipher rest : Str) (h : rot13.encrypt key plain tape = (.ok cipher, rest)) :
    rot13.decrypt key cipher = .ok plain := by
  simp only [rot13, Prod.mk.injEq, R.ok.injEq] at h
  obtain ⟨rfl, _⟩ := h
  simp only [rot13, R.ok.injEq, List.map_map]
  conv => rhs; rw [← List.map_id plain]
  congr 1; funext r; exact rot_rot r

example : rot13.encrypt [] [122, 65, 33] [] = (.ok [109, 78, 33], []) := by decide

/-! ## C28: events -/

/-- Encryption of events is undone by decryption: take any operations (`before`), then encrypt an event
`e`, successfully, then any operations (`after`) that do not delete its subject, then decrypt what the
encryption left: this restores `e`. (The numeric fields are 64-bit integers and the fields that hold
their cipher texts are empty at first.) -/
def Restores (K : Store σ) (m0 : σ) (enc : Encryptor) : Prop :=
  ∀ (keys nonces : Str) (before after : List Op) (e e' : PEvent),
    Bytes keys → Bytes nonces → (∀ f ∈ e.strs, Bytes f) →
    (∀ i ∈ e.ints, -(2 ^ 63) ≤ i ∧ i < 2 ^ 63) → e.sers = e.ints.map (fun _ => []) →
    NoDelete e.subject after →
    let w := opRun K enc ⟨m0, keys, nonces⟩ before
    (genEncrypt K enc w e).2 = some (e', none) →
    (genDecrypt K enc (opRun K enc (genEncrypt K enc w e).1 after) e').2 = some (e, none)

theorem restores_of {K : Store σ} {inv : σ → Prop} {has : σ → Str → Str → Prop}
    (hK : Keeps K inv has) {m0 : σ} (h0 : inv m0) {enc : Encryptor} (he : enc.Lawful) :
    Restores K m0 enc := by
  intro keys nonces before after e e' hk hn hs hr hser hd w h
  obtain ⟨i1, _, i3⟩ := hK.opRun_inv he ⟨m0, keys, nonces⟩ before h0 hk hn
  exact restores hK he w after e e' i1 i3 hs hr hser hd h

/-- **C28.** With the in-memory key store and any engine that round-trips (see `C28_gcm`,
`C28_xchacha`, `C28_cbc`), decryption restores encrypted events. -/
theorem C28_memory (enc : Encryptor) (he : enc.Lawful) : Restores mem Mem.new enc :=
  restores_of mem_keeps trivial he

/-- **C28.** With the PostgreSQL key store. -/
theorem C28_postgres (enc : Encryptor) (he : enc.Lawful) : Restores pg [] enc :=
  restores_of pg_keeps trivial he

/-- **C28.** With the DynamoDB key store. -/
theorem C28_dynamodb (enc : Encryptor) (he : enc.Lawful) : Restores dyn (fun _ => none) enc :=
  restores_of dyn_keeps trivial he

/-- **C28.** With the Vault key store. -/
theorem C28_vault (enc : Encryptor) (he : enc.Lawful) : Restores vault (fun _ => []) enc :=
  restores_of vault_keeps trivial he

/-- **C28.** With an empty in-memory cache in front of an in-memory store with any past. -/
theorem C28_cache (enc : Encryptor) (he : enc.Lawful) (past : List Call) :
    Restores (cache mem mem) (Mem.new, (mem.run Mem.new past).1) enc :=
  restores_of cache_keeps (cacheInv_run _ past rfl []) he

/-- One key per subject: after a successful encryption of an event with a personal field, and any
operations that do not delete its subject, the subject's key is the same, and encrypting any event of
the subject draws no new key. -/
def OneKey (K : Store σ) (m0 : σ) (enc : Encryptor) : Prop :=
  ∀ (keys nonces : Str) (before after : List Op) (e e' d : PEvent),
    Bytes keys → Bytes nonces → (∀ f ∈ e.strs, Bytes f) → (e.strs ≠ [] ∨ e.ints ≠ []) →
    d.subject = e.subject → NoDelete e.subject after →
    let w := opRun K enc ⟨m0, keys, nonces⟩ before
    (genEncrypt K enc w e).2 = some (e', none) →
    let w1 := (genEncrypt K enc w e).1
    let w2 := opRun K enc w1 after
    (∃ k, (K.get w1.ks e.subject).2 = (k, none) ∧ (K.get w2.ks e.subject).2 = (k, none)) ∧
    (genEncrypt K enc w2 d).1.keyTape = w2.keyTape

theorem oneKey_of {K : Store σ} {inv : σ → Prop} {has : σ → Str → Str → Prop}
    (hK : Keeps K inv has) {m0 : σ} (h0 : inv m0) {enc : Encryptor} (he : enc.Lawful) :
    OneKey K m0 enc := by
  intro keys nonces before after e e' d hkb hnb hs hne hsub hd w h w1 w2
  obtain ⟨i1, _, i3⟩ := hK.opRun_inv he ⟨m0, keys, nonces⟩ before h0 hkb hnb
  have hi1 : inv w1.ks := genEncrypt_inv (fun w => inv w.ks)
    (fun w s d h => engineEncrypt_ks inv (fun m s h => hK.invGet m s h)
      (fun m s k h => hK.invSet m s k h) w s d h) w e i1
  obtain ⟨cs, h1, h2⟩ := genEncrypt_ok h
  have hf : ∀ f ∈ e.strs ++ e.ints.map Dec.itoa, Bytes f := by
    intro f hf
    rcases List.mem_append.mp hf with hf | hf
    · exact hs f hf
    · obtain ⟨i, _, rfl⟩ := List.mem_map.mp hf
      exact itoa_bytes i
  rcases encFields_ok hK he e.subject w _ _ cs i1 i3 hf h1 with ⟨hnil, _⟩ | ⟨k, hk, _⟩
  · rw [List.append_eq_nil_iff] at hnil
    rcases hne with hne | hne
    · exact absurd hnil.1 hne
    · exact absurd (by simpa using hnil.2) hne
  · obtain ⟨i2, k2⟩ := hK.opRun (enc := enc) e.subject k _ after hd hi1 hk
    refine ⟨⟨k, hK.get _ _ _ hi1 hk, hK.get _ _ _ i2 k2⟩, ?_⟩
    have ht := encFields_tape hK (enc := enc) e.subject k w2 (d.strs ++ d.ints.map Dec.itoa) i2 k2
    simp only [genEncrypt, hsub]
    generalize encFields K enc e.subject w2 (d.strs ++ d.ints.map Dec.itoa) = x at *
    obtain ⟨w3, r⟩ := x
    cases r with
    | ok => exact ht
    | panic => exact ht
    | err x => cases x <;> exact ht

/-- **C28.** One key per subject, with each key store. -/
theorem C28_one_key (enc : Encryptor) (he : enc.Lawful) (past : List Call) :
    OneKey mem Mem.new enc ∧ OneKey pg [] enc ∧ OneKey dyn (fun _ => none) enc ∧
    OneKey vault (fun _ => []) enc ∧
    OneKey (cache mem mem) (Mem.new, (mem.run Mem.new past).1) enc :=
  ⟨oneKey_of mem_keeps trivial he, oneKey_of pg_keeps trivial he, oneKey_of dyn_keeps trivial he,
    oneKey_of vault_keeps trivial he, oneKey_of cache_keeps (cacheInv_run _ past rfl []) he⟩

/-- An event with two strings and a number, of subject `[1]`; `"Hi"`, `"X"`, `-42`. -/
def ev28 : PEvent := ⟨[1], [[72, 105], [88]], [-42], [[]], [0]⟩
/-- Another event of the same subject. -/
def ev28b : PEvent := ⟨[1], [[90]], [], [], []⟩
/-- An event of subject `[2]`. -/
def ev28c : PEvent := ⟨[2], [[90]], [], [], []⟩

/-- Encrypting for two subjects, then deleting the other subject, then decrypting. -/
example :
    let w := opRun mem (gcm toyAead) ⟨Mem.new, tape0 64, tape0 96⟩ [.enc ev28c]
    let after := [Op.enc ev28b, .call (.delete 5 [2]), .dec ev28c]
    ∃ e', (genEncrypt mem (gcm toyAead) w ev28).2 = some (e', none) ∧ e' ≠ ev28 ∧
      (genDecrypt mem (gcm toyAead) (opRun mem (gcm toyAead)
        (genEncrypt mem (gcm toyAead) w ev28).1 after) e').2 = some (ev28, none) := by
  refine ⟨_, rfl, by decide, by decide +kernel⟩
example : Bytes (tape0 64) ∧ Bytes (tape0 96) ∧ (∀ f ∈ ev28.strs, Bytes f) ∧
    ev28.sers = ev28.ints.map (fun _ => []) ∧ (gcm toyAead).Lawful :=
  ⟨tape0_bytes _ (by decide), tape0_bytes _ (by decide), by
    intro f hf
    simp only [ev28, List.mem_cons, List.not_mem_nil, or_false] at hf
    rcases hf with rfl | rfl <;> (intro b hb; simp at hb; omega), rfl, gcm_lawful toyAead_lawful⟩
example : NoDelete [1] [Op.enc ev28b, .call (.delete 5 [2]), .dec ev28c] := by
  intro now h; simp at h

/-! ## C26: after deletion -/

/-- Shredding: after `Delete(s)` of the key store has returned `nil`, whatever operations follow, the
generated methods of every event of subject `s` that has a personal field return `ErrKeyWasDeleted` and
leave every personal field empty (or zero); the engine decrypts nothing of the subject. -/
def Shredded (K : Store σ) (m0 : σ) (enc : Encryptor) : Prop :=
  ∀ (keys nonces : Str) (before after : List Op) (s : Str) (now : Nat), 0 < now →
    (∀ c, Op.call c ∈ before ++ after → Timed c) →
    let w := opRun K enc ⟨m0, keys, nonces⟩ before
    (K.delete w.ks now s).2 = none →
    let w1 := opRun K enc { w with ks := (K.delete w.ks now s).1 } after
    (∀ data, (engineEncrypt K enc w1 s data).2 = .err .wasDeleted) ∧
    (∀ cipher, (engineDecrypt K enc w1 s cipher).2 = .err .wasDeleted) ∧
    (∀ e : PEvent, e.subject = s → (e.strs ≠ [] ∨ e.ints ≠ []) →
      (genEncrypt K enc w1 e).2 = some (⟨e.subject, e.strs.map (fun _ => []),
        e.ints.map (fun _ => 0), e.sers, e.rest⟩, some .wasDeleted)) ∧
    (∀ e : PEvent, e.subject = s → (e.strs ≠ [] ∨ e.sers ≠ []) →
      (genDecrypt K enc w1 e).2 = some (⟨e.subject, e.strs.map (fun _ => []),
        e.ints.map (fun _ => 0), e.sers, e.rest⟩, some .wasDeleted))

theorem engine_dead {K : Store σ} {enc : Encryptor} {w : World σ} {s : Str}
    (h : (K.get w.ks s).2 = ([], some .wasDeleted)) (d : Str) :
    (engineEncrypt K enc w s d).2 = .err .wasDeleted ∧
    (engineDecrypt K enc w s d).2 = .err .wasDeleted := by
  simp only [engineEncrypt, engineDecrypt]
  generalize K.get w.ks s = x at *
  obtain ⟨m, k, e⟩ := x
  simp only [Prod.mk.injEq] at h
  obtain ⟨rfl, rfl⟩ := h
  exact ⟨rfl, rfl⟩

theorem encFields_dead {K : Store σ} {enc : Encryptor} {w : World σ} {s : Str}
    (h : (K.get w.ks s).2 = ([], some .wasDeleted)) (fs : List Str) (hf : fs ≠ []) :
    (encFields K enc s w fs).2 = .err .wasDeleted := by
  cases fs with
  | nil => exact absurd rfl hf
  | cons f fs =>
    have := (engine_dead (enc := enc) h f).1
    simp only [encFields]
    generalize engineEncrypt K enc w s f = x at *
    obtain ⟨w1, r⟩ := x
    simp only at this; subst this; rfl

theorem decFields_dead {K : Store σ} {enc : Encryptor} {w : World σ} {s : Str}
    (h : (K.get w.ks s).2 = ([], some .wasDeleted)) (fs : List Str) (hf : fs ≠ []) :
    (decFields K enc s w fs).2 = .err .wasDeleted ∧ (decInts K enc s w fs).2 = .err .wasDeleted := by
  cases fs with
  | nil => exact absurd rfl hf
  | cons f fs =>
    have := (engine_dead (enc := enc) h f).2
    simp only [decFields, decInts]
    generalize engineDecrypt K enc w s f = x at *
    obtain ⟨w1, r⟩ := x
    simp only at this; subst this; exact ⟨rfl, rfl⟩

theorem shredded_of {K : Store σ} {dead : σ → Str → Prop} (S : Sticky K dead) (m0 : σ)
    (enc : Encryptor) : Shredded K m0 enc := by
  intro keys nonces before after s now hn ht w hdel w1
  have hd : dead w1.ks s := by
    refine opRun_inv (fun w => dead w.ks s) ?_ ?_ Timed ?_ _ after
      (fun c hc => ht c (List.mem_append_right _ hc)) (S.delete _ now s hn hdel)
    · intro w x d h
      exact engineEncrypt_ks (fun m => dead m s)
        (fun m x h => by simpa [Store.call] using S.call m (.get x) s trivial h)
        (fun m x y h => by simpa [Store.call] using S.call m (.set x y) s trivial h) w x d h
    · intro w x d h
      exact engineDecrypt_ks (fun m => dead m s)
        (fun m x h => by simpa [Store.call] using S.call m (.get x) s trivial h) w x d h
    · intro w c hc h
      exact S.call _ c s hc h
  have hg := S.get _ s hd
  generalize w1 = v at *
  clear ht hdel
  refine ⟨fun d => (engine_dead hg d).1, fun d => (engine_dead hg d).2, ?_, ?_⟩
  · rintro e rfl hne
    have := encFields_dead (enc := enc) hg (e.strs ++ e.ints.map Dec.itoa) (by
      intro hnil
      rw [List.append_eq_nil_iff] at hnil
      rcases hne with hne | hne
      · exact hne hnil.1
      · exact hne (by simpa using hnil.2))
    simp only [genEncrypt]
    generalize encFields K enc e.subject v (e.strs ++ e.ints.map Dec.itoa) = x at *
    obtain ⟨w2, r⟩ := x
    simp only at this; subst this; rfl
  · rintro e rfl hne
    by_cases hs : e.strs = []
    · have hi : e.sers ≠ [] := by
        rcases hne with h | h
        · exact absurd hs h
        · exact h
      have := (decFields_dead (enc := enc) hg e.sers hi).2
      simp only [genDecrypt, hs, decFields]
      generalize decInts K enc e.subject v e.sers = x at *
      obtain ⟨w2, r⟩ := x
      simp only at this; subst this
      simp [PEvent.redact, hs]
    · have := (decFields_dead (enc := enc) hg e.strs hs).1
      simp only [genDecrypt]
      generalize decFields K enc e.subject v e.strs = x at *
      obtain ⟨w2, r⟩ := x
      simp only at this; subst this; rfl

/-- **C26.** Shredding with the in-memory and the DynamoDB key store, with any engine. -/
theorem C26_shredded (enc : Encryptor) : Shredded mem Mem.new enc ∧ Shredded dyn (fun _ => none) enc :=
  ⟨shredded_of mem_sticky _ enc, shredded_of dyn_sticky _ enc⟩

example :
    let w := opRun mem (gcm toyAead) ⟨Mem.new, tape0 64, tape0 96⟩ [.enc ev28, .enc ev28c]
    (mem.delete w.ks 5 [1]).2 = none ∧ (mem.get w.ks [1]).2.2 = none := by decide +kernel

/-! ## C29 -/

/-- **C29.** Trimming undoes padding, for every message and every block size up to 255; a padded message
is a positive whole number of blocks. -/
theorem C29_padding (msg : Str) (blockSize : Nat) (h1 : 1 ≤ blockSize) (h2 : blockSize ≤ 255) :
    pkcs5Trim (pkcs5Pad msg blockSize) = .ok msg ∧
    ∃ n, 0 < n ∧ (pkcs5Pad msg blockSize).length = blockSize * n := by
  obtain ⟨a, b, c⟩ := pkcs5_roundtrip msg blockSize h1 h2
  refine ⟨a, (pkcs5Pad msg blockSize).length / blockSize, ?_, ?_⟩
  · exact Nat.div_pos (Nat.le_of_dvd (by omega) (Nat.dvd_of_mod_eq_zero b)) h1
  · exact (Nat.mul_div_cancel' (Nat.dvd_of_mod_eq_zero b)).symm

example : pkcs5Pad [1, 2, 3] 16 = [1, 2, 3] ++ List.replicate 13 13 ∧
    pkcs5Pad (tape0 16) 16 = tape0 16 ++ List.replicate 16 16 := by decide

/-- **C29**, the full statement: AES/CBC `Decrypt` never panics. -/
def C29_full : Prop := ∀ (B : BlockCipher), B.Lawful → ∀ key cipher, (cbc B).decrypt key cipher ≠ .panic

/-- **C29** is false: with a valid key, a cipher text of 17 bytes panics, ... -/
theorem C29_false : ¬ C29_full := by
  intro h
  exact h toyBlock toyBlock_lawful (b64enc (tape0 32)) (b64enc (tape0 17)) (by decide)

/-- ... so does one of 16 bytes, ... -/
theorem C29_false_one_block :
    (cbc toyBlock).decrypt (b64enc (tape0 32)) (b64enc (tape0 16)) = .panic := by decide

/-- ... and, whatever the cipher, so does a genuine cipher text (of a plain text ending in `ff`, made
without padding by another program). -/
theorem C29_false_last_byte (B : BlockCipher) (hB : B.Lawful) (key : Str) (hk : aesKeyOk key = true)
    (iv : Str) (hiv : iv.length = 16) (biv : Bytes iv) :
    cbcDecrypt B key (iv ++ cbcEnc B key 1 iv (List.replicate 16 255)) = .panic := by
  obtain ⟨h1, h2, _⟩ := cbc_roundtrip hB key 1 iv (List.replicate 16 255) hiv (by simp) biv
    (by intro b hb; have := List.eq_of_mem_replicate hb; omega)
  simp only [cbcDecrypt, List.length_append, hiv, h2, hk]
  rw [if_neg (by omega), if_neg (by omega), if_neg (by simp), if_neg (by omega),
    List.take_left' hiv, List.drop_left' hiv]
  rw [show (16 + 16 * 1 - 16) / 16 = 1 from rfl, h1]
  decide

example : aesKeyOk (tape0 32) = true ∧ (tape0 16).length = 16 ∧ Bytes (tape0 16) :=
  ⟨by decide, by decide, tape0_bytes _ (by decide)⟩

/-- **C29**, what holds: AES/CBC `Decrypt` panics exactly when key and cipher text are base64, the key has
an AES length, there is at least an initial vector, and then: no block follows, or not a whole number
of blocks, or the last decrypted byte exceeds the number of decrypted bytes. Everything else returns a
plain text or an error; cipher texts made by `Encrypt` return the plain text (`C28_cbc`).
Missing from the full statement: an error instead of the panic in these cases. -/
theorem C29_partial (B : BlockCipher) (hB : B.Lawful) (key64 cipher64 : Str) :
    (cbc B).decrypt key64 cipher64 = .panic ↔
      ∃ key cipher, b64dec key64 = some key ∧ b64dec cipher64 = some cipher ∧
        (key.length = 16 ∨ key.length = 24 ∨ key.length = 32) ∧ 16 ≤ cipher.length ∧
        (cipher.length = 16 ∨ cipher.length % 16 ≠ 0 ∨
          ∃ b, (cbcDec B key (cipher.length / 16 - 1) (cipher.take 16) (cipher.drop 16)).getLast? =
              some b ∧ cipher.length - 16 < b) := by
  simp only [cbc, decrypt64]
  cases hk : b64dec key64 with
  | none => simp
  | some key =>
    cases hc : b64dec cipher64 with
    | none => simp
    | some c =>
      simp only [Option.some.injEq, exists_and_left, exists_eq_left']
      simp only [cbcDecrypt]
      by_cases h1 : c.length < 16
      · have : ¬ 16 ≤ c.length := by omega
        by_cases h0 : c.length = 0
        · simp [h0]
        · simp [h0, h1, this]
      · rw [if_neg (by omega), if_neg h1]
        have h16 : 16 ≤ c.length := by omega
        by_cases h2 : key.length = 16 ∨ key.length = 24 ∨ key.length = 32
        · have hk2 : aesKeyOk key = true := by simpa [aesKeyOk, or_assoc] using h2
          rw [if_neg (by simp [hk2])]
          by_cases h3 : (c.length - 16) % 16 ≠ 0
          · rw [if_pos h3]
            simp only [true_iff]
            exact ⟨h2, h16, Or.inr (Or.inl (by omega))⟩
          · rw [if_neg h3]
            have e1 : (c.length - 16) / 16 = c.length / 16 - 1 := by omega
            have hlen := cbcDec_length hB key (c.length / 16 - 1) (c.take 16) (c.drop 16)
              (by simp; omega) (by simp; omega)
            rw [e1]
            generalize cbcDec B key (c.length / 16 - 1) (c.take 16) (c.drop 16) = v at *
            simp only [pkcs5Trim]
            cases hl : v.getLast? with
            | none =>
              have : v = [] := List.getLast?_eq_none_iff.mp hl
              subst this
              simp only [List.length_nil] at hlen
              simp only [true_iff]
              exact ⟨h2, h16, Or.inl (by omega)⟩
            | some b =>
              have hv : v.length ≠ 0 := by
                intro h
                have : v = [] := List.length_eq_zero_iff.mp h
                simp [this] at hl
              have e2 : v.length = c.length - 16 := by omega
              simp only [e2, Option.some.injEq, exists_eq_left']
              constructor
              · intro h
                split at h
                · rename_i hb; exact ⟨h2, h16, Or.inr (Or.inr hb)⟩
                · simp at h
              · rintro ⟨_, _, h | h | h⟩
                · omega
                · omega
                · rw [if_pos h]
        · have hk2 : ¬ aesKeyOk key = true := by simpa [aesKeyOk, or_assoc] using h2
          rw [if_pos hk2]
          simp [h2]

/-! ## C55 -/

/-- **C55.** AES/GCM `Decrypt` never panics, whatever the key and the cipher text. -/
theorem C55_gcm (A : Aead) (key cipher : Str) : (gcm A).decrypt key cipher ≠ .panic := by
  simp only [gcm, decrypt64]
  split
  · simp
  · split
    · simp
    · simp only [gcmDec]
      split
      · simp
      · split
        · simp
        · split
          · simp
          · split <;> simp

/-- **C55**, the full statement: also XChaCha20-Poly1305 `Decrypt` never panics. -/
def C55_full : Prop := ∀ (A : Aead) key cipher, (xcha A).decrypt key cipher ≠ .panic

/-- **C55** is false: a cipher text of three bytes panics. -/
theorem C55_false : ¬ C55_full := fun h =>
  h toyAead (b64enc (tape0 32)) (b64enc [1, 2, 3]) (by decide)

/-- **C55**, what holds: XChaCha20-Poly1305 `Decrypt` panics exactly for 32-byte keys and cipher texts of
1 to 23 bytes. Missing from the full statement: an error in these cases. -/
theorem C55_partial (A : Aead) (key64 cipher64 : Str) :
    (xcha A).decrypt key64 cipher64 = .panic ↔
      ∃ key cipher, b64dec key64 = some key ∧ b64dec cipher64 = some cipher ∧
        key.length = 32 ∧ 1 ≤ cipher.length ∧ cipher.length ≤ 23 := by
  simp only [xcha, decrypt64]
  cases hk : b64dec key64 with
  | none => simp
  | some key =>
    cases hc : b64dec cipher64 with
    | none => simp
    | some c =>
      simp only [Option.some.injEq, exists_and_left, exists_eq_left']
      simp only [xchaDec]
      split
      · simp; omega
      · split
        · simp; omega
        · split
          · simp; omega
          · split <;> (simp; omega)

/-! ## C49 -/

/-- `c` is what the engine returned when it was asked to encrypt `f` for `s` in some state. -/
def EncOf (K : Store σ) (enc : Encryptor) (s f c : Str) : Prop :=
  ∃ w, (engineEncrypt K enc w s f).2 = .ok c

/-- `f` is what the engine returned when it was asked to decrypt `c` for `s` in some state. -/
def DecOf (K : Store σ) (enc : Encryptor) (s c f : Str) : Prop :=
  ∃ w, (engineDecrypt K enc w s c).2 = .ok f

theorem encFields_each {K : Store σ} {enc : Encryptor} {s : Str} {w w' : World σ} {fs cs : List Str}
    (h : encFields K enc s w fs = (w', .ok cs)) :
    cs.length = fs.length ∧ ∀ (i : Nat) (f c : Str), fs[i]? = some f → cs[i]? = some c → EncOf K enc s f c := by
  induction fs generalizing w cs with
  | nil =>
    simp only [encFields, Prod.mk.injEq, Rs.ok.injEq] at h
    obtain ⟨_, rfl⟩ := h
    simp
  | cons f fs ih =>
    simp only [encFields] at h
    cases hx : engineEncrypt K enc w s f with
    | mk w1 r =>
      rw [hx] at h
      cases r with
      | err e => simp at h
      | panic => simp at h
      | ok c =>
        simp only at h
        cases hy : encFields K enc s w1 fs with
        | mk w2 r2 =>
          rw [hy] at h
          cases r2 with
          | err e => simp at h
          | panic => simp at h
          | ok cs' =>
            simp only [Prod.mk.injEq, Rs.ok.injEq] at h
            obtain ⟨rfl, rfl⟩ := h
            obtain ⟨h1, h2⟩ := ih hy
            refine ⟨by simp [h1], ?_⟩
            intro i f' c' hi hc
            cases i with
            | zero =>
              simp only [List.getElem?_cons_zero, Option.some.injEq] at hi hc
              subst hi; subst hc
              exact ⟨w, by rw [hx]⟩
            | succ i =>
              simp only [List.getElem?_cons_succ] at hi hc
              exact h2 i f' c' hi hc

/-- **C49.** A generated `Encrypt` that does not panic has one of three outcomes: success, and then every
personal string is replaced by its own cipher text, every personal number is 0 and its field for the cipher text
holds the cipher text of its decimal text; or `ErrKeyWasDeleted`, and then every personal field is empty or 0; or another
error, and then the event is unchanged. The subject and all other fields never change. -/
theorem C49_encrypt (K : Store σ) (enc : Encryptor) (w : World σ) (e e' : PEvent) (err : Option KErr)
    (h : (genEncrypt K enc w e).2 = some (e', err)) :
    e'.subject = e.subject ∧ e'.rest = e.rest ∧
    (err = none →
      e'.strs.length = e.strs.length ∧
      (∀ (i : Nat) (f c : Str), e.strs[i]? = some f → e'.strs[i]? = some c → EncOf K enc e.subject f c) ∧
      e'.ints = List.replicate e.ints.length 0 ∧ e'.sers.length = e.ints.length ∧
      (∀ (i : Nat) (n : Int) (c : Str), e.ints[i]? = some n → e'.sers[i]? = some c → EncOf K enc e.subject (Dec.itoa n) c)) ∧
    (err = some .wasDeleted →
      e'.strs = List.replicate e.strs.length [] ∧ e'.ints = List.replicate e.ints.length 0 ∧
      e'.sers = e.sers) ∧
    (∀ x, err = some x → x ≠ .wasDeleted → e' = e) := by
  cases err with
  | none =>
    obtain ⟨cs, h1, rfl⟩ := genEncrypt_ok h
    obtain ⟨hl, he⟩ := encFields_each h1
    simp only [List.length_append, List.length_map] at hl
    refine ⟨rfl, rfl, fun _ => ⟨by simp; omega, ?_, by simp [List.map_const'], by simp; omega, ?_⟩,
      by simp, by simp⟩
    · intro i f c hi hc
      simp only [List.getElem?_take] at hc
      split at hc
      · rename_i hlt
        exact he i f c (by rw [List.getElem?_append_left hlt]; exact hi) hc
      · simp at hc
    · intro i n c hi hc
      simp only [List.getElem?_drop] at hc
      refine he (e.strs.length + i) _ c ?_ hc
      rw [List.getElem?_append_right (by omega)]
      simp [hi]
  | some x =>
    simp only [genEncrypt] at h
    generalize encFields K enc e.subject w (e.strs ++ e.ints.map Dec.itoa) = y at *
    obtain ⟨w1, r⟩ := y
    cases r with
    | panic => simp at h
    | ok cs => simp at h
    | err y =>
      cases y <;> simp only [Option.some.injEq, Prod.mk.injEq] at h <;> obtain ⟨rfl, rfl⟩ := h <;>
        simp [PEvent.redact, List.map_const']

theorem decFields_each {K : Store σ} {enc : Encryptor} {s : Str} {w w' : World σ} {fs cs : List Str}
    (h : decFields K enc s w cs = (w', .ok fs)) :
    fs.length = cs.length ∧ ∀ (i : Nat) (c f : Str), cs[i]? = some c → fs[i]? = some f → DecOf K enc s c f := by
  induction cs generalizing w fs with
  | nil =>
    simp only [decFields, Prod.mk.injEq, Rs.ok.injEq] at h
    obtain ⟨_, rfl⟩ := h
    simp
  | cons c cs ih =>
    simp only [decFields] at h
    cases hx : engineDecrypt K enc w s c with
    | mk w1 r =>
      rw [hx] at h
      cases r with
      | err e => simp at h
      | panic => simp at h
      | ok f =>
        simp only at h
        cases hy : decFields K enc s w1 cs with
        | mk w2 r2 =>
          rw [hy] at h
          cases r2 with
          | err e => simp at h
          | panic => simp at h
          | ok fs' =>
            simp only [Prod.mk.injEq, Rs.ok.injEq] at h
            obtain ⟨rfl, rfl⟩ := h
            obtain ⟨h1, h2⟩ := ih hy
            refine ⟨by simp [h1], ?_⟩
            intro i c' f' hc hf
            cases i with
            | zero =>
              simp only [List.getElem?_cons_zero, Option.some.injEq] at hc hf
              subst hf; subst hc
              exact ⟨w, by rw [hx]⟩
            | succ i =>
              simp only [List.getElem?_cons_succ] at hc hf
              exact h2 i c' f' hc hf

theorem decInts_each {K : Store σ} {enc : Encryptor} {s : Str} {w w' : World σ} {fs : List Int}
    {cs : List Str} (h : decInts K enc s w cs = (w', .ok fs)) :
    fs.length = cs.length ∧ ∀ (i : Nat) (c : Str) (n : Int), cs[i]? = some c → fs[i]? = some n →
      ∃ f, DecOf K enc s c f ∧ Dec.atoi f = some n := by
  induction cs generalizing w fs with
  | nil =>
    simp only [decInts, Prod.mk.injEq, RsI.ok.injEq] at h
    obtain ⟨_, rfl⟩ := h
    simp
  | cons c cs ih =>
    simp only [decInts] at h
    cases hx : engineDecrypt K enc w s c with
    | mk w1 r =>
      rw [hx] at h
      cases r with
      | err e => simp at h
      | panic => simp at h
      | ok f =>
        simp only at h
        cases hn : Dec.atoi f with
        | none => simp [hn] at h
        | some n =>
          simp only [hn] at h
          cases hy : decInts K enc s w1 cs with
          | mk w2 r2 =>
            rw [hy] at h
            cases r2 with
            | err e => simp at h
            | panic => simp at h
            | ok fs' =>
              simp only [Prod.mk.injEq, RsI.ok.injEq] at h
              obtain ⟨rfl, rfl⟩ := h
              obtain ⟨h1, h2⟩ := ih hy
              refine ⟨by simp [h1], ?_⟩
              intro i c' f' hc hf
              cases i with
              | zero =>
                simp only [List.getElem?_cons_zero, Option.some.injEq] at hc hf
                subst hf; subst hc
                exact ⟨f, ⟨w, by rw [hx]⟩, hn⟩
              | succ i =>
                simp only [List.getElem?_cons_succ] at hc hf
                exact h2 i c' f' hc hf

/-- **C49.** The same of a generated `Decrypt`: success, and then every personal string is replaced by what
the engine decrypted it to, every number by the number its cipher text stands for, and the cipher text
fields are empty; or `ErrKeyWasDeleted`, and then every personal field is empty or 0; or another error,
and then the event is unchanged. -/
theorem C49_decrypt (K : Store σ) (enc : Encryptor) (w : World σ) (e e' : PEvent) (err : Option KErr)
    (h : (genDecrypt K enc w e).2 = some (e', err)) :
    e'.subject = e.subject ∧ e'.rest = e.rest ∧
    (err = none →
      e'.strs.length = e.strs.length ∧
      (∀ (i : Nat) (c f : Str), e.strs[i]? = some c → e'.strs[i]? = some f → DecOf K enc e.subject c f) ∧
      e'.ints.length = e.sers.length ∧
      (∀ (i : Nat) (c : Str) (n : Int), e.sers[i]? = some c → e'.ints[i]? = some n →
        ∃ f, DecOf K enc e.subject c f ∧ Dec.atoi f = some n) ∧
      e'.sers = List.replicate e.sers.length []) ∧
    (err = some .wasDeleted →
      e'.strs = List.replicate e.strs.length [] ∧ e'.ints = List.replicate e.ints.length 0 ∧
      e'.sers = e.sers) ∧
    (∀ x, err = some x → x ≠ .wasDeleted → e' = e) := by
  simp only [genDecrypt] at h
  cases hx : decFields K enc e.subject w e.strs with
  | mk w1 r =>
    rw [hx] at h
    cases r with
    | panic => simp at h
    | err y =>
      cases y <;> simp only [Option.some.injEq, Prod.mk.injEq] at h <;> obtain ⟨rfl, rfl⟩ := h <;>
        simp [PEvent.redact, List.map_const']
    | ok strs =>
      simp only at h
      cases hy : decInts K enc e.subject w1 e.sers with
      | mk w2 r2 =>
        rw [hy] at h
        cases r2 with
        | panic => simp at h
        | err y =>
          cases y <;> simp only [Option.some.injEq, Prod.mk.injEq] at h <;> obtain ⟨rfl, rfl⟩ := h <;>
            simp [PEvent.redact, List.map_const']
        | ok ints =>
          simp only [Option.some.injEq, Prod.mk.injEq] at h
          obtain ⟨rfl, rfl⟩ := h
          obtain ⟨a1, a2⟩ := decFields_each hx
          obtain ⟨b1, b2⟩ := decInts_each hy
          exact ⟨rfl, rfl, fun _ => ⟨a1, a2, b1, b2, by simp [List.map_const']⟩, by simp, by simp⟩

/-- All three outcomes occur: success; the random source runs dry at the third field (after two nonces);
the key was deleted. -/
example :
    (∃ e', (genEncrypt mem (gcm toyAead) ⟨Mem.new, tape0 32, tape0 36⟩ ev28).2 = some (e', none)) ∧
    (genEncrypt mem (gcm toyAead) ⟨Mem.new, tape0 32, tape0 35⟩ ev28).2 = some (ev28, some .other) ∧
    (genEncrypt mem (gcm toyAead) ⟨(mem.delete Mem.new 5 [1]).1, tape0 32, tape0 36⟩ ev28).2 =
      some (⟨[1], [[], []], [0], [[]], [0]⟩, some .wasDeleted) :=
  ⟨⟨_, rfl⟩, by decide +kernel, by decide +kernel⟩
example : (genDecrypt mem (gcm toyAead) ⟨Mem.new, tape0 32, tape0 36⟩ ev28).2 =
    some (ev28, some .notFound) := by decide +kernel

end RangeDB.Cry

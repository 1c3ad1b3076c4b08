import Verif.Model.KeyStore
import Verif.Model.Decimal

/-!
# Model: encryption

`pkg/crypto/aes`, `pkg/crypto/xchacha20poly1305`, `pkg/crypto/eventencryptor` and the methods generated
by `pkg/eventparser/event_writer.go`. The block cipher and the two AEAD constructions themselves
(Go's `crypto/aes`, `crypto/cipher` GCM, `chacha20poly1305`) are parameters; CBC chaining, padding,
base64, nonce handling and all guards are modelled in full.
-/

namespace RangeDB.Cry

open RangeDB.Key

/-- The result of a call that returns `(string, error)`. On an error the string is empty. -/
inductive R where
  | ok (s : Str)
  | err (e : KErr)
  | panic
deriving DecidableEq, Repr

/-! ## Base64 -/

/-- The standard alphabet. -/
def b64chr (i : Nat) : Nat :=
  if i < 26 then 65 + i else if i < 52 then 71 + i else if i < 62 then i - 4
  else if i = 62 then 43 else 47

/-- The inverse of the standard alphabet. -/
def b64idx (c : Nat) : Option Nat :=
  if 65 ≤ c ∧ c ≤ 90 then some (c - 65) else if 97 ≤ c ∧ c ≤ 122 then some (c - 71)
  else if 48 ≤ c ∧ c ≤ 57 then some (c + 4) else if c = 43 then some 62
  else if c = 47 then some 63 else none

/-- `base64.StdEncoding.EncodeToString`; 61 is `=`. -/
def b64enc : Str → Str
  | [] => []
  | [a] => [b64chr (a / 4), b64chr (a % 4 * 16), 61, 61]
  | [a, b] => [b64chr (a / 4), b64chr (a % 4 * 16 + b / 16), b64chr (b % 16 * 4), 61]
  | a :: b :: c :: rest =>
    b64chr (a / 4) :: b64chr (a % 4 * 16 + b / 16) :: b64chr (b % 16 * 4 + c / 64) :: b64chr (c % 64)
      :: b64enc rest

/-- Decoding without line breaks: quanta of four characters, padding only at the very end, unused
trailing bits ignored (Go's decoder is not in strict mode). -/
def b64quanta : Str → Option Str
  | [] => some []
  | [a, b, 61, 61] =>
    match b64idx a, b64idx b with
    | some a, some b => some [a * 4 + b / 16]
    | _, _ => none
  | [a, b, c, 61] =>
    match b64idx a, b64idx b, b64idx c with
    | some a, some b, some c => some [a * 4 + b / 16, b % 16 * 16 + c / 4]
    | _, _, _ => none
  | a :: b :: c :: d :: rest =>
    match b64idx a, b64idx b, b64idx c, b64idx d, b64quanta rest with
    | some a, some b, some c, some d, some r =>
      some ((a * 4 + b / 16) :: (b % 16 * 16 + c / 4) :: (c % 4 * 64 + d) :: r)
    | _, _, _, _, _ => none
  | _ => none

/-- `base64.StdEncoding.DecodeString`: carriage returns (13) and line feeds (10) are ignored. -/
def b64dec (s : Str) : Option Str := b64quanta (s.filter (fun c => c ≠ 10 ∧ c ≠ 13))

/-! ## Random source -/

/-- `io.ReadFull(randReader, buf)` with `len(buf) = n`: a random source is a list of bytes still to be
read; if there are fewer than `n` the read fails. -/
def readFull (n : Nat) (tape : Str) : Option Str × Str :=
  if tape.length < n then (none, []) else (some (tape.take n), tape.drop n)

/-- `crypto.Encryptor` (crypto.go:10-13). `encrypt key plainText random` also returns the rest of the
random source. -/
structure Encryptor where
  encrypt : Str → Str → Str → R × Str
  decrypt : Str → Str → R

/-! ## The ciphers that are not modelled -/

/-- An AEAD construction: `Seal(nil, nonce, plainText, nil)` and `Open(nil, nonce, cipherText, nil)`
under a key. -/
structure Aead where
  sealed : (key nonce plain : Str) → Str
  opened : (key nonce cipher : Str) → Option Str

/-- All entries are bytes. -/
def Bytes (s : Str) : Prop := ∀ b ∈ s, b < 256

/-- What is asked of an engine: whenever `Encrypt` succeeds, `Decrypt` with the same key returns the plain
text, and what is left of the random source is a suffix of it. -/
structure Encryptor.Lawful (enc : Encryptor) : Prop where
  roundTrip : ∀ key plain tape cipher tape', Bytes plain → Bytes tape →
    enc.encrypt key plain tape = (.ok cipher, tape') → enc.decrypt key cipher = .ok plain
  tape : ∀ key plain tape, (enc.encrypt key plain tape).2 <:+ tape

/-- What is assumed of an AEAD construction: `Open` undoes `Seal`, and outputs are bytes. -/
structure Aead.Lawful (A : Aead) : Prop where
  open_seal : ∀ k n p, Bytes p → A.opened k n (A.sealed k n p) = some p
  bytes : ∀ k n p, Bytes p → Bytes (A.sealed k n p)

/-- A block cipher: encryption and decryption of one 16-byte block under a key. -/
structure BlockCipher where
  E : (key block : Str) → Str
  D : (key block : Str) → Str

/-- What is assumed of AES: decryption undoes encryption; blocks are 16 bytes. -/
structure BlockCipher.Lawful (B : BlockCipher) : Prop where
  dec_enc : ∀ k b, b.length = 16 → Bytes b → B.D k (B.E k b) = b
  len : ∀ k b, b.length = 16 → (B.E k b).length = 16
  lenD : ∀ k b, b.length = 16 → (B.D k b).length = 16
  bytes : ∀ k b, b.length = 16 → Bytes b → Bytes (B.E k b)

/-- `aes.NewCipher`: the key must have 16, 24 or 32 bytes. -/
def aesKeyOk (key : Str) : Bool := key.length = 16 || key.length = 24 || key.length = 32

/-! ## AES/GCM -/

/-- `gcm.encrypt` (gcm.go:55-73); the nonce has 12 bytes. -/
def gcmEnc (A : Aead) (plain key tape : Str) : R × Str :=
  if ¬ aesKeyOk key then (.err .other, tape)
  else match readFull 12 tape with
    | (none, tape) => (.err .other, tape)
    | (some nonce, tape) => (.ok (nonce ++ A.sealed key nonce plain), tape)

/-- `gcm.decrypt` (gcm.go:75-103). -/
def gcmDec (A : Aead) (key cipher : Str) : R :=
  if cipher.length = 0 then .err .invalidCipherText
  else if ¬ aesKeyOk key then .err .other
  else if cipher.length < 12 then .err .invalidCipherText
  else match A.opened key (cipher.take 12) (cipher.drop 12) with
    | none => .err .other
    | some p => .ok p

/-- `Encrypt` of all three engines: decode the key, encrypt, encode the result
(gcm.go:28-37, cbc_pkcs5_padding.go:25-34, xchacha20poly1305.go:25-34). -/
def encrypt64 (enc : (plain key tape : Str) → R × Str) (key64 plain tape : Str) : R × Str :=
  match b64dec key64 with
  | none => (.err .other, tape)
  | some key => match enc plain key tape with
    | (.ok c, tape) => (.ok (b64enc c), tape)
    | r => r

/-- `Decrypt` of all three engines: decode the key and the cipher text, decrypt
(gcm.go:40-53, cbc_pkcs5_padding.go:37-50, xchacha20poly1305.go:37-50). -/
def decrypt64 (dec : (key cipher : Str) → R) (key64 cipher64 : Str) : R :=
  match b64dec key64 with
  | none => .err .other
  | some key => match b64dec cipher64 with
    | none => .err .other
    | some cipher => dec key cipher

/-- The AES/GCM engine (gcm.go). -/
def gcm (A : Aead) : Encryptor := ⟨encrypt64 (gcmEnc A), decrypt64 (gcmDec A)⟩

/-! ## XChaCha20-Poly1305 -/

/-- `encrypt` (xchacha20poly1305.go:52-65): a 32-byte key, a nonce of 24 bytes. -/
def xchaEnc (A : Aead) (plain key tape : Str) : R × Str :=
  if key.length ≠ 32 then (.err .other, tape)
  else match readFull 24 tape with
    | (none, tape) => (.err .other, tape)
    | (some nonce, tape) => (.ok (nonce ++ A.sealed key nonce plain), tape)

/-- `decrypt` (xchacha20poly1305.go:67-86). Unlike `gcm.decrypt` it slices `sealedCipherText[:24]`
without looking at the length (line 78), which panics for shorter input. -/
def xchaDec (A : Aead) (key cipher : Str) : R :=
  if cipher.length = 0 then .err .invalidCipherText
  else if key.length ≠ 32 then .err .other
  else if cipher.length < 24 then .panic
  else match A.opened key (cipher.take 24) (cipher.drop 24) with
    | none => .err .other
    | some p => .ok p

/-- The XChaCha20-Poly1305 engine. -/
def xcha (A : Aead) : Encryptor := ⟨encrypt64 (xchaEnc A), decrypt64 (xchaDec A)⟩

/-! ## AES/CBC with PKCS#5 padding -/

/-- `pkcs5Padding` (cbc_pkcs5_padding.go:101-105); `byte(padding)` is the value modulo 256. -/
def pkcs5Pad (msg : Str) (blockSize : Nat) : Str :=
  let padding := blockSize - msg.length % blockSize
  msg ++ List.replicate padding (padding % 256)

/-- `pkcs5Trimming` (cbc_pkcs5_padding.go:107-110): `value[len(value)-1]` panics for an empty slice,
`value[:len(value)-padding]` if the last byte exceeds the length. -/
def pkcs5Trim (value : Str) : R :=
  match value.getLast? with
  | none => .panic
  | some padding => if value.length < padding then .panic else .ok (value.take (value.length - padding))

/-- Bytewise exclusive or. -/
def xorS (a b : Str) : Str := List.zipWith (· ^^^ ·) a b

/-- `CryptBlocks` of Go's CBC encrypter: `n` blocks. -/
def cbcEnc (B : BlockCipher) (key : Str) : (n : Nat) → (iv plain : Str) → Str
  | 0, _, _ => []
  | n + 1, iv, p =>
    B.E key (xorS (p.take 16) iv) ++ cbcEnc B key n (B.E key (xorS (p.take 16) iv)) (p.drop 16)

/-- `CryptBlocks` of Go's CBC decrypter: `n` blocks. -/
def cbcDec (B : BlockCipher) (key : Str) : (n : Nat) → (iv cipher : Str) → Str
  | 0, _, _ => []
  | n + 1, iv, c =>
    xorS (B.D key (c.take 16)) iv ++ cbcDec B key n (c.take 16) (c.drop 16)

/-- `encrypt` (cbc_pkcs5_padding.go:52-72). -/
def cbcEncrypt (B : BlockCipher) (plain key tape : Str) : R × Str :=
  if ¬ aesKeyOk key then (.err .other, tape)
  else match readFull 16 tape with
    | (none, tape) => (.err .other, tape)
    | (some iv, tape) =>
      (.ok (iv ++ cbcEnc B key ((pkcs5Pad plain 16).length / 16) iv (pkcs5Pad plain 16)), tape)

/-- `decrypt` (cbc_pkcs5_padding.go:74-99). `CryptBlocks` (line 96) panics if its input is not a whole
number of blocks. -/
def cbcDecrypt (B : BlockCipher) (key cipher : Str) : R :=
  if cipher.length = 0 then .err .invalidCipherText
  else if cipher.length < 16 then .err .invalidCipherText
  else if ¬ aesKeyOk key then .err .other
  else if (cipher.length - 16) % 16 ≠ 0 then .panic
  else pkcs5Trim (cbcDec B key ((cipher.length - 16) / 16) (cipher.take 16) (cipher.drop 16))

/-- The AES/CBC/PKCS5Padding engine. -/
def cbc (B : BlockCipher) : Encryptor := ⟨encrypt64 (cbcEncrypt B), decrypt64 (cbcDecrypt B)⟩

/-! ## ROT13 -/

/-- `rot` (rot13_encryption.go:21-32). -/
def rot (r : Nat) : Nat :=
  let capital := 65 ≤ r ∧ r ≤ 90
  if ¬ capital ∧ (r < 97 ∨ 122 < r) then r
  else
    let r := r + 13
    if (capital ∧ 90 < r) ∨ (¬ capital ∧ 122 < r) then r - 26 else r

/-- The ROT13 engine used in tests (rot13_encryption.go:13-19). Strings are lists of code points here,
so invalid UTF-8 (which `strings.Map` replaces) is not modelled. -/
def rot13 : Encryptor := ⟨fun _ p tape => (.ok (p.map rot), tape), fun _ c => .ok (c.map rot)⟩

/-! ## The engine of the event encryptor -/

/-- The state an engine works on: the key store and the two random sources (for keys and for
nonces). -/
structure World (σ : Type) where
  ks : σ
  keyTape : Str
  nonceTape : Str

variable {σ : Type}

/-- `engine.Encrypt` (event_encryptor.go:56-72) with `newBase64AES256Key` (event_encryptor.go:83-91). -/
def engineEncrypt (K : Store σ) (enc : Encryptor) (w : World σ) (subject data : Str) : World σ × R :=
  match K.get w.ks subject with
  | (ks, key, none) =>
    match enc.encrypt key data w.nonceTape with
    | (r, tape) => (⟨ks, w.keyTape, tape⟩, r)
  | (ks, _, some .notFound) =>
    match readFull 32 w.keyTape with
    | (none, keyTape) => (⟨ks, keyTape, w.nonceTape⟩, .err .other)
    | (some raw, keyTape) =>
      match K.set ks subject (b64enc raw) with
      | (ks, some e) => (⟨ks, keyTape, w.nonceTape⟩, .err e)
      | (ks, none) =>
        match enc.encrypt (b64enc raw) data w.nonceTape with
        | (r, tape) => (⟨ks, keyTape, tape⟩, r)
  | (ks, _, some e) => ({ w with ks := ks }, .err e)

/-- `engine.Decrypt` (event_encryptor.go:74-81). -/
def engineDecrypt (K : Store σ) (enc : Encryptor) (w : World σ) (subject cipher : Str) :
    World σ × R :=
  match K.get w.ks subject with
  | (ks, _, some e) => ({ w with ks := ks }, .err e)
  | (ks, key, none) => ({ w with ks := ks }, enc.decrypt key cipher)

/-! ## Generated event methods -/

/-- An event with personal data, as the generator sees it (event_parser.go:14-18): the subject, the
string fields to encrypt, the numeric fields to encrypt and, for each of these, the string field that
takes its cipher text; `rest` is everything else. -/
structure PEvent where
  subject : Str
  strs : List Str
  ints : List Int
  sers : List Str
  rest : Str
deriving DecidableEq, Repr

/-- `redactPersonalData("")` (event_writer.go:149-156). -/
def PEvent.redact (e : PEvent) : PEvent :=
  { e with strs := e.strs.map (fun _ => []), ints := e.ints.map (fun _ => 0) }

/-- The result of running an engine call on one field after another, stopping at the first that does
not succeed. -/
inductive Rs where
  | ok (l : List Str)
  | err (e : KErr)
  | panic
deriving DecidableEq, Repr

/-- Encrypt the fields in order (event_writer.go:85-103). -/
def encFields (K : Store σ) (enc : Encryptor) (subject : Str) : World σ → List Str → World σ × Rs
  | w, [] => (w, .ok [])
  | w, f :: fs =>
    match engineEncrypt K enc w subject f with
    | (w, .err e) => (w, .err e)
    | (w, .panic) => (w, .panic)
    | (w, .ok c) => match encFields K enc subject w fs with
      | (w, .ok cs) => (w, .ok (c :: cs))
      | r => r

/-- Generated `Encrypt` (event_writer.go:84-114): the new event and its error; `none` is `nil`. The outer
`Option` is `none` if the call panics. -/
def genEncrypt (K : Store σ) (enc : Encryptor) (w : World σ) (e : PEvent) :
    World σ × Option (PEvent × Option KErr) :=
  match encFields K enc e.subject w (e.strs ++ e.ints.map Dec.itoa) with
  | (w, .panic) => (w, none)
  | (w, .err .wasDeleted) => (w, some (e.redact, some .wasDeleted))
  | (w, .err x) => (w, some (e, some x))
  | (w, .ok cs) =>
    (w, some ({ e with strs := cs.take e.strs.length, ints := e.ints.map (fun _ => 0),
                       sers := cs.drop e.strs.length }, none))

/-- Decrypt the string fields in order (event_writer.go:116-124). -/
def decFields (K : Store σ) (enc : Encryptor) (subject : Str) : World σ → List Str → World σ × Rs
  | w, [] => (w, .ok [])
  | w, f :: fs =>
    match engineDecrypt K enc w subject f with
    | (w, .err e) => (w, .err e)
    | (w, .panic) => (w, .panic)
    | (w, .ok c) => match decFields K enc subject w fs with
      | (w, .ok cs) => (w, .ok (c :: cs))
      | r => r

/-- The result of decrypting the numeric fields. -/
inductive RsI where
  | ok (l : List Int)
  | err (e : KErr)
  | panic
deriving DecidableEq, Repr

/-- Decrypt the numeric fields in order (event_writer.go:125-137). An error of `strconv.Atoi` is never
`ErrKeyWasDeleted`. -/
def decInts (K : Store σ) (enc : Encryptor) (subject : Str) : World σ → List Str → World σ × RsI
  | w, [] => (w, .ok [])
  | w, f :: fs =>
    match engineDecrypt K enc w subject f with
    | (w, .err e) => (w, .err e)
    | (w, .panic) => (w, .panic)
    | (w, .ok c) =>
      match Dec.atoi c with
      | none => (w, .err .other)
      | some i => match decInts K enc subject w fs with
        | (w, .ok is) => (w, .ok (i :: is))
        | r => r

/-- Generated `Decrypt` (event_writer.go:115-148). -/
def genDecrypt (K : Store σ) (enc : Encryptor) (w : World σ) (e : PEvent) :
    World σ × Option (PEvent × Option KErr) :=
  match decFields K enc e.subject w e.strs with
  | (w, .panic) => (w, none)
  | (w, .err .wasDeleted) => (w, some (e.redact, some .wasDeleted))
  | (w, .err x) => (w, some (e, some x))
  | (w, .ok strs) =>
    match decInts K enc e.subject w e.sers with
    | (w, .panic) => (w, none)
    | (w, .err .wasDeleted) => (w, some (e.redact, some .wasDeleted))
    | (w, .err x) => (w, some (e, some x))
    | (w, .ok ints) =>
      (w, some ({ e with strs := strs, ints := ints, sers := e.sers.map (fun _ => []) }, none))

/-! ## Operations -/

/-- What can happen to a world: a call of the key store by anybody, and generated `Encrypt` and
`Decrypt` of events. -/
inductive Op where
  | call (c : Call)
  | enc (e : PEvent)
  | dec (e : PEvent)
deriving DecidableEq, Repr

/-- One operation. -/
def opStep (K : Store σ) (enc : Encryptor) (w : World σ) : Op → World σ
  | .call c => { w with ks := (K.call w.ks c).1 }
  | .enc e => (genEncrypt K enc w e).1
  | .dec e => (genDecrypt K enc w e).1

/-- A sequence of operations. -/
def opRun (K : Store σ) (enc : Encryptor) (w : World σ) (ops : List Op) : World σ :=
  ops.foldl (opStep K enc) w

/-- No operation of the list is a `Delete` of the subject. -/
def NoDelete (s : Str) (ops : List Op) : Prop := ∀ now, Op.call (.delete now s) ∉ ops

end RangeDB.Cry

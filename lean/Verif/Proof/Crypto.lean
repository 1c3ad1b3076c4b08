import Verif.Model.Crypto
import Verif.Proof.KeyStore
import Verif.Proof.Decimal

/-!
# Lemmas about encryption
-/

namespace RangeDB.Cry

open RangeDB.Key

theorem Bytes.nil : Bytes [] := by simp [Bytes]
theorem Bytes.append {a b : Str} (ha : Bytes a) (hb : Bytes b) : Bytes (a ++ b) := by
  intro x hx; rcases List.mem_append.mp hx with h | h
  · exact ha x h
  · exact hb x h
theorem Bytes.take {a : Str} (ha : Bytes a) (n : Nat) : Bytes (a.take n) :=
  fun x hx => ha x (List.mem_of_mem_take hx)
theorem Bytes.drop {a : Str} (ha : Bytes a) (n : Nat) : Bytes (a.drop n) :=
  fun x hx => ha x (List.mem_of_mem_drop hx)

/-! ## Base64 -/

theorem b64chr_spec : ∀ i, i < 64 → b64idx (b64chr i) = some i ∧ b64chr i ≠ 61 ∧ b64chr i ≠ 10 ∧
    b64chr i ≠ 13 := by
  decide

theorem quanta4 {a b c d : Nat} {w x y z : Nat} {rest r : Str}
    (ha : b64idx w = some a) (hb : b64idx x = some b) (hc : b64idx y = some c)
    (hd : b64idx z = some d) (hz : z ≠ 61) (hr : b64quanta rest = some r) :
    b64quanta (w :: x :: y :: z :: rest) =
      some ((a * 4 + b / 16) :: (b % 16 * 16 + c / 4) :: (c % 4 * 64 + d) :: r) := by
  unfold b64quanta
  split
  · simp_all
  · simp_all
  · simp_all
  · rename_i heq
    simp only [List.cons.injEq] at heq
    obtain ⟨rfl, rfl, rfl, rfl, rfl⟩ := heq
    rw [ha, hb, hc, hd, hr]
  · rename_i h; exact absurd rfl (h _ _ _ _ _)

theorem quanta3 {a b c : Nat} {w x y : Nat}
    (ha : b64idx w = some a) (hb : b64idx x = some b) (hc : b64idx y = some c) (hy : y ≠ 61) :
    b64quanta [w, x, y, 61] = some [a * 4 + b / 16, b % 16 * 16 + c / 4] := by
  unfold b64quanta
  split
  · simp_all
  · rename_i heq
    simp only [List.cons.injEq] at heq
    exact absurd heq.2.2.1 hy
  · rename_i heq
    simp only [List.cons.injEq, and_true] at heq
    obtain ⟨rfl, rfl, rfl⟩ := heq
    rw [ha, hb, hc]
  · rename_i heq
    simp_all
  · rename_i h; exact absurd rfl (h _ _ _ _ _)

theorem quanta2 {a b : Nat} {w x : Nat} (ha : b64idx w = some a) (hb : b64idx x = some b) :
    b64quanta [w, x, 61, 61] = some [a * 4 + b / 16] := by
  simp [b64quanta, ha, hb]

theorem b64quanta_enc (s : Str) (h : Bytes s) : b64quanta (b64enc s) = some s := by
  induction s using b64enc.induct with
  | case1 => rfl
  | case2 a =>
    have ha : a < 256 := h a (by simp)
    have h1 := b64chr_spec (a / 4) (by omega)
    have h2 := b64chr_spec (a % 4 * 16) (by omega)
    rw [b64enc, quanta2 h1.1 h2.1]
    congr 2; omega
  | case3 a b =>
    have ha : a < 256 := h a (by simp)
    have hb : b < 256 := h b (by simp)
    have h1 := b64chr_spec (a / 4) (by omega)
    have h2 := b64chr_spec (a % 4 * 16 + b / 16) (by omega)
    have h3 := b64chr_spec (b % 16 * 4) (by omega)
    rw [b64enc, quanta3 h1.1 h2.1 h3.1 h3.2.1]
    have e1 : a / 4 * 4 + (a % 4 * 16 + b / 16) / 16 = a := by omega
    have e2 : (a % 4 * 16 + b / 16) % 16 * 16 + b % 16 * 4 / 4 = b := by omega
    rw [e1, e2]
  | case4 a b c rest ih =>
    have ha : a < 256 := h a (by simp)
    have hb : b < 256 := h b (by simp)
    have hc : c < 256 := h c (by simp)
    have h1 := b64chr_spec (a / 4) (by omega)
    have h2 := b64chr_spec (a % 4 * 16 + b / 16) (by omega)
    have h3 := b64chr_spec (b % 16 * 4 + c / 64) (by omega)
    have h4 := b64chr_spec (c % 64) (by omega)
    rw [b64enc, quanta4 h1.1 h2.1 h3.1 h4.1 h4.2.1 (ih (fun x hx => h x (by simp [hx])))]
    have e1 : a / 4 * 4 + (a % 4 * 16 + b / 16) / 16 = a := by omega
    have e2 : (a % 4 * 16 + b / 16) % 16 * 16 + (b % 16 * 4 + c / 64) / 4 = b := by omega
    have e3 : (b % 16 * 4 + c / 64) % 4 * 64 + c % 64 = c := by omega
    rw [e1, e2, e3]

theorem b64enc_clean (s : Str) (h : Bytes s) : ∀ c ∈ b64enc s, c ≠ 10 ∧ c ≠ 13 := by
  induction s using b64enc.induct with
  | case1 => simp [b64enc]
  | case2 a =>
    have ha : a < 256 := h a (by simp)
    have h1 := b64chr_spec (a / 4) (by omega)
    have h2 := b64chr_spec (a % 4 * 16) (by omega)
    intro c hc
    simp only [b64enc, List.mem_cons, List.not_mem_nil, or_false] at hc
    rcases hc with rfl | rfl | rfl | rfl
    · exact h1.2.2
    · exact h2.2.2
    · decide
    · decide
  | case3 a b =>
    have ha : a < 256 := h a (by simp)
    have hb : b < 256 := h b (by simp)
    have h1 := b64chr_spec (a / 4) (by omega)
    have h2 := b64chr_spec (a % 4 * 16 + b / 16) (by omega)
    have h3 := b64chr_spec (b % 16 * 4) (by omega)
    intro c hc
    simp only [b64enc, List.mem_cons, List.not_mem_nil, or_false] at hc
    rcases hc with rfl | rfl | rfl | rfl
    · exact h1.2.2
    · exact h2.2.2
    · exact h3.2.2
    · decide
  | case4 a b c rest ih =>
    have ha : a < 256 := h a (by simp)
    have hb : b < 256 := h b (by simp)
    have hc : c < 256 := h c (by simp)
    have h1 := b64chr_spec (a / 4) (by omega)
    have h2 := b64chr_spec (a % 4 * 16 + b / 16) (by omega)
    have h3 := b64chr_spec (b % 16 * 4 + c / 64) (by omega)
    have h4 := b64chr_spec (c % 64) (by omega)
    intro x hx
    simp only [b64enc, List.mem_cons] at hx
    rcases hx with rfl | rfl | rfl | rfl | hx
    · exact h1.2.2
    · exact h2.2.2
    · exact h3.2.2
    · exact h4.2.2
    · exact ih (fun x hx => h x (by simp [hx])) x hx

theorem b64dec_enc (s : Str) (h : Bytes s) : b64dec (b64enc s) = some s := by
  have : (b64enc s).filter (fun c => c ≠ 10 ∧ c ≠ 13) = b64enc s := by
    rw [List.filter_eq_self]
    intro c hc
    simpa using b64enc_clean s h c hc
  rw [b64dec, this, b64quanta_enc s h]

/-! ## Padding and CBC -/

theorem pkcs5_roundtrip (msg : Str) (bs : Nat) (h1 : 1 ≤ bs) (h2 : bs ≤ 255) :
    pkcs5Trim (pkcs5Pad msg bs) = .ok msg ∧ (pkcs5Pad msg bs).length % bs = 0 ∧
    (pkcs5Pad msg bs).length ≠ 0 := by
  have hlt : msg.length % bs < bs := Nat.mod_lt _ (by omega)
  have hp : (bs - msg.length % bs) % 256 = bs - msg.length % bs := Nat.mod_eq_of_lt (by omega)
  have hlast : (pkcs5Pad msg bs).getLast? = some (bs - msg.length % bs) := by
    simp only [pkcs5Pad, hp]
    rw [List.getLast?_append, List.getLast?_replicate, if_neg (by omega)]
    simp
  have hlen : (pkcs5Pad msg bs).length = msg.length + (bs - msg.length % bs) := by simp [pkcs5Pad]
  refine ⟨?_, ?_, ?_⟩
  · simp only [pkcs5Trim, hlast, hlen]
    rw [if_neg (by omega)]
    have : msg.length + (bs - msg.length % bs) - (bs - msg.length % bs) = msg.length := by omega
    rw [this]
    simp [pkcs5Pad]
  · rw [hlen]
    have := Nat.div_add_mod msg.length bs
    have e : msg.length + (bs - msg.length % bs) = bs * (msg.length / bs) + bs := by omega
    rw [e, Nat.add_mod_right, Nat.mul_mod_right]
  · omega

theorem xorS_xorS (a b : Str) (h : a.length = b.length) : xorS (xorS a b) b = a := by
  induction a generalizing b with
  | nil => simp [xorS]
  | cons x a ih =>
    cases b with
    | nil => simp at h
    | cons y b =>
      simp only [List.length_cons, Nat.add_right_cancel_iff] at h
      have := ih b h
      simp only [xorS, List.zipWith_cons_cons] at this ⊢
      rw [this, Nat.xor_assoc, Nat.xor_self, Nat.xor_zero]

theorem xorS_length (a b : Str) (h : a.length = b.length) : (xorS a b).length = a.length := by
  simp [xorS, h]

theorem xorS_bytes {a b : Str} (ha : Bytes a) (hb : Bytes b) : Bytes (xorS a b) := by
  induction a generalizing b with
  | nil => simp [xorS, Bytes]
  | cons x a ih =>
    cases b with
    | nil => simp [xorS, Bytes]
    | cons y b =>
      intro z hz
      simp only [xorS, List.zipWith_cons_cons, List.mem_cons] at hz
      rcases hz with rfl | hz
      · exact Nat.xor_lt_two_pow (n := 8) (ha x (by simp)) (hb y (by simp))
      · exact ih (fun u hu => ha u (by simp [hu])) (fun u hu => hb u (by simp [hu])) z hz

theorem cbc_roundtrip {B : BlockCipher} (hB : B.Lawful) (key : Str) (n : Nat) (iv p : Str)
    (hiv : iv.length = 16) (hp : p.length = 16 * n) (biv : Bytes iv) (bp : Bytes p) :
    cbcDec B key n iv (cbcEnc B key n iv p) = p ∧ (cbcEnc B key n iv p).length = 16 * n ∧
    Bytes (cbcEnc B key n iv p) := by
  induction n generalizing iv p with
  | zero =>
    have : p = [] := List.length_eq_zero_iff.mp (by omega)
    simp [cbcEnc, cbcDec, this, Bytes]
  | succ n ih =>
    have ht : (p.take 16).length = 16 := by simp; omega
    have hd : (p.drop 16).length = 16 * n := by simp; omega
    have hx : (xorS (p.take 16) iv).length = 16 := by rw [xorS_length _ _ (by omega)]; exact ht
    have bx : Bytes (xorS (p.take 16) iv) := xorS_bytes (bp.take 16) biv
    have hl := hB.len key _ hx
    have bE := hB.bytes key _ hx bx
    obtain ⟨h1, h2, h3⟩ := ih (B.E key (xorS (p.take 16) iv)) (p.drop 16) hl hd bE (bp.drop 16)
    refine ⟨?_, ?_, ?_⟩
    · simp only [cbcEnc, cbcDec]
      rw [List.take_left' hl, List.drop_left' hl, hB.dec_enc _ _ hx bx, h1,
        xorS_xorS _ _ (by omega), List.take_append_drop]
    · simp only [cbcEnc, List.length_append, hl, h2]; omega
    · simp only [cbcEnc]; exact Bytes.append bE h3

theorem cbcDec_length {B : BlockCipher} (hB : B.Lawful) (key : Str) (n : Nat) (iv c : Str)
    (hiv : iv.length = 16) (hc : c.length = 16 * n) : (cbcDec B key n iv c).length = 16 * n := by
  induction n generalizing iv c with
  | zero => simp [cbcDec]
  | succ n ih =>
    have ht : (c.take 16).length = 16 := by simp; omega
    simp only [cbcDec, List.length_append]
    rw [ih (c.take 16) (c.drop 16) ht (by simp; omega),
      xorS_length _ _ (by rw [hB.lenD _ _ ht]; omega), hB.lenD _ _ ht]
    omega

theorem pkcs5Pad_bytes {msg : Str} (h : Bytes msg) (bs : Nat) : Bytes (pkcs5Pad msg bs) := by
  refine Bytes.append h ?_
  intro x hx
  have := List.eq_of_mem_replicate hx
  omega

theorem readFull_some {n : Nat} {tape r rest : Str} (h : readFull n tape = (some r, rest)) :
    r = tape.take n ∧ rest = tape.drop n ∧ n ≤ tape.length ∧ r.length = n := by
  simp only [readFull] at h
  split at h
  · simp at h
  · simp only [Prod.mk.injEq, Option.some.injEq] at h
    obtain ⟨rfl, rfl⟩ := h
    exact ⟨rfl, rfl, by omega, by simp; omega⟩

theorem readFull_suffix (n : Nat) (tape : Str) : (readFull n tape).2 <:+ tape := by
  simp only [readFull]
  split
  · exact List.nil_suffix
  · exact List.drop_suffix _ _

theorem encrypt64_lawful {e : Str → Str → Str → R × Str} {d : Str → Str → R}
    (h : ∀ plain key tape c tape', Bytes plain → Bytes tape → e plain key tape = (.ok c, tape') →
      d key c = .ok plain ∧ Bytes c)
    (ht : ∀ plain key tape, (e plain key tape).2 <:+ tape) :
    Encryptor.Lawful ⟨encrypt64 e, decrypt64 d⟩ where
  roundTrip := by
    intro key plain tape cipher tape' hp ht he
    simp only [encrypt64] at he
    cases hk : b64dec key with
    | none => simp [hk] at he
    | some k =>
      simp only [hk] at he
      cases hr : e plain k tape with
      | mk r t =>
        cases r with
        | ok c =>
          simp only [hr, Prod.mk.injEq, R.ok.injEq] at he
          obtain ⟨rfl, rfl⟩ := he
          obtain ⟨h1, h2⟩ := h plain k tape c t hp ht hr
          simp only [decrypt64, hk, b64dec_enc c h2, h1]
        | err x => simp [hr] at he
        | panic => simp [hr] at he
  tape := by
    intro key plain tape
    simp only [encrypt64]
    cases hk : b64dec key with
    | none => exact List.suffix_refl _
    | some k =>
      have := ht plain k tape
      simp only
      cases hr : e plain k tape with
      | mk r t => rw [hr] at this; cases r <;> exact this

theorem gcmEnc_ok {A : Aead} (hA : A.Lawful) (plain key tape c tape' : Str) (hp : Bytes plain)
    (ht : Bytes tape)
    (h : gcmEnc A plain key tape = (.ok c, tape')) : gcmDec A key c = .ok plain ∧ Bytes c := by
  simp only [gcmEnc] at h
  split at h
  · simp at h
  · rename_i hk
    cases hr : readFull 12 tape with
    | mk n rest =>
      cases n with
      | none => simp [hr] at h
      | some n =>
        simp only [hr, Prod.mk.injEq, R.ok.injEq] at h
        obtain ⟨rfl, rfl⟩ := h
        obtain ⟨h1, _, _, hl⟩ := readFull_some hr
        refine ⟨?_, ?_⟩
        · simp only [gcmDec, List.length_append, hl]
          rw [if_neg (by omega), if_neg hk, if_neg (by omega), List.take_left' hl,
            List.drop_left' hl, hA.open_seal _ _ _ hp]
        · exact Bytes.append (h1 ▸ ht.take 12) (hA.bytes _ _ _ hp)

theorem gcm_lawful {A : Aead} (hA : A.Lawful) : (gcm A).Lawful :=
  encrypt64_lawful (fun plain key tape c tape' hp ht h => gcmEnc_ok hA plain key tape c tape' hp ht h)
    (fun plain key tape => by
      have := readFull_suffix 12 tape
      simp only [gcmEnc]
      split
      · exact List.suffix_refl _
      · cases hr : readFull 12 tape with
        | mk r t => rw [hr] at this; cases r <;> exact this)

theorem xchaEnc_ok {A : Aead} (hA : A.Lawful) (plain key tape c tape' : Str) (hp : Bytes plain)
    (ht : Bytes tape)
    (h : xchaEnc A plain key tape = (.ok c, tape')) : xchaDec A key c = .ok plain ∧ Bytes c := by
  simp only [xchaEnc] at h
  split at h
  · simp at h
  · rename_i hk
    cases hr : readFull 24 tape with
    | mk n rest =>
      cases n with
      | none => simp [hr] at h
      | some n =>
        simp only [hr, Prod.mk.injEq, R.ok.injEq] at h
        obtain ⟨rfl, rfl⟩ := h
        obtain ⟨h1, _, _, hl⟩ := readFull_some hr
        refine ⟨?_, ?_⟩
        · simp only [xchaDec, List.length_append, hl]
          rw [if_neg (by omega), if_neg hk, if_neg (by omega), List.take_left' hl,
            List.drop_left' hl, hA.open_seal _ _ _ hp]
        · exact Bytes.append (h1 ▸ ht.take 24) (hA.bytes _ _ _ hp)

theorem xcha_lawful {A : Aead} (hA : A.Lawful) : (xcha A).Lawful :=
  encrypt64_lawful (fun plain key tape c tape' hp ht h => xchaEnc_ok hA plain key tape c tape' hp ht h)
    (fun plain key tape => by
      have := readFull_suffix 24 tape
      simp only [xchaEnc]
      split
      · exact List.suffix_refl _
      · cases hr : readFull 24 tape with
        | mk r t => rw [hr] at this; cases r <;> exact this)

theorem cbcEncrypt_ok {B : BlockCipher} (hB : B.Lawful) (plain key tape c tape' : Str)
    (hp : Bytes plain) (ht : Bytes tape) (h : cbcEncrypt B plain key tape = (.ok c, tape')) :
    cbcDecrypt B key c = .ok plain ∧ Bytes c := by
  simp only [cbcEncrypt] at h
  split at h
  · simp at h
  · rename_i hk
    cases hr : readFull 16 tape with
    | mk n rest =>
      cases n with
      | none => simp [hr] at h
      | some iv =>
        simp only [hr, Prod.mk.injEq, R.ok.injEq] at h
        obtain ⟨rfl, rfl⟩ := h
        obtain ⟨h1, _, _, hl⟩ := readFull_some hr
        obtain ⟨p1, p2, p3⟩ := pkcs5_roundtrip plain 16 (by omega) (by omega)
        have hlen : (pkcs5Pad plain 16).length = 16 * ((pkcs5Pad plain 16).length / 16) := by omega
        obtain ⟨r1, r2, r3⟩ := cbc_roundtrip hB key _ iv (pkcs5Pad plain 16) hl hlen
          (h1 ▸ ht.take 16) (pkcs5Pad_bytes hp 16)
        refine ⟨?_, Bytes.append (h1 ▸ ht.take 16) r3⟩
        clear r3
        generalize (pkcs5Pad plain 16).length / 16 = m at *
        simp only [cbcDecrypt, List.length_append, hl, r2]
        rw [if_neg (by omega), if_neg (by omega), if_neg hk, if_neg (by omega),
          List.take_left' hl, List.drop_left' hl]
        have : (16 + 16 * m - 16) / 16 = m := by omega
        rw [this, r1, p1]

theorem cbc_lawful {B : BlockCipher} (hB : B.Lawful) : (cbc B).Lawful :=
  encrypt64_lawful (fun plain key tape c tape' hp ht h => cbcEncrypt_ok hB plain key tape c tape' hp ht h)
    (fun plain key tape => by
      have := readFull_suffix 16 tape
      simp only [cbcEncrypt]
      split
      · exact List.suffix_refl _
      · cases hr : readFull 16 tape with
        | mk r t => rw [hr] at this; cases r <;> exact this)

theorem rot_rot (r : Nat) : rot (rot r) = r := by
  simp only [rot]
  repeat' split
  all_goals omega

theorem rot13_lawful : rot13.Lawful where
  roundTrip := by
    intro key plain tape cipher tape' _ _ h
    simp only [rot13, Prod.mk.injEq, R.ok.injEq] at h
    obtain ⟨rfl, _⟩ := h
    simp only [rot13, R.ok.injEq, List.map_map]
    conv => rhs; rw [← List.map_id plain]
    congr 1; funext r; exact rot_rot r
  tape := fun _ _ _ => List.suffix_refl _

end RangeDB.Cry

import Verif.Thm.Encrypted

/-!
# Decrypting what has been decrypted (C32, C57)

`Thm/Encrypted.lean` has counterexamples; here is what happens to every event with personal data.
-/

namespace RangeDB.ES

open RangeDB.Key RangeDB.Cry

variable {σ : Type}

/-- The engine answers a text with an error, whatever the key. -/
def Refuses (enc : Encryptor) (f : Str) : Prop := ∀ key, ∃ e, enc.decrypt key f = .err e ∧ e ≠ .wasDeleted

/-- The first personal value of an event as it stands in the event: its first personal string or, if there is none, the
text in the place of its first number's cipher text. -/
def firstValue (p : PEvent) : Option Str := (p.strs ++ p.sers).head?

theorem b64quanta_length (s : Str) : ∀ r, b64quanta s = some r → 4 * r.length ≤ 3 * s.length := by
  fun_induction b64quanta s with
  | case1 => intro r h; simp at h; simp [h]
  | case2 => intro r h; simp at h; simp [← h]
  | case3 => intro r h; simp at h
  | case4 => intro r h; simp at h; simp [← h]
  | case5 => intro r h; simp at h
  | case6 a b c d rest _ _ _ _ _ _ c' hc _ _ _ _ ih =>
    intro r h
    simp at h
    have := ih c' hc
    simp only [← h, List.length_cons]
    omega
  | case7 => intro r h; simp at h
  | case8 => intro r h; simp at h

theorem b64dec_length {s r : Str} (h : b64dec s = some r) : 4 * r.length ≤ 3 * s.length := by
  have h1 := b64quanta_length _ r h
  have h2 := List.length_filter_le (fun c => decide (c ≠ 10 ∧ c ≠ 13)) s
  omega

/-- AES/GCM refuses every text of fewer than 16 bytes. -/
theorem gcm_refuses (A : Aead) (f : Str) (h : f.length < 16) : Refuses (gcm A) f := by
  intro key
  simp only [gcm, decrypt64]
  cases b64dec key with
  | none => exact ⟨_, rfl, by simp⟩
  | some k =>
    cases hf : b64dec f with
    | none => exact ⟨_, rfl, by simp⟩
    | some c =>
      have hc := b64dec_length hf
      simp only [gcmDec]
      split
      · exact ⟨_, rfl, by simp⟩
      · split
        · exact ⟨_, rfl, by simp⟩
        · rw [if_pos (by omega)]
          exact ⟨_, rfl, by simp⟩

/-- All three engines refuse the empty text. -/
theorem empty_refused (A : Aead) (B : BlockCipher) : Refuses (gcm A) [] ∧ Refuses (xcha A) [] ∧ Refuses (cbc B) [] := by
  refine ⟨gcm_refuses A [] (by simp), ?_, ?_⟩
  · intro key
    simp only [xcha, decrypt64]
    cases b64dec key with
    | none => exact ⟨_, rfl, by simp⟩
    | some k => exact ⟨.invalidCipherText, rfl, by simp⟩
  · intro key
    simp only [cbc, decrypt64]
    cases b64dec key with
    | none => exact ⟨_, rfl, by simp⟩
    | some k => exact ⟨.invalidCipherText, rfl, by simp⟩

/-- Decrypting an event whose first value is refused is an error, and the event is not changed unless its key was deleted. -/
theorem genDecrypt_refused (K : Store σ) (enc : Encryptor) (w : World σ) (p : PEvent) {f : Str}
    (hf : firstValue p = some f) (hr : Refuses enc f) :
    ∃ v q e, genDecrypt K enc w p = (v, some (q, some e)) ∧
      ((K.get w.ks p.subject).2.2 ≠ some .wasDeleted → q = p ∧ e ≠ .wasDeleted) := by
  have heng : ∃ v e, engineDecrypt K enc w p.subject f = (v, .err e) ∧
      ((K.get w.ks p.subject).2.2 ≠ some .wasDeleted → e ≠ .wasDeleted) := by
    unfold engineDecrypt
    generalize K.get w.ks p.subject = g
    obtain ⟨ks, key, o⟩ := g
    cases o with
    | none =>
      obtain ⟨e, he, hne⟩ := hr key
      exact ⟨{ w with ks := ks }, e, by simp [he], fun _ => hne⟩
    | some x => exact ⟨_, x, rfl, fun h e => h (by simp [e])⟩
  obtain ⟨v, e, he, hne⟩ := heng
  unfold firstValue at hf
  unfold genDecrypt
  cases hs : p.strs with
  | cons g gs =>
    rw [hs] at hf
    simp only [List.cons_append, List.head?_cons, Option.some.injEq] at hf
    subst hf
    simp only [decFields, he]
    by_cases hw : e = .wasDeleted
    · subst hw
      exact ⟨v, p.redact, .wasDeleted, rfl, fun h => absurd rfl (hne h)⟩
    · refine ⟨v, p, e, ?_, fun h => ⟨rfl, hw⟩⟩
      cases e <;> first | rfl | exact absurd rfl hw
  | nil =>
    rw [hs] at hf
    simp only [List.nil_append] at hf
    cases hq : p.sers with
    | nil => rw [hq] at hf; simp at hf
    | cons g gs =>
      rw [hq] at hf
      simp only [List.head?_cons, Option.some.injEq] at hf
      subst hf
      simp only [decFields, decInts, he]
      by_cases hw : e = .wasDeleted
      · subst hw
        exact ⟨v, p.redact, .wasDeleted, rfl, fun h => absurd rfl (hne h)⟩
      · refine ⟨v, p, e, ?_, fun h => ⟨rfl, hw⟩⟩
        cases e <;> first | rfl | exact absurd rfl hw

/-- **C32**, what happens instead, for every event with personal data whose first plain value the engine refuses: `Record`
called a second time returns nil, and the iterator has an error from then on. By `gcm_refuses` this is every personal string
of fewer than 16 bytes with AES/GCM. -/
theorem C32_second (C : Codec) (K : Store σ) (enc : Encryptor) (w w1 : World σ) (it it1 : DIter) (r : Record) (p : PEvent)
    (f : Str) (h : it.record C K enc w = (w1, it1, some (some r))) (hp : C.asP r.evType r.data = some p)
    (hf : firstValue p = some f) (hr : Refuses enc f) :
    ∃ w2 it2 e, it1.record C K enc w1 = (w2, it2, some none) ∧ it2.error = some (.crypto e) := by
  unfold DIter.record at h
  cases hq : it.parent.record with
  | none => simp [hq] at h
  | some r0 =>
    simp only [hq] at h
    generalize decData C K enc w r0.evType r0.data = g at h
    obtain ⟨v, o⟩ := g
    rcases o with _ | ⟨d, _ | e⟩
    · simp at h
    · simp only [Prod.mk.injEq, Option.some.injEq] at h
      obtain ⟨rfl, rfl, rfl⟩ := h
      obtain ⟨v2, q, e, hg, _⟩ := genDecrypt_refused K enc v p hf hr
      simp only at hp
      have hrec : ∀ it0 : RecordIterator, ∀ x, DIter.record C K enc v ⟨setCurrent it0 { r0 with data := d }, x⟩ =
          (v2, ⟨setCurrent (setCurrent it0 { r0 with data := d }) { r0 with data := C.ofP r0.evType d q }, some e⟩,
            some none) := by
        intro it0 x
        unfold DIter.record
        simp only [setCurrent, RecordIterator.record, decData, hp, hg]
      exact ⟨_, _, e, hrec _ _, rfl⟩
    · simp at h

/-- A number's cipher text is emptied when the number is decrypted: an event whose personal values are all numbers has an
empty first value. -/
theorem firstValue_number {K : Store σ} {enc : Encryptor} {w : World σ} {p q : PEvent} {e : Option KErr}
    (h : (genDecrypt K enc w p).2 = some (q, e)) (he : e = none) (hs : p.strs = []) (hn : p.sers ≠ []) :
    firstValue q = some [] := by
  obtain ⟨_, _, h1, _⟩ := C49_decrypt K enc w p q e h
  obtain ⟨h2, _, _, _, h3⟩ := h1 he
  unfold firstValue
  rw [h3]
  have : q.strs = [] := by rw [hs] at h2; exact List.length_eq_zero_iff.mp h2
  rw [this]
  cases hq : p.sers with
  | nil => exact absurd hq hn
  | cons a l => simp [List.replicate_succ]

/-- **C57**, what holds with AES/GCM for every personal string of fewer than 16 bytes: as long as the key was not deleted
in between, the second subscriber is handed the same plain record as the first. -/
theorem C57_gcm (C : Codec) (hC : C.Lawful) (K : Store σ) (A : Aead) (w w1 : World σ) (r r1 : Record) (p : PEvent)
    (f : Str) (h : accept C K (gcm A) w r = (w1, some r1)) (hp : C.asP r1.evType r1.data = some p)
    (hf : firstValue p = some f) (hlen : f.length < 16) (hk : (K.get w1.ks p.subject).2.2 ≠ some .wasDeleted) :
    (accept C K (gcm A) w1 r1).2 = some r1 := by
  obtain ⟨v, q, e, hg, hx⟩ := genDecrypt_refused K (gcm A) w1 p hf (gcm_refuses A f hlen)
  obtain ⟨rfl, hne⟩ := hx hk
  have hd : decData C K (gcm A) w1 r1.evType r1.data = (v, some (C.ofP r1.evType r1.data q, some e)) := by
    simp only [decData, hp, hg]
  rw [C57_partial C hC K (gcm A) w w1 v r r1 _ e hne h hd]

/-- **C57**, what happens with XChaCha20-Poly1305: if the first personal string of the plain record is base64 for 1 to 23
bytes, the decryption for the second subscriber panics. -/
theorem C57_xchacha (C : Codec) (K : Store σ) (A : Aead) (w1 : World σ) (r1 : Record) (p : PEvent) (f c key key64 : Str)
    (ks : σ) (hp : C.asP r1.evType r1.data = some p) (hf : firstValue p = some f) (hc : b64dec f = some c)
    (h1 : 0 < c.length) (h2 : c.length < 24) (hg : K.get w1.ks p.subject = (ks, key64, none))
    (hk : b64dec key64 = some key) (hl : key.length = 32) :
    (accept C K (xcha A) w1 r1).2 = none := by
  have heng : engineDecrypt K (xcha A) w1 p.subject f = ({ w1 with ks := ks }, .panic) := by
    simp only [engineDecrypt, hg, xcha, decrypt64, hk, hc, xchaDec]
    rw [if_neg (by omega), if_neg (by omega), if_pos h2]
  have hgen : genDecrypt K (xcha A) w1 p = ({ w1 with ks := ks }, none) := by
    unfold firstValue at hf
    unfold genDecrypt
    cases hs : p.strs with
    | cons g gs =>
      rw [hs] at hf
      simp only [List.cons_append, List.head?_cons, Option.some.injEq] at hf
      subst hf
      simp only [decFields, heng]
    | nil =>
      rw [hs] at hf
      simp only [List.nil_append] at hf
      cases hq : p.sers with
      | nil => rw [hq] at hf; simp at hf
      | cons g gs =>
        rw [hq] at hf
        simp only [List.head?_cons, Option.some.injEq] at hf
        subst hf
        simp only [decFields, decInts, heng]
  simp only [accept, decData, hp, hgen]

/-- The hypotheses of `C32_second` and `C57_gcm` hold of an event with the personal string "Hi". -/
example : firstValue ⟨[1], [[72, 105]], [], [], []⟩ = some [72, 105] ∧ Refuses (gcm toyAead) [72, 105] :=
  ⟨rfl, gcm_refuses _ _ (by decide)⟩

example :
    let x := at32.2.record codec0 mem (gcm toyAead) at32.1
    (x.2.2.map (·.map (fun r => (codec0.asP r.evType r.data).bind firstValue))) = some (some (some [72, 105])) := by
  decide +kernel

/-- Those of `C57_xchacha` hold of "John". -/
example : b64dec [74, 111, 104, 110] = some [38, 136, 103] ∧
    ((accept codec0 mem (xcha toyAead) at57.1 at57.2).2.map
      (fun r => (codec0.asP r.evType r.data).bind firstValue)) = some (some [74, 111, 104, 110]) := by
  decide +kernel

end RangeDB.ES

import Verif.Thm.KeyRace

/-!
# A call that no other call overlaps

The programs of `Model/KeyRace`, run without interruption, do what `Model/KeyStore` and `Model/Crypto` say the calls do. So the
theorems about overlapping calls (C83-C85) and those about histories of calls (C25-C28) speak of the same code.
-/

namespace RangeDB.Race

open RangeDB.Key RangeDB.Cry

variable {σ τ β γ : Type}

/-- Run a program without interruption. -/
def Prog.alone : Prog σ β → σ → σ × β
  | .ret b, m => (m, b)
  | .act f k, m => (k m).alone (f m)

theorem alone_bind (p : Prog σ β) (g : β → Prog σ γ) : ∀ m, (p.bind g).alone m = (g (p.alone m).2).alone (p.alone m).1 := by
  induction p with
  | ret b => intro m; rfl
  | act f k ih => intro m; simp only [Prog.bind, Prog.alone, ih]

theorem alone_fst (p : Prog σ β) : ∀ m : σ × τ, p.onFst.alone m = (((p.alone m.1).1, m.2), (p.alone m.1).2) := by
  induction p with
  | ret b => intro m; rfl
  | act f k ih => intro m; simp only [Prog.onFst, Prog.alone, ih]

theorem alone_snd (p : Prog τ β) : ∀ m : σ × τ, p.onSnd.alone m = ((m.1, (p.alone m.2).1), (p.alone m.2).2) := by
  induction p with
  | ret b => intro m; rfl
  | act f k ih => intro m; simp only [Prog.onSnd, Prog.alone, ih]

/-- Scheduling only goroutine `i`, often enough, is running its program alone. -/
theorem run_alone (i : Nat) (p : Prog σ R) : ∀ y : Sys σ, y.threads i = p →
    ∃ n, (y.run (List.replicate n i)).ks = (p.alone y.ks).1 ∧ (y.run (List.replicate n i)).Finished i (p.alone y.ks).2 := by
  induction p with
  | ret b =>
    intro y h
    exact ⟨0, rfl, h⟩
  | act f k ih =>
    intro y h
    obtain ⟨n, h1, h2⟩ := ih y.ks (y.step i) (by simp [Sys.step, h])
    have hs : (y.step i).ks = f y.ks := by simp [Sys.step, h]
    rw [hs] at h1 h2
    exact ⟨n + 1, h1, h2⟩

/-- The calls of `C`, run alone, are those of `K`. -/
def Agrees (C : CStore σ) (K : Store σ) : Prop :=
  (∀ m s, (C.get s).alone m = K.get m s) ∧ (∀ m s k, (C.set s k).alone m = K.set m s k) ∧
  ∀ m now s, (C.delete now s).alone m = K.delete m now s

theorem atomic_agrees (K : Store σ) : Agrees (atomic K) K :=
  ⟨fun _ _ => rfl, fun _ _ _ => rfl, fun _ _ _ => rfl⟩

theorem vault_agrees : Agrees vaultC vault := by
  refine ⟨fun _ _ => rfl, fun v s key => ?_, fun _ _ _ => rfl⟩
  show (vaultC.set s key).alone v = Vault.set v s key
  simp only [vaultC, Vault.set]
  split
  · rfl
  · rw [alone_bind]
    have hv : (Vault.get v s).1 = v := by
      unfold Vault.get
      split <;> rfl
    simp only [atom, Prog.alone, hv]
    split <;> simp_all [Prog.alone]

theorem cache_agrees {C₁ : CStore σ} {K₁ : Store σ} {C₂ : CStore τ} {K₂ : Store τ} (h₁ : Agrees C₁ K₁) (h₂ : Agrees C₂ K₂) :
    Agrees (cacheC C₁ C₂) (cache K₁ K₂) := by
  refine ⟨fun m s => ?_, fun m s key => ?_, fun m now s => ?_⟩
  · show ((cacheC C₁ C₂).get s).alone m = Cache.get K₁ K₂ m s
    simp only [cacheC, Cache.get, alone_bind, alone_fst, h₁.1]
    rcases K₁.get m.1 s with ⟨f, k, _ | e⟩
    · rfl
    · simp only [alone_bind, alone_snd, h₂.1]
      rcases K₂.get m.2 s with ⟨t, k2, _ | e2⟩
      · simp only [alone_bind, alone_fst, h₁.2.1, Prog.alone]
      · rfl
  · show ((cacheC C₁ C₂).set s key).alone m = Cache.set K₁ K₂ m s key
    simp only [cacheC, Cache.set, alone_bind, alone_snd, h₂.2.1]
    rcases K₂.set m.2 s key with ⟨t, _ | e⟩
    · simp only [alone_fst, h₁.2.1]
    · rfl
  · show ((cacheC C₁ C₂).delete now s).alone m = Cache.delete K₁ K₂ m now s
    simp only [cacheC, Cache.delete, alone_bind, alone_snd, h₂.2.2]
    rcases K₂.delete m.2 now s with ⟨t, _ | e⟩
    · simp only [alone_fst, h₁.2.2]
    · rfl

/-- **C83-C85**, calls that do not overlap: whatever other goroutines have begun, while goroutine `i` alone takes its steps an
encryption ends with the result, and in the key store, of the sequential `engineEncrypt`, and a decryption with those of
`engineDecrypt`. For every key store whose single calls do what the sequential model says: all of them, with or without a
cache. -/
theorem C83_alone {C : CStore σ} {K : Store σ} (h : Agrees C K) (enc : Encryptor) (y : Sys σ) (i : Nat) (s data : Str) :
    (∀ raw rest keys tape, readFull 32 keys = (some raw, rest) → y.threads i = encrypt C enc s data raw tape →
      ∃ n, (y.run (List.replicate n i)).ks = (engineEncrypt K enc ⟨y.ks, keys, tape⟩ s data).1.ks ∧
        (y.run (List.replicate n i)).Finished i (engineEncrypt K enc ⟨y.ks, keys, tape⟩ s data).2) ∧
    (∀ keys tape, y.threads i = decrypt C enc s data →
      ∃ n, (y.run (List.replicate n i)).ks = (engineDecrypt K enc ⟨y.ks, keys, tape⟩ s data).1.ks ∧
        (y.run (List.replicate n i)).Finished i (engineDecrypt K enc ⟨y.ks, keys, tape⟩ s data).2) := by
  constructor
  · intro raw rest keys tape hk ht
    have key : ((engineEncrypt K enc ⟨y.ks, keys, tape⟩ s data).1.ks, (engineEncrypt K enc ⟨y.ks, keys, tape⟩ s data).2) =
        (encrypt C enc s data raw tape).alone y.ks := by
      simp only [encrypt, alone_bind, h.1, engineEncrypt]
      rcases K.get y.ks s with ⟨m, k, _ | e⟩
      · rfl
      · cases e with
        | notFound =>
          simp only [hk, alone_bind, h.2.1]
          rcases K.set m s (b64enc raw) with ⟨m', _ | e⟩ <;> rfl
        | _ => rfl
    obtain ⟨n, h1, h2⟩ := run_alone i _ y ht
    rw [← key] at h1 h2
    exact ⟨n, h1, h2⟩
  · intro keys tape ht
    have key : ((engineDecrypt K enc ⟨y.ks, keys, tape⟩ s data).1.ks, (engineDecrypt K enc ⟨y.ks, keys, tape⟩ s data).2) =
        (decrypt C enc s data).alone y.ks := by
      simp only [decrypt, alone_bind, h.1, engineDecrypt]
      rcases K.get y.ks s with ⟨m, k, _ | e⟩ <;> rfl
    obtain ⟨n, h1, h2⟩ := run_alone i _ y ht
    rw [← key] at h1 h2
    exact ⟨n, h1, h2⟩

/-- The key stores to which `C83_alone` applies. -/
theorem C83_alone_stores : Agrees (atomic mem) mem ∧ Agrees (atomic pg) pg ∧ Agrees (atomic dyn) dyn ∧ Agrees vaultC vault ∧
    Agrees (cacheC (atomic mem) (atomic pg)) (cache mem pg) ∧ Agrees (cacheC (atomic mem) (atomic dyn)) (cache mem dyn) ∧
    Agrees (cacheC (atomic mem) vaultC) (cache mem vault) :=
  ⟨atomic_agrees _, atomic_agrees _, atomic_agrees _, vault_agrees, cache_agrees (atomic_agrees _) (atomic_agrees _),
   cache_agrees (atomic_agrees _) (atomic_agrees _), cache_agrees (atomic_agrees _) vault_agrees⟩

example : ((Sys.init vaultC (gcm keyedAead) (fun _ => []) (fun _ => .encrypt [1] [72, 105] (List.replicate 32 1) (tape0 12))).run
    (List.replicate 3 0)).Finished 0 (.ok raceCipher) := rfl

end RangeDB.Race

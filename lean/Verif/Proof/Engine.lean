import Verif.Proof.Crypto

/-!
# Lemmas about the engine and the generated event methods
-/

namespace RangeDB.Cry

open RangeDB.Key

variable {σ : Type}

/-! ## Key stores that keep keys -/

/-- What is needed of a key store: `has m s k` (the key of `s` is `k`) is established by a successful
`Get` or `Set`, makes `Get` return `k`, and is kept by every call except a `Delete` of `s`. All of it in
states with the invariant `inv`. -/
structure Keeps (K : Store σ) (inv : σ → Prop) (has : σ → Str → Str → Prop) : Prop where
  stays : ∀ m c, inv m → inv (K.call m c).1
  get : ∀ m s k, inv m → has m s k → (K.get m s).2 = (k, none)
  got : ∀ m s k, inv m → (K.get m s).2 = (k, none) → has (K.get m s).1 s k
  set : ∀ m s k, inv m → (K.set m s k).2 = none → has (K.set m s k).1 s k
  call : ∀ m s k c, inv m → has m s k → (∀ now, c ≠ .delete now s) → has (K.call m c).1 s k

theorem mem_keeps : Keeps mem (fun _ => True) (fun m s k => m.bySubject s = some k ∧ k ≠ []) where
  stays _ _ _ := trivial
  get m s k _ h := by simp [mem, Mem.get, h.1, h.2]
  got m s k _ h := by
    simp only [mem, Mem.get] at h ⊢
    cases hb : m.bySubject s with
    | none => simp [hb] at h
    | some v =>
      simp only [hb] at h ⊢
      split at h
      · simp at h
      · rename_i hv
        simp only [Prod.mk.injEq, and_true] at h
        subst h
        simp [hv, hb]
  set m s k _ h := by
    simp only [mem, Mem.set] at h ⊢
    split at h
    · simp at h
    · split at h
      · simp at h
      · split at h
        · simp at h
        · simp [*, upd_self]
  call m s k c _ h hc := by
    cases c with
    | get x => simp only [Store.call, mem_get_state]; exact h
    | set x y =>
      simp only [Store.call, mem, Mem.set]
      split
      · exact h
      · split
        · exact h
        · split
          · exact h
          · rename_i h3
            have : s ≠ x := by rintro rfl; simp [h.1] at h3
            simpa [upd_ne _ _ this] using h
    | delete now x =>
      have : s ≠ x := by rintro rfl; exact hc now rfl
      simpa [Store.call, mem, Mem.delete, upd_ne _ _ this] using h

theorem dyn_keeps : Keeps dyn (fun _ => True)
    (fun t s k => ∃ i, t s = some i ∧ i.key = k ∧ i.deletedAt.getD 0 = 0) where
  stays _ _ _ := trivial
  get m s k _ h := by
    obtain ⟨i, h1, h2, h3⟩ := h
    simp [dyn, Dyn.get, h1, h2, h3]
  got m s k _ h := by
    simp only [dyn, Dyn.get] at h ⊢
    cases hb : m s with
    | none => simp [hb] at h
    | some i =>
      simp only [hb] at h ⊢
      split at h
      · simp at h
      · rename_i hv
        simp only [Prod.mk.injEq, and_true] at h
        subst h
        rw [if_neg hv]
        exact ⟨i, hb, rfl, by omega⟩
  set m s k _ h := by
    simp only [dyn, Dyn.set] at h ⊢
    split at h
    · simp at h
    · split at h
      · simp at h
      · simp [*, upd_self]
  call m s k c _ h hc := by
    obtain ⟨i, h1, h2, h3⟩ := h
    cases c with
    | get x =>
      have : (dyn.get m x).1 = m := by
        simp only [dyn, Dyn.get]; split
        · rfl
        · split <;> rfl
      simp only [Store.call, this]; exact ⟨i, h1, h2, h3⟩
    | set x y =>
      simp only [Store.call, dyn, Dyn.set]
      split
      · exact ⟨i, h1, h2, h3⟩
      · split
        · exact ⟨i, h1, h2, h3⟩
        · rename_i h4
          have : s ≠ x := by rintro rfl; simp [h1] at h4
          exact ⟨i, by simpa [upd_ne _ _ this] using h1, h2, h3⟩
    | delete now x =>
      have : s ≠ x := by rintro rfl; exact hc now rfl
      exact ⟨i, by simpa [Store.call, dyn, Dyn.delete, upd_ne _ _ this] using h1, h2, h3⟩

theorem vault_get_state (v : Vault) (s : Str) : (vault.get v s).1 = v := by
  simp only [vault, Vault.get]; split <;> rfl

theorem vault_keeps : Keeps vault (fun _ => True) (fun v s k => (v s).getLast? = some (some k)) where
  stays _ _ _ := trivial
  get m s k _ h := by simp [vault, Vault.get, h]
  got m s k _ h := by
    rw [vault_get_state]
    simp only [vault, Vault.get] at h
    split at h
    · simp at h
    · simp at h
    · rename_i key hk
      simp only [Prod.mk.injEq, and_true] at h
      rw [hk, h]
  set m s k _ h := by
    simp only [vault, Vault.set] at h ⊢
    split at h
    · simp at h
    · split at h
      · simp at h
      · simp [*, upd_self]
  call m s k c _ h hc := by
    cases c with
    | get x => simp only [Store.call, vault_get_state]; exact h
    | set x y =>
      simp only [Store.call, vault, Vault.set]
      split
      · exact h
      · split
        · exact h
        · rename_i h4
          have : s ≠ x := by rintro rfl; simp [Vault.get, h] at h4
          simpa [upd_ne _ _ this] using h
    | delete now x =>
      have : s ≠ x := by rintro rfl; exact hc now rfl
      simpa [Store.call, vault, Vault.delete, upd_ne _ _ this] using h

theorem pg_get_state (t : List Row) (s : Str) : (pg.get t s).1 = t := by
  simp only [pg, Pg.get]; split
  · rfl
  · split <;> rfl

theorem find_delete (m : List Row) {x s : Str} {now : Nat} (hne : x ≠ s) (r : Row)
    (h1 : m.find? (fun r => r.subject = s) = some r) :
    (m.map (fun r => if r.subject = x then ⟨x, [], some now⟩ else r)).find? (fun r => r.subject = s)
      = some r := by
  induction m with
  | nil => simp at h1
  | cons a m ih =>
    simp only [List.map_cons, List.find?_cons] at h1 ⊢
    by_cases ha : a.subject = s
    · have : a.subject ≠ x := by rw [ha]; exact fun h => hne h.symm
      rw [if_neg this]
      simpa [ha] using h1
    · have : (if a.subject = x then (⟨x, [], some now⟩ : Row) else a).subject ≠ s := by
        split
        · exact hne
        · exact ha
      simp only [this, decide_false]
      simp only [ha, decide_false] at h1
      exact ih h1

theorem pg_keeps : Keeps pg (fun _ => True)
    (fun t s k => ∃ r, t.find? (fun r => r.subject = s) = some r ∧ r.key = k ∧ r.deletedAt = none) where
  stays _ _ _ := trivial
  get m s k _ h := by
    obtain ⟨r, h1, h2, h3⟩ := h
    simp [pg, Pg.get, h1, h2, h3]
  got m s k _ h := by
    rw [pg_get_state]
    simp only [pg, Pg.get] at h
    split at h
    · simp at h
    · rename_i r hr
      split at h
      · simp at h
      · rename_i hd
        simp only [Prod.mk.injEq, and_true] at h
        exact ⟨r, hr, h, by simpa using hd⟩
  set m s k _ h := by
    simp only [pg, Pg.set] at h ⊢
    split at h
    · simp at h
    · split at h
      · simp at h
      · split at h
        · simp at h
        · rename_i h1 h2 h3
          rw [if_neg h1, if_neg h2, if_neg h3]
          refine ⟨⟨s, k, none⟩, ?_, rfl, rfl⟩
          have : m.find? (fun r => r.subject = s) = none := by
            rw [List.find?_eq_none]
            intro r hr hs
            exact h2 (List.any_eq_true.mpr ⟨r, hr, hs⟩)
          simp [List.find?_append, this]
  call m s k c _ h hc := by
    obtain ⟨r, h1, h2, h3⟩ := h
    cases c with
    | get x => simp only [Store.call, pg_get_state]; exact ⟨r, h1, h2, h3⟩
    | set x y =>
      simp only [Store.call, pg, Pg.set]
      split
      · exact ⟨r, h1, h2, h3⟩
      · split
        · exact ⟨r, h1, h2, h3⟩
        · split
          · exact ⟨r, h1, h2, h3⟩
          · exact ⟨r, by simp [List.find?_append, h1], h2, h3⟩
    | delete now x =>
      have hne : x ≠ s := by rintro rfl; exact hc now rfl
      simp only [Store.call, pg, Pg.delete]
      split
      · exact ⟨r, h1, h2, h3⟩
      · exact ⟨r, find_delete m hne r h1, h2, h3⟩

theorem cache_get_snd (c : Mem × Mem) (s : Str) : ((cache mem mem).get c s).1.2 = c.2 := by
  simp only [cache, Cache.get]
  have e := mem_get_state c.2 s
  generalize mem.get c.1 s = x at *
  generalize mem.get c.2 s = y at *
  obtain ⟨a, k1, e1⟩ := x
  obtain ⟨b, k2, e2⟩ := y
  simp only at e; subst e
  cases e1 <;> cases e2 <;> rfl

theorem cache_set_snd (c : Mem × Mem) (s k : Str) :
    ((cache mem mem).set c s k).1.2 = (mem.set c.2 s k).1 := by
  simp only [cache, Cache.set]
  generalize mem.set c.2 s k = y
  obtain ⟨b, e⟩ := y
  cases e <;> rfl

theorem cache_keeps : Keeps (cache mem mem) CacheInv
    (fun c s k => c.2.bySubject s = some k ∧ k ≠ []) where
  stays c x I := by simpa [mixed] using I.step (.cached x)
  get c s k I h := by rw [(I.get s).2]; exact mem_keeps.get _ _ _ trivial h
  got c s k I h := by
    rw [(I.get s).2] at h
    have := mem_keeps.got _ _ _ trivial h
    rw [mem_get_state] at this
    rw [cache_get_snd]; exact this
  set c s k I h := by
    rw [(I.set s k).2] at h
    rw [cache_set_snd]; exact mem_keeps.set _ _ _ trivial h
  call c s k x I h hx := by
    cases x with
    | get y =>
      have : ((cache mem mem).call c (.get y)).1.2 = c.2 := cache_get_snd c y
      rw [this]; exact h
    | set y z =>
      have : ((cache mem mem).call c (.set y z)).1.2 = (mem.set c.2 y z).1 := cache_set_snd c y z
      rw [this]; exact (by
        have := mem_keeps.call c.2 s k (.set y z) trivial h (by simp)
        simpa only [Store.call] using this)
    | delete now y =>
      have : s ≠ y := by rintro rfl; exact hx now rfl
      simpa [Store.call, cache, Cache.delete, mem, Mem.delete, upd_ne _ _ this] using h

/-! ## Invariants -/

section Inv

variable {K : Store σ} {enc : Encryptor} (Q : World σ → Prop)
  (hE : ∀ w s d, Q w → Q (engineEncrypt K enc w s d).1)
  (hD : ∀ w s d, Q w → Q (engineDecrypt K enc w s d).1)

include hE in
theorem encFields_inv (s : Str) (w : World σ) (fs : List Str) (h : Q w) :
    Q (encFields K enc s w fs).1 := by
  induction fs generalizing w with
  | nil => exact h
  | cons f fs ih =>
    have h1 := hE w s f h
    simp only [encFields]
    generalize engineEncrypt K enc w s f = x at *
    obtain ⟨w1, r⟩ := x
    cases r with
    | err e => exact h1
    | panic => exact h1
    | ok c =>
      have h2 := ih w1 h1
      simp only
      generalize encFields K enc s w1 fs = y at *
      obtain ⟨w2, r2⟩ := y
      cases r2 <;> exact h2

include hD in
theorem decFields_inv (s : Str) (w : World σ) (fs : List Str) (h : Q w) :
    Q (decFields K enc s w fs).1 := by
  induction fs generalizing w with
  | nil => exact h
  | cons f fs ih =>
    have h1 := hD w s f h
    simp only [decFields]
    generalize engineDecrypt K enc w s f = x at *
    obtain ⟨w1, r⟩ := x
    cases r with
    | err e => exact h1
    | panic => exact h1
    | ok c =>
      have h2 := ih w1 h1
      simp only
      generalize decFields K enc s w1 fs = y at *
      obtain ⟨w2, r2⟩ := y
      cases r2 <;> exact h2

include hD in
theorem decInts_inv (s : Str) (w : World σ) (fs : List Str) (h : Q w) :
    Q (decInts K enc s w fs).1 := by
  induction fs generalizing w with
  | nil => exact h
  | cons f fs ih =>
    have h1 := hD w s f h
    simp only [decInts]
    generalize engineDecrypt K enc w s f = x at *
    obtain ⟨w1, r⟩ := x
    cases r with
    | err e => exact h1
    | panic => exact h1
    | ok c =>
      have h2 := ih w1 h1
      simp only
      cases Dec.atoi c with
      | none => exact h1
      | some i =>
        simp only
        generalize decInts K enc s w1 fs = y at *
        obtain ⟨w2, r2⟩ := y
        cases r2 <;> exact h2

include hE in
theorem genEncrypt_inv (w : World σ) (e : PEvent) (h : Q w) : Q (genEncrypt K enc w e).1 := by
  have h1 := encFields_inv Q hE e.subject w (e.strs ++ e.ints.map Dec.itoa) h
  simp only [genEncrypt]
  generalize encFields K enc e.subject w (e.strs ++ e.ints.map Dec.itoa) = x at *
  obtain ⟨w1, r⟩ := x
  cases r with
  | ok => exact h1
  | panic => exact h1
  | err x => cases x <;> exact h1

include hD in
theorem genDecrypt_inv (w : World σ) (e : PEvent) (h : Q w) : Q (genDecrypt K enc w e).1 := by
  have h1 := decFields_inv Q hD e.subject w e.strs h
  simp only [genDecrypt]
  generalize decFields K enc e.subject w e.strs = x at *
  obtain ⟨w1, r⟩ := x
  cases r with
  | panic => exact h1
  | err x => cases x <;> exact h1
  | ok l =>
    have h2 := decInts_inv Q hD e.subject w1 e.sers h1
    simp only
    generalize decInts K enc e.subject w1 e.sers = y at *
    obtain ⟨w2, r⟩ := y
    cases r with
    | ok => exact h2
    | panic => exact h2
    | err x => cases x <;> exact h2

include hE hD in
theorem opRun_inv (ok : Call → Prop) (hC : ∀ w c, ok c → Q w → Q { w with ks := (K.call w.ks c).1 })
    (w : World σ) (ops : List Op) (hok : ∀ c, Op.call c ∈ ops → ok c) (h : Q w) :
    Q (opRun K enc w ops) := by
  induction ops generalizing w with
  | nil => exact h
  | cons o ops ih =>
    refine ih _ (fun c hc => hok c (List.mem_cons_of_mem _ hc)) ?_
    cases o with
    | call c => exact hC w c (hok c (by simp)) h
    | enc e => exact genEncrypt_inv Q hE w e h
    | dec e => exact genDecrypt_inv Q hD w e h

end Inv

/-- An invariant of the key store's `Get` and `Set` is kept by the engine. -/
theorem engineEncrypt_ks {K : Store σ} {enc : Encryptor} (P : σ → Prop)
    (hg : ∀ m s, P m → P (K.get m s).1) (hs : ∀ m s k, P m → P (K.set m s k).1)
    (w : World σ) (s d : Str) (h : P w.ks) : P (engineEncrypt K enc w s d).1.ks := by
  have h1 := hg w.ks s h
  simp only [engineEncrypt]
  generalize K.get w.ks s = x at *
  obtain ⟨m, k, e⟩ := x
  simp only at h1
  cases e with
  | none => exact h1
  | some e =>
    cases e with
    | notFound =>
      simp only
      generalize readFull 32 w.keyTape = y
      obtain ⟨raw, tape⟩ := y
      cases raw with
      | none => exact h1
      | some raw =>
        have h2 := hs m s (b64enc raw) h1
        simp only
        generalize K.set m s (b64enc raw) = z at *
        obtain ⟨m2, e2⟩ := z
        cases e2 <;> exact h2
    | _ => exact h1

theorem engineDecrypt_ks {K : Store σ} {enc : Encryptor} (P : σ → Prop)
    (hg : ∀ m s, P m → P (K.get m s).1)
    (w : World σ) (s d : Str) (h : P w.ks) : P (engineDecrypt K enc w s d).1.ks := by
  have h1 := hg w.ks s h
  simp only [engineDecrypt]
  generalize K.get w.ks s = x at *
  obtain ⟨m, k, e⟩ := x
  cases e <;> exact h1

/-- The random sources only get shorter. -/
theorem engineEncrypt_tapes {K : Store σ} {enc : Encryptor} (he : enc.Lawful) (w : World σ)
    (s d : Str) : (engineEncrypt K enc w s d).1.keyTape <:+ w.keyTape ∧
      (engineEncrypt K enc w s d).1.nonceTape <:+ w.nonceTape := by
  simp only [engineEncrypt]
  generalize K.get w.ks s = x
  obtain ⟨m, k, e⟩ := x
  cases e with
  | none => exact ⟨List.suffix_refl _, he.tape k d w.nonceTape⟩
  | some e =>
    cases e with
    | notFound =>
      have hr := readFull_suffix 32 w.keyTape
      simp only
      generalize readFull 32 w.keyTape = y at *
      obtain ⟨raw, tape⟩ := y
      cases raw with
      | none => exact ⟨hr, List.suffix_refl _⟩
      | some raw =>
        simp only
        generalize K.set m s (b64enc raw) = z
        obtain ⟨m2, e2⟩ := z
        cases e2 with
        | none => exact ⟨hr, he.tape _ d w.nonceTape⟩
        | some e2 => exact ⟨hr, List.suffix_refl _⟩
    | _ => exact ⟨List.suffix_refl _, List.suffix_refl _⟩

theorem engineDecrypt_tapes {K : Store σ} {enc : Encryptor} (w : World σ) (s d : Str) :
    (engineDecrypt K enc w s d).1.keyTape = w.keyTape ∧
      (engineDecrypt K enc w s d).1.nonceTape = w.nonceTape := by
  simp only [engineDecrypt]
  generalize K.get w.ks s = x
  obtain ⟨m, k, e⟩ := x
  cases e <;> exact ⟨rfl, rfl⟩

theorem Bytes.suffix {a b : Str} (h : a <:+ b) (hb : Bytes b) : Bytes a :=
  fun x hx => hb x (h.subset hx)

/-! ## Encrypting and decrypting -/

section Keep

variable {K : Store σ} {inv : σ → Prop} {has : σ → Str → Str → Prop} (hK : Keeps K inv has)
  {enc : Encryptor}

include hK

theorem Keeps.invGet (m : σ) (s : Str) (h : inv m) : inv (K.get m s).1 := by
  simpa [Store.call] using hK.stays m (.get s) h

theorem Keeps.invSet (m : σ) (s k : Str) (h : inv m) : inv (K.set m s k).1 := by
  simpa [Store.call] using hK.stays m (.set s k) h

theorem Keeps.hasGet (m : σ) (s k x : Str) (hi : inv m) (h : has m s k) : has (K.get m x).1 s k := by
  simpa [Store.call] using hK.call m s k (.get x) hi h (by simp)

theorem Keeps.hasSet (m : σ) (s k x y : Str) (hi : inv m) (h : has m s k) :
    has (K.set m x y).1 s k := by
  simpa [Store.call] using hK.call m s k (.set x y) hi h (by simp)

/-- Encryption for a subject that has a key. -/
theorem engineEncrypt_known (w : World σ) (s k d : Str) (hi : inv w.ks) (h : has w.ks s k) :
    engineEncrypt K enc w s d = (⟨(K.get w.ks s).1, w.keyTape, (enc.encrypt k d w.nonceTape).2⟩,
      (enc.encrypt k d w.nonceTape).1) := by
  have := hK.get _ _ _ hi h
  simp only [engineEncrypt]
  generalize K.get w.ks s = x at *
  obtain ⟨m, k', e⟩ := x
  simp only [Prod.mk.injEq] at this
  obtain ⟨rfl, rfl⟩ := this
  rfl

/-- After a successful encryption the subject has a key, with which the cipher text was made. -/
theorem engineEncrypt_ok (w w' : World σ) (s d c : Str) (hi : inv w.ks)
    (h : engineEncrypt K enc w s d = (w', .ok c)) :
    ∃ k, has w'.ks s k ∧ enc.encrypt k d w.nonceTape = (.ok c, w'.nonceTape) := by
  have h1 := hK.got w.ks s
  have hi1 := hK.invGet w.ks s hi
  simp only [engineEncrypt] at h
  generalize K.get w.ks s = x at *
  obtain ⟨m, k, e⟩ := x
  cases e with
  | none =>
    simp only [Prod.mk.injEq] at h
    obtain ⟨rfl, h⟩ := h
    exact ⟨k, h1 k hi rfl, by rw [← h]⟩
  | some e =>
    cases e with
    | notFound =>
      simp only at h
      generalize readFull 32 w.keyTape = y at *
      obtain ⟨raw, tape⟩ := y
      cases raw with
      | none => simp at h
      | some raw =>
        have h2 := hK.set m s (b64enc raw) hi1
        simp only at h
        generalize K.set m s (b64enc raw) = z at *
        obtain ⟨m2, e2⟩ := z
        cases e2 with
        | some e2 => simp at h
        | none =>
          simp only [Prod.mk.injEq] at h
          obtain ⟨rfl, h⟩ := h
          exact ⟨_, h2 rfl, by rw [← h]⟩
    | _ => simp at h

/-- The cipher texts decrypt, one by one, to the plain texts. -/
def DecAll (enc : Encryptor) (k : Str) : List Str → List Str → Prop
  | [], [] => True
  | c :: cs, f :: fs => enc.decrypt k c = .ok f ∧ DecAll enc k cs fs
  | _, _ => False

omit hK in
theorem DecAll.length {k : Str} {cs fs : List Str} (h : DecAll enc k cs fs) : cs.length = fs.length := by
  induction cs generalizing fs with
  | nil => cases fs with
    | nil => rfl
    | cons => exact h.elim
  | cons c cs ih => cases fs with
    | nil => exact h.elim
    | cons f fs => simp [ih h.2]

omit hK in
theorem DecAll.split {k : Str} {cs a b : List Str} (h : DecAll enc k cs (a ++ b)) :
    DecAll enc k (cs.take a.length) a ∧ DecAll enc k (cs.drop a.length) b := by
  induction a generalizing cs with
  | nil => exact ⟨trivial, h⟩
  | cons x a ih =>
    cases cs with
    | nil => exact h.elim
    | cons c cs =>
      obtain ⟨h1, h2⟩ := ih h.2
      exact ⟨⟨h.1, h1⟩, h2⟩

theorem encFields_known (he : enc.Lawful) (s k : Str) (w w' : World σ) (fs cs : List Str)
    (hi : inv w.ks) (hk : has w.ks s k) (hb : Bytes w.nonceTape) (hf : ∀ f ∈ fs, Bytes f)
    (h : encFields K enc s w fs = (w', .ok cs)) :
    has w'.ks s k ∧ DecAll enc k cs fs ∧ w'.keyTape = w.keyTape := by
  induction fs generalizing w cs with
  | nil =>
    simp only [encFields, Prod.mk.injEq, Rs.ok.injEq] at h
    obtain ⟨rfl, rfl⟩ := h
    exact ⟨hk, trivial, rfl⟩
  | cons f fs ih =>
    have h1 := he.roundTrip k f w.nonceTape
    have ht := he.tape k f w.nonceTape
    simp only [encFields, engineEncrypt_known hK w s k f hi hk] at h
    generalize enc.encrypt k f w.nonceTape = x at *
    obtain ⟨r, tape⟩ := x
    cases r with
    | err e => simp at h
    | panic => simp at h
    | ok c =>
      have i1 := hK.invGet w.ks s hi
      have k1 := hK.hasGet w.ks s k s hi hk
      have h2 := fun cs => ih ⟨(K.get w.ks s).1, w.keyTape, tape⟩ cs i1 k1 (hb.suffix ht)
        (fun f hf' => hf f (List.mem_cons_of_mem _ hf'))
      simp only at h
      generalize encFields K enc s ⟨(K.get w.ks s).1, w.keyTape, tape⟩ fs = y at *
      obtain ⟨w2, r2⟩ := y
      cases r2 with
      | err e => simp at h
      | panic => simp at h
      | ok cs' =>
        simp only [Prod.mk.injEq, Rs.ok.injEq] at h
        obtain ⟨rfl, rfl⟩ := h
        obtain ⟨a, b, d⟩ := h2 cs' rfl
        exact ⟨a, ⟨h1 c tape (hf f (by simp)) hb rfl, b⟩, d⟩

theorem encFields_ok (he : enc.Lawful) (s : Str) (w w' : World σ) (fs cs : List Str)
    (hi : inv w.ks) (hb : Bytes w.nonceTape) (hf : ∀ f ∈ fs, Bytes f)
    (h : encFields K enc s w fs = (w', .ok cs)) :
    (fs = [] ∧ cs = []) ∨ ∃ k, has w'.ks s k ∧ DecAll enc k cs fs := by
  cases fs with
  | nil =>
    simp only [encFields, Prod.mk.injEq, Rs.ok.injEq] at h
    exact Or.inl ⟨rfl, h.2.symm⟩
  | cons f fs =>
    right
    have hi1 := engineEncrypt_ks (K := K) (enc := enc) inv (fun m s h => hK.invGet m s h)
      (fun m s k h => hK.invSet m s k h) w s f hi
    have ht := (engineEncrypt_tapes (K := K) he w s f).2
    simp only [encFields] at h
    cases hx : engineEncrypt K enc w s f with
    | mk w1 r =>
      rw [hx] at h hi1 ht
      cases r with
      | err e => simp at h
      | panic => simp at h
      | ok c =>
        obtain ⟨k, k1, k2⟩ := engineEncrypt_ok hK w w1 s f c hi hx
        simp only at h
        cases hy : encFields K enc s w1 fs with
        | mk w2 r2 =>
          rw [hy] at h
          cases r2 with
          | err e => simp at h
          | panic => simp at h
          | ok cs' =>
            simp only [Prod.mk.injEq, Rs.ok.injEq] at h
            obtain ⟨rfl, rfl⟩ := h
            obtain ⟨a, b, _⟩ := encFields_known hK he s k w1 w2 fs cs' hi1 k1 (hb.suffix ht)
              (fun f hf' => hf f (List.mem_cons_of_mem _ hf')) hy
            exact ⟨k, a, he.roundTrip k f _ c _ (hf f (by simp)) hb k2, b⟩

theorem engineDecrypt_known (w : World σ) (s k c : Str) (hi : inv w.ks) (h : has w.ks s k) :
    engineDecrypt K enc w s c = ({ w with ks := (K.get w.ks s).1 }, enc.decrypt k c) := by
  have := hK.get _ _ _ hi h
  simp only [engineDecrypt]
  generalize K.get w.ks s = x at *
  obtain ⟨m, k', e⟩ := x
  simp only [Prod.mk.injEq] at this
  obtain ⟨rfl, rfl⟩ := this
  rfl

theorem decFields_ok (s k : Str) (w : World σ) (cs fs : List Str) (hi : inv w.ks)
    (hk : has w.ks s k) (h : DecAll enc k cs fs) :
    (decFields K enc s w cs).2 = .ok fs ∧ inv (decFields K enc s w cs).1.ks ∧
      has (decFields K enc s w cs).1.ks s k := by
  induction cs generalizing w fs with
  | nil => cases fs with
    | nil => exact ⟨rfl, hi, hk⟩
    | cons => exact h.elim
  | cons c cs ih => cases fs with
    | nil => exact h.elim
    | cons f fs =>
      simp only [decFields, engineDecrypt_known hK w s k c hi hk, h.1]
      obtain ⟨a, b, d⟩ := ih { w with ks := (K.get w.ks s).1 } fs (hK.invGet _ _ hi)
        (hK.hasGet _ _ _ _ hi hk) h.2
      generalize decFields K enc s { w with ks := (K.get w.ks s).1 } cs = y at *
      obtain ⟨w2, r2⟩ := y
      simp only at a; subst a
      exact ⟨rfl, b, d⟩

theorem decInts_ok (s k : Str) (w : World σ) (cs : List Str) (is : List Int) (hi : inv w.ks)
    (hr : ∀ i ∈ is, -(2 ^ 63) ≤ i ∧ i < 2 ^ 63)
    (hk : has w.ks s k) (h : DecAll enc k cs (is.map Dec.itoa)) :
    (decInts K enc s w cs).2 = .ok is := by
  induction cs generalizing w is with
  | nil => cases is with
    | nil => rfl
    | cons => exact h.elim
  | cons c cs ih => cases is with
    | nil => exact h.elim
    | cons i is =>
      have hi1 := hr i (by simp)
      simp only [decInts, engineDecrypt_known hK w s k c hi hk, h.1, Dec.atoi_itoa i hi1.1 hi1.2]
      have a := ih { w with ks := (K.get w.ks s).1 } is (hK.invGet _ _ hi)
        (fun i h => hr i (List.mem_cons_of_mem _ h)) (hK.hasGet _ _ _ _ hi hk) h.2
      generalize decInts K enc s { w with ks := (K.get w.ks s).1 } cs = y at *
      obtain ⟨w2, r2⟩ := y
      simp only at a; subst a
      rfl

end Keep

theorem natText_bytes (n : Nat) : Bytes (Dec.natText n) := by
  intro c hc
  have := List.all_eq_true.mp (Dec.natText_digits n) c hc
  simp only [Dec.isDigit, Bool.and_eq_true, decide_eq_true_eq] at this
  omega

theorem itoa_bytes (i : Int) : Bytes (Dec.itoa i) := by
  cases i with
  | ofNat n => exact natText_bytes n
  | negSucc n =>
    intro c hc
    simp only [Dec.itoa, List.mem_cons] at hc
    rcases hc with rfl | hc
    · decide
    · exact natText_bytes _ c hc

end RangeDB.Cry

namespace RangeDB.Cry

open RangeDB.Key

variable {σ : Type}

section

variable {K : Store σ} {inv : σ → Prop} {has : σ → Str → Str → Prop} (hK : Keeps K inv has)
  {enc : Encryptor}

include hK

/-- For a subject with a key no new key is drawn and the key stays, whether or not encryption
succeeds. -/
theorem encFields_tape (s k : Str) (w : World σ) (fs : List Str) (hi : inv w.ks)
    (hk : has w.ks s k) : (encFields K enc s w fs).1.keyTape = w.keyTape := by
  induction fs generalizing w with
  | nil => rfl
  | cons f fs ih =>
    simp only [encFields, engineEncrypt_known hK w s k f hi hk]
    generalize enc.encrypt k f w.nonceTape = x
    obtain ⟨r, tape⟩ := x
    cases r with
    | err e => rfl
    | panic => rfl
    | ok c =>
      have h := ih ⟨(K.get w.ks s).1, w.keyTape, tape⟩ (hK.invGet w.ks s hi)
        (hK.hasGet w.ks s k s hi hk)
      simp only
      generalize encFields K enc s ⟨(K.get w.ks s).1, w.keyTape, tape⟩ fs = y at *
      obtain ⟨w2, r2⟩ := y
      cases r2 <;> exact h

/-- The invariant and a key survive operations that do not delete the subject. -/
theorem Keeps.opRun (s k : Str) (w : World σ) (ops : List Op) (hn : NoDelete s ops)
    (hi : inv w.ks) (hk : has w.ks s k) :
    inv (opRun K enc w ops).ks ∧ has (Cry.opRun K enc w ops).ks s k := by
  refine opRun_inv (fun w => inv w.ks ∧ has w.ks s k) ?_ ?_ (fun c => ∀ now, c ≠ .delete now s) ?_
    w ops ?_ ⟨hi, hk⟩
  · intro w x d h
    exact engineEncrypt_ks (fun m => inv m ∧ has m s k)
      (fun m x h => ⟨hK.invGet m x h.1, hK.hasGet m s k x h.1 h.2⟩)
      (fun m x y h => ⟨hK.invSet m x y h.1, hK.hasSet m s k x y h.1 h.2⟩) w x d h
  · intro w x d h
    exact engineDecrypt_ks (fun m => inv m ∧ has m s k)
      (fun m x h => ⟨hK.invGet m x h.1, hK.hasGet m s k x h.1 h.2⟩) w x d h
  · intro w c hc h
    exact ⟨hK.stays _ c h.1, hK.call _ s k c h.1 h.2 hc⟩
  · intro c hc now hcc
    exact hn now (hcc ▸ hc)

/-- The invariant survives all operations, and the random sources stay byte strings. -/
theorem Keeps.opRun_inv (he : enc.Lawful) (w : World σ) (ops : List Op)
    (hi : inv w.ks) (h1 : Bytes w.keyTape) (h2 : Bytes w.nonceTape) :
    inv (Cry.opRun K enc w ops).ks ∧ Bytes (Cry.opRun K enc w ops).keyTape ∧
      Bytes (Cry.opRun K enc w ops).nonceTape := by
  refine Cry.opRun_inv (fun w => inv w.ks ∧ Bytes w.keyTape ∧ Bytes w.nonceTape) ?_ ?_
    (fun _ => True) ?_ w ops (fun _ _ => trivial) ⟨hi, h1, h2⟩
  · intro w x d h
    have ht := engineEncrypt_tapes (K := K) he w x d
    exact ⟨engineEncrypt_ks inv (fun m x h => hK.invGet m x h)
      (fun m x y h => hK.invSet m x y h) w x d h.1, h.2.1.suffix ht.1, h.2.2.suffix ht.2⟩
  · intro w x d h
    have ht := engineDecrypt_tapes (K := K) (enc := enc) w x d
    exact ⟨engineDecrypt_ks inv (fun m x h => hK.invGet m x h) w x d h.1, ht.1 ▸ h.2.1,
      ht.2 ▸ h.2.2⟩
  · intro w c _ h
    exact ⟨hK.stays _ c h.1, h.2⟩

end

theorem genEncrypt_ok {K : Store σ} {enc : Encryptor} {w : World σ} {e e' : PEvent}
    (h : (genEncrypt K enc w e).2 = some (e', none)) :
    ∃ cs, encFields K enc e.subject w (e.strs ++ e.ints.map Dec.itoa) =
        ((genEncrypt K enc w e).1, .ok cs) ∧
      e' = { e with strs := cs.take e.strs.length, ints := e.ints.map (fun _ => 0),
                    sers := cs.drop e.strs.length } := by
  simp only [genEncrypt] at h ⊢
  generalize encFields K enc e.subject w (e.strs ++ e.ints.map Dec.itoa) = x at *
  obtain ⟨w1, r⟩ := x
  cases r with
  | ok cs =>
    simp only [Option.some.injEq, Prod.mk.injEq, and_true] at h
    exact ⟨cs, rfl, h.symm⟩
  | panic => simp at h
  | err x => cases x <;> simp at h

theorem genDecrypt_of {K : Store σ} {enc : Encryptor} {w : World σ} {e : PEvent} {strs : List Str}
    {ints : List Int} (h1 : (decFields K enc e.subject w e.strs).2 = .ok strs)
    (h2 : (decInts K enc e.subject (decFields K enc e.subject w e.strs).1 e.sers).2 = .ok ints) :
    (genDecrypt K enc w e).2 =
      some ({ e with strs := strs, ints := ints, sers := e.sers.map (fun _ => []) }, none) := by
  simp only [genDecrypt]
  generalize decFields K enc e.subject w e.strs = x at *
  obtain ⟨w1, r⟩ := x
  simp only at h1 h2; subst h1
  simp only
  generalize decInts K enc e.subject w1 e.sers = y at *
  obtain ⟨w2, r⟩ := y
  simp only at h2; subst h2
  rfl

/-- Encrypt, do anything but delete the subject, decrypt. -/
theorem restores {K : Store σ} {inv : σ → Prop} {has : σ → Str → Str → Prop} (hK : Keeps K inv has)
    {enc : Encryptor} (he : enc.Lawful) (w : World σ) (after : List Op) (e e' : PEvent)
    (hi : inv w.ks) (hb : Bytes w.nonceTape) (hs : ∀ f ∈ e.strs, Bytes f)
    (hr : ∀ i ∈ e.ints, -(2 ^ 63) ≤ i ∧ i < 2 ^ 63) (hser : e.sers = e.ints.map (fun _ => []))
    (hn : NoDelete e.subject after) (h : (genEncrypt K enc w e).2 = some (e', none)) :
    (genDecrypt K enc (opRun K enc (genEncrypt K enc w e).1 after) e').2 = some (e, none) := by
  have hi1 : inv (genEncrypt K enc w e).1.ks := genEncrypt_inv (fun w => inv w.ks)
    (fun w s d h => engineEncrypt_ks inv (fun m s h => hK.invGet m s h)
      (fun m s k h => hK.invSet m s k h) w s d h) w e hi
  obtain ⟨cs, h1, h2⟩ := genEncrypt_ok h
  have hf : ∀ f ∈ e.strs ++ e.ints.map Dec.itoa, Bytes f := by
    intro f hf
    rcases List.mem_append.mp hf with hf | hf
    · exact hs f hf
    · obtain ⟨i, _, rfl⟩ := List.mem_map.mp hf
      exact itoa_bytes i
  rcases encFields_ok hK he e.subject w _ _ cs hi hb hf h1 with ⟨hnil, rfl⟩ | ⟨k, hk, hd⟩
  · have h3 : e.strs = [] := by
      cases hx : e.strs with
      | nil => rfl
      | cons => simp [hx] at hnil
    have h4 : e.ints = [] := by
      cases hx : e.ints with
      | nil => rfl
      | cons => simp [hx] at hnil
    subst h2
    have : e.sers = [] := by simp [hser, h4]
    obtain ⟨sub, strs, ints, sers, rest⟩ := e
    simp only at h3 h4 this; subst h3; subst h4; subst this
    rfl
  · obtain ⟨i2, k2⟩ := hK.opRun (enc := enc) e.subject k _ after hn hi1 hk
    generalize opRun K enc (genEncrypt K enc w e).1 after = w2 at *
    obtain ⟨d1, d2⟩ := hd.split
    subst h2
    obtain ⟨f1, f2, f3⟩ := decFields_ok hK e.subject k w2 _ _ i2 k2 d1
    have f4 := decInts_ok hK e.subject k _ _ _ f2 hr f3 d2
    rw [genDecrypt_of f1 f4]
    have hlen := d2.length
    simp only [List.length_map] at hlen
    simp only [Option.some.injEq, Prod.mk.injEq, and_true]
    obtain ⟨sub, strs, ints, sers, rest⟩ := e
    simp only at hser hlen ⊢; subst hser
    simp only [List.map_const', hlen]

end RangeDB.Cry

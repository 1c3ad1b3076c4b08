import Verif.Model.DynStale
import Verif.Proof.Engine

/-!
# Proofs: key stores whose reads may be old

`Fixed`: a store that never gives a subject a second key, whatever its reads say.
-/

namespace RangeDB.Cry

open Key

variable {σ : Type}

/-- `has m s k`: the only key that subject `s` has had or will have is `k`. -/
structure Fixed (K : Store σ) (inv : σ → Prop) (has : σ → Str → Str → Prop) (ok : Call → Prop) : Prop where
  plain : ∀ s, ok (.get s)
  plainS : ∀ s k, ok (.set s k)
  got : ∀ m s k, inv m → (K.get m s).2 = (k, none) → has (K.get m s).1 s k
  one : ∀ m s k k', inv m → has m s k → (K.get m s).2 = (k', none) → k' = k
  set : ∀ m s k, inv m → (K.set m s k).2 = none → has (K.set m s k).1 s k
  stays : ∀ m c, ok c → inv m → inv (K.call m c).1
  keeps : ∀ m s k c, ok c → inv m → has m s k → has (K.call m c).1 s k

section
variable {K : Store σ} {inv : σ → Prop} {has : σ → Str → Str → Prop} {ok : Call → Prop} (hK : Fixed K inv has ok)
  {enc : Encryptor}

include hK

theorem Fixed.invGet (m : σ) (s : Str) (h : inv m) : inv (K.get m s).1 := by
  simpa [Store.call] using hK.stays m (.get s) (hK.plain s) h

theorem Fixed.invSet (m : σ) (s k : Str) (h : inv m) : inv (K.set m s k).1 := by
  simpa [Store.call] using hK.stays m (.set s k) (hK.plainS s k) h

theorem Fixed.hasGet (m : σ) (s k x : Str) (hi : inv m) (h : has m s k) : has (K.get m x).1 s k := by
  simpa [Store.call] using hK.keeps m s k (.get x) (hK.plain x) hi h

theorem Fixed.hasSet (m : σ) (s k x y : Str) (hi : inv m) (h : has m s k) : has (K.set m x y).1 s k := by
  simpa [Store.call] using hK.keeps m s k (.set x y) (hK.plainS x y) hi h

/-- The invariant and the key of a subject last through encryption and decryption. -/
theorem Fixed.encrypt (s k : Str) (w : World σ) (x d : Str) (h : inv w.ks ∧ has w.ks s k) :
    inv (engineEncrypt K enc w x d).1.ks ∧ has (engineEncrypt K enc w x d).1.ks s k :=
  engineEncrypt_ks (fun m => inv m ∧ has m s k)
    (fun m y h => ⟨hK.invGet m y h.1, hK.hasGet m s k y h.1 h.2⟩)
    (fun m y z h => ⟨hK.invSet m y z h.1, hK.hasSet m s k y z h.1 h.2⟩) w x d h

theorem Fixed.decrypt (s k : Str) (w : World σ) (x d : Str) (h : inv w.ks ∧ has w.ks s k) :
    inv (engineDecrypt K enc w x d).1.ks ∧ has (engineDecrypt K enc w x d).1.ks s k :=
  engineDecrypt_ks (fun m => inv m ∧ has m s k)
    (fun m y h => ⟨hK.invGet m y h.1, hK.hasGet m s k y h.1 h.2⟩) w x d h

theorem Fixed.encryptInv (w : World σ) (x d : Str) (h : inv w.ks) : inv (engineEncrypt K enc w x d).1.ks :=
  engineEncrypt_ks inv (fun m y h => hK.invGet m y h) (fun m y z h => hK.invSet m y z h) w x d h

/-- After a successful encryption the subject's one key is that with which the cipher text was made. -/
theorem Fixed.encrypt_ok (w w' : World σ) (s d c : Str) (hi : inv w.ks) (h : engineEncrypt K enc w s d = (w', .ok c)) :
    ∃ k, has w'.ks s k ∧ enc.encrypt k d w.nonceTape = (.ok c, w'.nonceTape) := by
  have h1 := hK.got w.ks s
  have hi1 := hK.invGet w.ks s hi
  simp only [engineEncrypt] at h
  generalize K.get w.ks s = x at *
  obtain ⟨m, k, e⟩ := x
  cases e with
  | none =>
    simp only [Prod.mk.injEq] at h
    obtain ⟨rfl, h⟩ := h
    exact ⟨k, h1 k hi rfl, by rw [← h]⟩
  | some e =>
    cases e with
    | notFound =>
      simp only at h
      generalize readFull 32 w.keyTape = y at *
      obtain ⟨raw, tape⟩ := y
      cases raw with
      | none => simp at h
      | some raw =>
        have h2 := hK.set m s (b64enc raw) hi1
        simp only at h
        generalize K.set m s (b64enc raw) = z at *
        obtain ⟨m2, e2⟩ := z
        cases e2 with
        | some e2 => simp at h
        | none =>
          simp only [Prod.mk.injEq] at h
          obtain ⟨rfl, h⟩ := h
          exact ⟨_, h2 rfl, by rw [← h]⟩
    | _ => simp at h

/-- A successful decryption for a subject that has a key was made with that key. -/
theorem Fixed.decrypt_ok (w w' : World σ) (s k c d : Str) (hi : inv w.ks) (hk : has w.ks s k)
    (h : engineDecrypt K enc w s c = (w', .ok d)) : enc.decrypt k c = .ok d := by
  have h1 := hK.one w.ks s k
  simp only [engineDecrypt] at h
  generalize K.get w.ks s = x at *
  obtain ⟨m, k', e⟩ := x
  cases e with
  | some e => simp at h
  | none =>
    obtain rfl := h1 k' hi hk rfl
    simp only [Prod.mk.injEq] at h
    exact h.2

/-- Two keys of one subject are the same if one can be read. -/
theorem Fixed.encFields_ok (he : enc.Lawful) (s : Str) (hu : ∀ m k k', inv m → has m s k → has m s k' → k = k') :
    ∀ (fs : List Str) (w w' : World σ) (cs : List Str), inv w.ks → Bytes w.nonceTape → (∀ f ∈ fs, Bytes f) →
      encFields K enc s w fs = (w', .ok cs) →
      (fs = [] ∧ cs = []) ∨ ∃ k, has w'.ks s k ∧ DecAll enc k cs fs := by
  intro fs
  induction fs with
  | nil =>
    intro w w' cs _ _ _ h
    simp only [encFields, Prod.mk.injEq, Rs.ok.injEq] at h
    exact Or.inl ⟨rfl, h.2.symm⟩
  | cons f fs ih =>
    intro w w' cs hi hb hf h
    have hi1 := hK.encryptInv (enc := enc) w s f hi
    have ho := fun w1 c => hK.encrypt_ok (enc := enc) w w1 s f c hi
    have ht := (engineEncrypt_tapes (K := K) he w s f).2
    simp only [encFields] at h
    generalize engineEncrypt K enc w s f = x at *
    obtain ⟨w1, r⟩ := x
    cases r with
    | err e => simp at h
    | panic => simp at h
    | ok c =>
      obtain ⟨k, hk, hc⟩ := ho w1 c rfl
      have hdec := he.roundTrip k f w.nonceTape c _ (hf f (by simp)) hb hc
      have hlast := encFields_inv (K := K) (enc := enc) (fun w => inv w.ks ∧ has w.ks s k)
        (fun w x d h => hK.encrypt s k w x d h) s w1 fs ⟨hi1, hk⟩
      have ih1 := ih w1
      simp only at h
      generalize encFields K enc s w1 fs = y at *
      obtain ⟨w2, r2⟩ := y
      cases r2 with
      | err e => simp at h
      | panic => simp at h
      | ok cs' =>
        simp only [Prod.mk.injEq, Rs.ok.injEq] at h
        obtain ⟨rfl, rfl⟩ := h
        refine Or.inr ⟨k, hlast.2, hdec, ?_⟩
        rcases ih1 w2 cs' hi1 (hb.suffix ht) (fun f hm => hf f (List.mem_cons_of_mem _ hm)) rfl with ⟨rfl, rfl⟩ | ⟨k', hk', hd⟩
        · trivial
        · rw [hu _ _ _ hlast.1 hlast.2 hk']; exact hd

theorem Fixed.decFields_ok (s k : Str) :
    ∀ (cs fs : List Str) (w w' : World σ) (ds : List Str), inv w.ks → has w.ks s k → DecAll enc k cs fs →
      decFields K enc s w cs = (w', .ok ds) → ds = fs ∧ inv w'.ks ∧ has w'.ks s k := by
  intro cs
  induction cs with
  | nil =>
    intro fs w w' ds hi hk hd h
    cases fs with
    | cons => exact hd.elim
    | nil =>
      simp only [decFields, Prod.mk.injEq, Rs.ok.injEq] at h
      obtain ⟨rfl, rfl⟩ := h
      exact ⟨rfl, hi, hk⟩
  | cons c cs ih =>
    intro fs w w' ds hi hk hd h
    cases fs with
    | nil => exact hd.elim
    | cons f fs =>
      have ho := fun w1 d => hK.decrypt_ok (enc := enc) w w1 s k c d hi hk
      have hs := hK.decrypt (enc := enc) s k w s c ⟨hi, hk⟩
      simp only [decFields] at h
      generalize engineDecrypt K enc w s c = x at *
      obtain ⟨w1, r⟩ := x
      cases r with
      | err e => simp at h
      | panic => simp at h
      | ok d =>
        have h1 := ho w1 d rfl
        rw [hd.1] at h1
        have ih1 := ih fs w1
        simp only at h
        generalize decFields K enc s w1 cs = y at *
        obtain ⟨w2, r2⟩ := y
        cases r2 with
        | err e => simp at h
        | panic => simp at h
        | ok ds' =>
          simp only [Prod.mk.injEq, Rs.ok.injEq] at h
          obtain ⟨rfl, rfl⟩ := h
          obtain ⟨h2, h3⟩ := ih1 w2 ds' hs.1 hs.2 hd.2 rfl
          exact ⟨by rw [h2, R.ok.inj h1], h3⟩

theorem Fixed.decInts_ok (s k : Str) :
    ∀ (cs : List Str) (is : List Int) (w w' : World σ) (js : List Int), inv w.ks → has w.ks s k →
      (∀ i ∈ is, -(2 ^ 63) ≤ i ∧ i < 2 ^ 63) → DecAll enc k cs (is.map Dec.itoa) →
      decInts K enc s w cs = (w', .ok js) → js = is := by
  intro cs
  induction cs with
  | nil =>
    intro is w w' js hi hk hr hd h
    cases is with
    | cons => exact hd.elim
    | nil =>
      simp only [decInts, Prod.mk.injEq, RsI.ok.injEq] at h
      exact h.2.symm
  | cons c cs ih =>
    intro is w w' js hi hk hr hd h
    cases is with
    | nil => exact hd.elim
    | cons i is =>
      have ho := fun w1 d => hK.decrypt_ok (enc := enc) w w1 s k c d hi hk
      have hs := hK.decrypt (enc := enc) s k w s c ⟨hi, hk⟩
      simp only [decInts] at h
      generalize engineDecrypt K enc w s c = x at *
      obtain ⟨w1, r⟩ := x
      cases r with
      | err e => simp at h
      | panic => simp at h
      | ok d =>
        have h1 := ho w1 d rfl
        rw [hd.1] at h1
        obtain rfl := R.ok.inj h1
        have hi' := hr i (by simp)
        simp only [Dec.atoi_itoa i hi'.1 hi'.2] at h
        have ih1 := ih is w1
        generalize decInts K enc s w1 cs = y at *
        obtain ⟨w2, r2⟩ := y
        cases r2 with
        | err e => simp at h
        | panic => simp at h
        | ok js' =>
          simp only [Prod.mk.injEq, RsI.ok.injEq] at h
          obtain ⟨rfl, rfl⟩ := h
          rw [ih1 w2 js' hs.1 hs.2 (fun j hj => hr j (List.mem_cons_of_mem _ hj)) hd.2 rfl]

/-- Encrypt, do anything, decrypt: what succeeds restores the event. -/
theorem Fixed.restores (he : enc.Lawful) (w : World σ) (after : List Op) (e e' d : PEvent)
    (hu : ∀ m k k', inv m → has m e.subject k → has m e.subject k' → k = k')
    (hi : inv w.ks) (hb : Bytes w.nonceTape) (hs : ∀ f ∈ e.strs, Bytes f)
    (hr : ∀ i ∈ e.ints, -(2 ^ 63) ≤ i ∧ i < 2 ^ 63) (hser : e.sers = e.ints.map (fun _ => []))
    (hn : ∀ c, Op.call c ∈ after → ok c) (h : (genEncrypt K enc w e).2 = some (e', none))
    (hd : (genDecrypt K enc (opRun K enc (genEncrypt K enc w e).1 after) e').2 = some (d, none)) : d = e := by
  have hi1 : inv (genEncrypt K enc w e).1.ks := genEncrypt_inv (fun w => inv w.ks)
    (fun w s d h => hK.encryptInv w s d h) w e hi
  obtain ⟨cs, h1, h2⟩ := genEncrypt_ok h
  have hf : ∀ f ∈ e.strs ++ e.ints.map Dec.itoa, Bytes f := by
    intro f hf
    rcases List.mem_append.mp hf with hf | hf
    · exact hs f hf
    · obtain ⟨i, _, rfl⟩ := List.mem_map.mp hf
      exact itoa_bytes i
  rcases hK.encFields_ok he e.subject hu _ w _ cs hi hb hf h1 with ⟨hnil, rfl⟩ | ⟨k, hk, hda⟩
  · obtain ⟨h3, h5⟩ := List.append_eq_nil_iff.mp hnil
    have h4 : e.ints = [] := by simpa using h5
    clear h5
    subst h2
    have : e.sers = [] := by simp [hser, h4]
    obtain ⟨sub, strs, ints, sers, rest⟩ := e
    simp only at h3 h4 this; subst h3; subst h4; subst this
    simp only [genDecrypt, decFields, decInts, List.take_nil, List.drop_nil, List.map_nil, Option.some.injEq,
      Prod.mk.injEq, and_true] at hd
    exact hd.symm
  · have hq := opRun_inv (K := K) (enc := enc) (fun w => inv w.ks ∧ has w.ks e.subject k)
      (fun w x d h => hK.encrypt e.subject k w x d h) (fun w x d h => hK.decrypt e.subject k w x d h) ok
      (fun w c hc h => ⟨hK.stays w.ks c hc h.1, hK.keeps w.ks e.subject k c hc h.1 h.2⟩)
      (genEncrypt K enc w e).1 after hn ⟨hi1, hk⟩
    generalize opRun K enc (genEncrypt K enc w e).1 after = w2 at *
    obtain ⟨d1, d2⟩ := hda.split
    subst h2
    simp only [genDecrypt] at hd
    have hF := hK.decFields_ok (enc := enc) e.subject k (cs.take e.strs.length) e.strs w2
    generalize decFields K enc e.subject w2 (cs.take e.strs.length) = x at *
    obtain ⟨w3, r⟩ := x
    cases r with
    | panic => simp at hd
    | err x => cases x <;> simp at hd
    | ok ds =>
      obtain ⟨rfl, i3, k3⟩ := hF w3 ds hq.1 hq.2 d1 rfl
      simp only at hd
      have hI := hK.decInts_ok (enc := enc) e.subject k (cs.drop e.strs.length) e.ints w3
      generalize decInts K enc e.subject w3 (cs.drop e.strs.length) = y at *
      obtain ⟨w4, r2⟩ := y
      cases r2 with
      | panic => simp at hd
      | err x => cases x <;> simp at hd
      | ok js =>
        obtain rfl := hI w4 js i3 k3 hr d2 rfl
        simp only [Option.some.injEq, Prod.mk.injEq, and_true] at hd
        have hlen := d2.length
        simp only [List.length_map] at hlen
        obtain ⟨sub, strs, ints, sers, rest⟩ := e
        simp only at hser hlen hd ⊢; subst hser
        rw [← hd]
        simp only [List.map_const', hlen]

end

/-! ## DynamoDB -/

/-- Every version but the first is a deletion, and the first is a deletion or a key. -/
def OldInv (t : DynOld) : Prop :=
  ∀ s, match t.versions s with
    | [] => True
    | i :: is => ((i.key ≠ [] ∧ i.deletedAt = none) ∨ i.deletedAt.getD 0 > 0) ∧ ∀ j ∈ is, j.deletedAt.getD 0 > 0

def OldHas (t : DynOld) (s k : Str) : Prop := (t.versions s).head? = some ⟨k, none⟩

/-- A deletion is recorded with a time after 1970. -/
def Timed (c : Call) : Prop := ∀ now s, c = .delete now s → 0 < now

theorem oldGet_ok {t : DynOld} (h : OldInv t) {s k : Str} (hg : (t.get s).2 = (k, none)) : OldHas t s k := by
  have hs := h s
  unfold OldHas
  simp only [DynOld.get] at hg
  cases hv : t.versions s with
  | nil => simp [hv] at hg
  | cons i is =>
    rw [hv] at hs hg
    cases hL : ((i :: is).take ((i :: is).length - t.lags.headD 0)).getLast? with
    | none => rw [hL] at hg; simp at hg
    | some j =>
      rw [hL] at hg
      have hj : j ∈ i :: is := List.mem_of_mem_take (List.mem_of_getLast? hL)
      simp only at hg
      split at hg
      · simp at hg
      · rename_i hz
        simp only [Prod.mk.injEq, and_true] at hg
        rcases List.mem_cons.mp hj with rfl | hj
        · rcases hs.1 with h1 | h1
          · obtain ⟨key, dl⟩ := j
            simp only at h1 hg
            simp [h1.2, hg]
          · exact absurd h1 hz
        · exact absurd (hs.2 j hj) hz

theorem dynOld_versions_get (t : DynOld) (s : Str) : (t.get s).1.versions = t.versions := by
  simp only [DynOld.get]
  split
  · rfl
  · split <;> rfl

theorem oldInv_upd {t : DynOld} {l : List Nat} {s : Str} {v : List Item} (h : OldInv t)
    (hv : match v with
      | [] => True
      | i :: is => ((i.key ≠ [] ∧ i.deletedAt = none) ∨ i.deletedAt.getD 0 > 0) ∧ ∀ j ∈ is, j.deletedAt.getD 0 > 0) :
    OldInv ⟨upd t.versions s v, l⟩ := by
  intro x
  simp only [upd]
  by_cases hx : x = s
  · rw [if_pos hx]; exact hv
  · rw [if_neg hx]; exact h x

theorem dynOld_fixed : Fixed dynOld OldInv OldHas Timed where
  plain s := by intro now x h; cases h
  plainS s k := by intro now x h; cases h
  got m s k hi h := by
    have := oldGet_ok hi h
    simp only [OldHas, dynOld, dynOld_versions_get] at this ⊢
    exact this
  one m s k k' hi hk h := by
    have := oldGet_ok hi h
    simp only [OldHas] at this hk
    rw [hk] at this
    simpa using this.symm
  set m s k hi h := by
    simp only [dynOld, DynOld.set] at h ⊢
    split at h
    · simp at h
    · split at h
      · simp at h
      · rename_i h1 h2
        rw [if_neg h1, if_neg h2]
        simp [OldHas, upd]
  stays m c hc hi := by
    cases c with
    | get s =>
      intro x
      have := hi x
      simp only [Store.call, dynOld]
      rw [dynOld_versions_get]
      exact this
    | set s k =>
      simp only [Store.call, dynOld, DynOld.set]
      split
      · exact hi
      · split
        · exact hi
        · rename_i h1 h2
          exact oldInv_upd hi ⟨Or.inl ⟨h1, rfl⟩, by simp⟩
    | delete now s =>
      have hn := hc now s rfl
      simp only [Store.call, dynOld, DynOld.delete]
      refine oldInv_upd hi ?_
      have := hi s
      cases hv : m.versions s with
      | nil => exact ⟨Or.inr (by simpa using hn), by simp⟩
      | cons i is =>
        rw [hv] at this
        refine ⟨this.1, fun j hj => ?_⟩
        rcases List.mem_append.mp hj with hj | hj
        · exact this.2 j hj
        · obtain rfl := List.mem_singleton.mp hj
          simpa using hn
  keeps m s k c hc hi h := by
    cases c with
    | get x =>
      simp only [Store.call, dynOld, OldHas]
      rw [dynOld_versions_get]
      exact h
    | set x y =>
      simp only [Store.call, dynOld, DynOld.set]
      split
      · exact h
      · split
        · exact h
        · rename_i h1 h2
          simp only [OldHas, upd] at h ⊢
          by_cases hx : s = x
          · subst hx
            have h2 : m.versions s = [] := by simpa using h2
            rw [h2] at h; simp at h
          · rw [if_neg hx]; exact h
    | delete now x =>
      simp only [Store.call, dynOld, DynOld.delete]
      simp only [OldHas, upd] at h ⊢
      by_cases hx : s = x
      · subst hx
        rw [if_pos rfl]
        cases hv : m.versions s with
        | nil => rw [hv] at h; simp at h
        | cons i is => rw [hv] at h; simpa using h
      · rw [if_neg hx]; exact h

theorem oldHas_one (s : Str) : ∀ (m : DynOld) (k k' : Str), OldInv m → OldHas m s k → OldHas m s k' → k = k' := by
  intro m k k' _ h h'
  rw [OldHas] at h h'
  rw [h] at h'
  simpa using h'

theorem oldInv_new (lags : List Nat) : OldInv (DynOld.new lags) := by intro s; simp [DynOld.new]

end RangeDB.Cry

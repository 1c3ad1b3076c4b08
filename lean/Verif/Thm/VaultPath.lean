import Verif.Model.VaultPath
import Verif.Proof.Paging
import Verif.Thm.KeyStore

/-!
# Vault: the keys of different subjects are kept apart (C117)
-/

namespace RangeDB.Key

/-! ## Specification -/

/-- The subject of a call. -/
def Call.subject : Call → Str
  | .get s => s
  | .set s _ => s
  | .delete _ s => s

/-- What a caller learns about subject `a` after a history depends on the calls about `a` alone. -/
def Apart {σ : Type} (K : Store σ) (new : σ) (calls : List Call) (a : Str) : Prop :=
  (K.get (K.run new calls).1 a).2 = (K.get (K.run new (calls.filter (fun c => c.subject = a))).1 a).2

/-- An ID that a path carries as it is: bytes, none of them a control character, '%', '?', '#' or '/'; neither empty nor
"." nor "..". -/
structure PlainId (s : Str) : Prop where
  bytes : ∀ c ∈ s, 32 ≤ c ∧ c < 256 ∧ c ≠ 127 ∧ c ≠ 37 ∧ c ≠ 63 ∧ c ≠ 35 ∧ c ≠ 47
  name : s ≠ [] ∧ s ≠ [46] ∧ s ≠ [46, 46]

/-- The full statement of **C117**. -/
def C117_full : Prop := ∀ (calls : List Call) (a : Str), Apart vaultUrl (fun _ => []) calls a

/-! ## Proofs -/

theorem secretOf_plain {s : Str} (h : PlainId s) : secretOf s = some s := by
  unfold secretOf
  have h1 : s.any (fun c => c < 32 || c = 127) = false := by
    rw [List.any_eq_false]
    intro c hc
    have := h.bytes c hc
    simp; omega
  have h35 : 35 ∉ s := fun hc => (h.bytes 35 hc).2.2.2.2.2.1 rfl
  have h63 : 63 ∉ s := fun hc => (h.bytes 63 hc).2.2.2.2.1 rfl
  have h37 : 37 ∉ s := fun hc => (h.bytes 37 hc).2.2.2.1 rfl
  rw [h1, if_neg (by simp)]
  simp only [Pg.cutAt_none h35, Pg.cutAt_none h63, Pg.unescape_plain false s h37 (by simp), Pg.unescape]

theorem secretOf_query {s : Str} (h : PlainId s) (x : Str) (hx : ∀ c ∈ x, 32 ≤ c ∧ c ≠ 127 ∧ c ≠ 35) :
    secretOf (s ++ 63 :: x) = some s := by
  unfold secretOf
  have h1 : (s ++ 63 :: x).any (fun c => c < 32 || c = 127) = false := by
    rw [List.any_eq_false]
    intro c hc
    rw [List.mem_append, List.mem_cons] at hc
    rcases hc with hc | rfl | hc
    · have := h.bytes c hc; simp; omega
    · simp
    · have := hx c hc; simp; omega
  have h63 : 63 ∉ s := fun hc => (h.bytes 63 hc).2.2.2.2.1 rfl
  have h37 : 37 ∉ s := fun hc => (h.bytes 37 hc).2.2.2.1 rfl
  have h35 : 35 ∉ s ++ 63 :: x := by
    intro hc
    rw [List.mem_append, List.mem_cons] at hc
    rcases hc with hc | hc | hc
    · exact (h.bytes 35 hc).2.2.2.2.2.1 rfl
    · omega
    · exact (hx 35 hc).2.2 rfl
  rw [h1, if_neg (by simp)]
  simp only [Pg.cutAt_none h35, Pg.cutAt_some x h63, Pg.unescape_plain false s h37 (by simp), Pg.unescape]

theorem secretOf_fragment {s : Str} (h : PlainId s) (x : Str) (hx : ∀ c ∈ x, 32 ≤ c ∧ c ≠ 127 ∧ c ≠ 37) :
    secretOf (s ++ 35 :: x) = some s := by
  unfold secretOf
  have h1 : (s ++ 35 :: x).any (fun c => c < 32 || c = 127) = false := by
    rw [List.any_eq_false]
    intro c hc
    rw [List.mem_append, List.mem_cons] at hc
    rcases hc with hc | rfl | hc
    · have := h.bytes c hc; simp; omega
    · simp
    · have := hx c hc; simp; omega
  have h63 : 63 ∉ s := fun hc => (h.bytes 63 hc).2.2.2.2.1 rfl
  have h35 : 35 ∉ s := fun hc => (h.bytes 35 hc).2.2.2.2.2.1 rfl
  have h37 : 37 ∉ s := fun hc => (h.bytes 37 hc).2.2.2.1 rfl
  have h37x : 37 ∉ x := fun hc => (hx 37 hc).2.2 rfl
  rw [h1, if_neg (by simp)]
  simp only [Pg.cutAt_some x h35, Pg.cutAt_none h63, Pg.unescape_plain false s h37 (by simp),
    Pg.unescape_plain false x h37x (by simp)]

/-- The calls of plain IDs do to the secret of `a` what those about `a` do. -/
theorem run_apart (a : Str) (calls : List Call) (hc : ∀ c ∈ calls, PlainId c.subject) :
    ∀ v w : Vault, v a = w a →
      (vaultUrl.run v calls).1 a = (vaultUrl.run w (calls.filter (fun c => c.subject = a))).1 a := by
  induction calls with
  | nil => intro v w h; exact h
  | cons c cs ih =>
    intro v w h
    have ih' := ih (fun x hx => hc x (by simp [hx]))
    have hs := secretOf_plain (hc c (by simp))
    rw [List.filter_cons]
    by_cases hca : c.subject = a
    · rw [if_pos (by simpa using hca)]
      have key : (vaultUrl.call v c).1 a = (vaultUrl.call w c).1 a := by
        cases c with
        | get s => simp only [Store.call, vaultUrl, VaultUrl.get]; split <;> simp [Vault.get]; all_goals (repeat' split) <;> simp [h]
        | set s k =>
          simp only [Call.subject] at hs hca
          subst hca
          simp only [Store.call, vaultUrl, VaultUrl.set, hs, Vault.set, Vault.get, h]
          split
          · exact h
          · cases hg : (w s).getLast? with
            | none => simp [upd, h]
            | some o => cases o <;> simp [upd, h]
        | delete now s =>
          simp only [Call.subject] at hs hca
          subst hca
          simp [Store.call, vaultUrl, VaultUrl.delete, hs, Vault.delete, upd, h]
      simp only [Store.run]
      exact ih' _ _ key
    · rw [if_neg (by simpa using hca)]
      have key : (vaultUrl.call v c).1 a = w a := by
        cases c with
        | get s =>
          simp only [Call.subject] at hs hca
          simp only [Store.call, vaultUrl, VaultUrl.get, hs, Vault.get]
          repeat' split
          all_goals simp [h]
        | set s k =>
          simp only [Call.subject] at hs hca
          simp only [Store.call, vaultUrl, VaultUrl.set, hs, Vault.set]
          repeat' split
          all_goals simp [upd, h, Ne.symm hca]
        | delete now s =>
          simp only [Call.subject] at hs hca
          simp [Store.call, vaultUrl, VaultUrl.delete, hs, Vault.delete, upd, h, Ne.symm hca]
      simp only [Store.run]
      exact ih' _ _ key

/-- **C117**, partial: it holds for every history whose subject IDs a path carries as they are. Missing are all others,
see `C117_query` and `C117_false`. -/
theorem C117_partial (calls : List Call) (hc : ∀ c ∈ calls, PlainId c.subject) (a : Str) (ha : PlainId a) :
    Apart vaultUrl (fun _ => []) calls a := by
  have h := run_apart a calls hc (fun _ => []) (fun _ => []) rfl
  unfold Apart
  simp only [vaultUrl, VaultUrl.get, secretOf_plain ha] at h ⊢
  simp only [Vault.get]
  rw [h]
  repeat' split
  all_goals rfl

/-- Calls about other subjects, each of which addresses another secret or fails, do nothing to the secret of `a`. -/
theorem run_other_secrets (a : Str) {s : Str} (hs : secretOf a = some s) (calls : List Call)
    (hc : ∀ c ∈ calls, c.subject = a ∨ secretOf c.subject ≠ some s) :
    ∀ v w : Vault, v s = w s →
      (vaultUrl.run v calls).1 s = (vaultUrl.run w (calls.filter (fun c => c.subject = a))).1 s := by
  induction calls with
  | nil => intro v w h; exact h
  | cons c cs ih =>
    intro v w h
    have ih' := ih (fun x hx => hc x (by simp [hx]))
    rw [List.filter_cons]
    by_cases hca : c.subject = a
    · rw [if_pos (by simpa using hca)]
      have key : (vaultUrl.call v c).1 s = (vaultUrl.call w c).1 s := by
        cases c with
        | get t =>
          simp only [Call.subject] at hca
          subst hca
          simp only [Store.call, vaultUrl, VaultUrl.get, hs, Vault.get, h]
          repeat' split
          all_goals simp [h]
        | set t k =>
          simp only [Call.subject] at hca
          subst hca
          simp only [Store.call, vaultUrl, VaultUrl.set, hs, Vault.set, Vault.get, h]
          split
          · exact h
          · cases hg : (w s).getLast? with
            | none => simp [upd, h]
            | some o => cases o <;> simp [upd, h]
        | delete now t =>
          simp only [Call.subject] at hca
          subst hca
          simp [Store.call, vaultUrl, VaultUrl.delete, hs, Vault.delete, upd, h]
      simp only [Store.run]
      exact ih' _ _ key
    · rw [if_neg (by simpa using hca)]
      have hne := (hc c (by simp)).resolve_left hca
      have key : (vaultUrl.call v c).1 s = w s := by
        cases c with
        | get t =>
          simp only [Store.call, vaultUrl, VaultUrl.get, Vault.get]
          repeat' split
          all_goals simp [h]
        | set t k =>
          simp only [Call.subject] at hne
          simp only [Store.call, vaultUrl, VaultUrl.set]
          split
          · exact h
          · split
            · exact h
            · rename_i u hu
              have : s ≠ u := fun e => hne (by rw [hu, e])
              simp only [Vault.set]
              repeat' split
              all_goals simp [upd, h, this]
        | delete now t =>
          simp only [Call.subject] at hne
          simp only [Store.call, vaultUrl, VaultUrl.delete]
          split
          · exact h
          · rename_i u hu
            have : s ≠ u := fun e => hne (by rw [hu, e])
            simp [Vault.delete, upd, h, this]
      simp only [Store.run]
      exact ih' _ _ key

/-- **C117**, IDs that no URL can carry, because of a control character: every call fails with an error that is not "key not
found", and changes nothing. So nothing can be encrypted for such a subject. -/
theorem C117_no_url (v : Vault) (id key : Str) (now : Nat) (h : ∃ c ∈ id, c < 32 ∨ c = 127) (hk : key ≠ []) :
    vaultUrl.get v id = (v, [], some .other) ∧ vaultUrl.set v id key = (v, some .other) ∧
      vaultUrl.delete v now id = (v, some .other) := by
  have hs : secretOf id = none := by
    unfold secretOf
    rw [if_pos]
    obtain ⟨c, hc, hx⟩ := h
    exact List.any_eq_true.mpr ⟨c, hc, by simpa using hx⟩
  simp [vaultUrl, VaultUrl.get, VaultUrl.set, VaultUrl.delete, hs, hk]

example : ∃ c ∈ ([97, 10] : Str), c < 32 ∨ c = 127 := by decide

/-- **C117**, exactly when it holds: the subjects of a set are kept apart, whatever is called for them, if and only if no
two of them have the same text up to the first '#' or '?', after percent decoding, unless that text cannot be decoded. -/
theorem C117_exact (S : Str → Prop) :
    (∀ calls : List Call, (∀ c ∈ calls, S c.subject) → ∀ a, S a → Apart vaultUrl (fun _ => []) calls a) ↔
      ∀ a b, S a → S b → ∀ s, secretOf a = some s → secretOf b = some s → a = b := by
  constructor
  · intro h a b ha hb s hsa hsb
    apply Classical.byContradiction
    intro hne
    have hx := h [.set b [9]] (by simpa [Call.subject] using hb) a ha
    unfold Apart at hx
    have hf : ([Call.set b [9]].filter (fun c => c.subject = a)) = [] := by
      simp [Call.subject, Ne.symm hne]
    rw [hf] at hx
    simp [Store.run, Store.call, vaultUrl, VaultUrl.get, VaultUrl.set, hsa, hsb, Vault.get, Vault.set, upd] at hx
  · intro h calls hc a ha
    unfold Apart
    cases hs : secretOf a with
    | none => simp only [vaultUrl, VaultUrl.get, hs]
    | some s =>
      have hr := run_other_secrets a hs calls (by
        intro c hcm
        by_cases hca : c.subject = a
        · exact .inl hca
        · exact .inr fun e => hca (h _ _ (hc c hcm) ha s e hs)) (fun _ => []) (fun _ => []) rfl
      simp only [vaultUrl, VaultUrl.get, hs] at hr ⊢
      simp only [Vault.get]
      rw [hr]
      repeat' split
      all_goals rfl

/-- **C117**, for such IDs the store is the one of `Model/KeyStore.lean`, so that everything proved there applies. -/
theorem C117_plain (v : Vault) (c : Call) (hc : PlainId c.subject) : vaultUrl.call v c = vault.call v c := by
  have hs := secretOf_plain hc
  cases c with
  | get s => simp only [Call.subject] at hs; simp only [Store.call, vaultUrl, VaultUrl.get, hs, vault]
  | set s k =>
    simp only [Call.subject] at hs
    simp only [Store.call, vaultUrl, VaultUrl.set, hs, vault]
    by_cases hk : k = []
    · simp [Vault.set, hk]
    · simp [hk]
  | delete now s => simp only [Call.subject] at hs; simp only [Store.call, vaultUrl, VaultUrl.delete, hs, vault]

/-- **C117**, an ID with a question mark has the key of the ID before it, in every state: it is told the other one's key,
and deleting it destroys that key. -/
theorem C117_query (v : Vault) (a : Str) (ha : PlainId a) (x : Str) (hx : ∀ c ∈ x, 32 ≤ c ∧ c ≠ 127 ∧ c ≠ 35) :
    vaultUrl.get v (a ++ 63 :: x) = vaultUrl.get v a ∧
    (∀ k, vaultUrl.set v (a ++ 63 :: x) k = vaultUrl.set v a k) ∧
    (∀ now, vaultUrl.delete v now (a ++ 63 :: x) = vaultUrl.delete v now a) := by
  simp only [vaultUrl, VaultUrl.get, VaultUrl.set, VaultUrl.delete, secretOf_plain ha, secretOf_query ha x hx]
  exact ⟨trivial, fun _ => trivial, fun _ => trivial⟩

/-- **C117**, and so has an ID with a number sign. -/
theorem C117_fragment (v : Vault) (a : Str) (ha : PlainId a) (x : Str) (hx : ∀ c ∈ x, 32 ≤ c ∧ c ≠ 127 ∧ c ≠ 37) :
    vaultUrl.get v (a ++ 35 :: x) = vaultUrl.get v a ∧
    (∀ k, vaultUrl.set v (a ++ 35 :: x) k = vaultUrl.set v a k) ∧
    (∀ now, vaultUrl.delete v now (a ++ 35 :: x) = vaultUrl.delete v now a) := by
  simp only [vaultUrl, VaultUrl.get, VaultUrl.set, VaultUrl.delete, secretOf_plain ha, secretOf_fragment ha x hx]
  exact ⟨trivial, fun _ => trivial, fun _ => trivial⟩

/-- **C117** is false: subject `a` has a key; then subject `a?`, who never had one, is deleted, and the key of `a` is
destroyed. -/
theorem C117_false : ¬ C117_full := by
  intro h
  have := h [.set [97] [9], .delete 5 [97, 63]] [97]
  unfold Apart at this
  revert this
  decide

/-- **C117**, the ID `%61` has the key of `a`; `50%` has none and can have none. -/
theorem C117_percent (v : Vault) :
    vaultUrl.get v [37, 54, 49] = vaultUrl.get v [97] ∧
    (∀ k, (vaultUrl.set v [53, 48, 37] k).2 ≠ none) ∧ (vaultUrl.set v [53, 48, 37] [9]).1 = v := by
  have e1 : secretOf [37, 54, 49] = some [97] := by decide
  have e2 : secretOf [97] = some [97] := by decide
  have e3 : secretOf [53, 48, 37] = none := by decide
  refine ⟨?_, ?_, ?_⟩
  · simp only [vaultUrl, VaultUrl.get, e1, e2]
  · intro k
    simp only [vaultUrl, VaultUrl.set, e3]
    split <;> simp
  · simp [vaultUrl, VaultUrl.set, e3]

/-- An e-mail address and a name with a space and an umlaut are plain. -/
theorem plain_mail : PlainId [97, 43, 98, 64, 120, 46, 111, 114, 103] := ⟨by decide, by decide⟩

example : PlainId [65, 32, 0xC3, 0xA4] := ⟨by decide, by decide⟩

/-- Three IDs, two of them with percent signs, that are kept apart. -/
example : ∀ a b, a ∈ [[97], [37, 54, 50], [53, 48, 37]] → b ∈ [[97], [37, 54, 50], [53, 48, 37]] →
    ∀ s, secretOf a = some s → secretOf b = some s → a = b := by
  intro a b ha hb s h1 h2
  have e1 : secretOf [97] = some [97] := by decide
  have e2 : secretOf [37, 54, 50] = some [98] := by decide
  have e3 : secretOf [53, 48, 37] = none := by decide
  simp only [List.mem_cons, List.not_mem_nil, or_false] at ha hb
  rcases ha with rfl | rfl | rfl <;> rcases hb with rfl | rfl | rfl <;> simp_all

/-- Two plain subjects: deleting one leaves the other's key. -/
example : (vaultUrl.get (vaultUrl.run (fun _ => []) [.set [97] [9], .set [98] [8], .delete 5 [98]]).1 [97]).2 = ([9], none) := by
  decide

end RangeDB.Key

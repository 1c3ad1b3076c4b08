import Verif.Thm.KeyStore

/-!
# How long a key lives in the Vault key store

`C50_partial` names a condition under which `Delete` destroys the key of a subject. The theorem here
shows for every history what `Delete` does.
-/

namespace RangeDB.Key

/-- The keys for which a `Set(s, _)` succeeded, in the order of the calls. -/
def stored (s : Str) (trace : List (Call × Res)) : List Str :=
  trace.filterMap fun p => match p.1 with
    | .set x k => if x = s ∧ p.2.err = none then some k else none
    | _ => none

/-- The versions of the key of `s`, and the keys set so far. -/
structure Versions (s : Str) (v : Vault) (ks : List Str) : Prop where
  len : (v s).length = ks.length
  three : ks.length ≤ 3
  third : ∀ k, ks[2]? = some k → (v s)[2]? = some (some k)

theorem Versions.get {s : Str} {v : Vault} {ks : List Str} (h : Versions s v ks) {k : Str}
    (hk : ks[2]? = some k) : (Vault.get v s).2 = (k, none) := by
  have h3 := h.third k hk
  have hl : (v s).length = 3 := by
    have : 2 < (v s).length := by
      by_cases hlt : 2 < (v s).length
      · exact hlt
      · rw [List.getElem?_eq_none (by omega)] at h3; simp at h3
    have := h.len; have := h.three; omega
  have : (v s).getLast? = some (some k) := by
    rw [List.getLast?_eq_getElem?, hl]; exact h3
  simp [Vault.get, this]

theorem Versions.call {s : Str} {v : Vault} {ks : List Str} (h : Versions s v ks) (c : Call) :
    Versions s (vault.call v c).1 (ks ++ stored s [(c, (vault.call v c).2)]) := by
  cases c with
  | get x =>
    have : (vault.call v (.get x)).1 = v := by
      simp only [Store.call, vault, Vault.get]; split <;> rfl
    rw [this]
    simpa [stored] using h
  | set x k =>
    by_cases e : x = s
    · subst e
      simp only [Store.call, vault, Vault.set]
      split
      · simpa [stored] using h
      · split
        · simpa [stored] using h
        · rename_i hk e hg
          have hnot : ks.length ≠ 3 := by
            intro h3
            have h2 : 2 < ks.length := by omega
            have := h.get (List.getElem?_eq_getElem h2)
            rw [this] at hg
            simp at hg
          have h3 := h.three
          have hl := h.len
          refine ⟨?_, ?_, ?_⟩
          · simp [stored, upd_self, h.len]
          · simp [stored]; omega
          · intro k' hk'
            simp only [stored, upd_self, List.filterMap_cons, List.filterMap_nil, and_self, if_true] at hk' ⊢
            by_cases h2 : ks.length = 2
            · rw [List.getElem?_append_right (by omega)] at hk' ⊢
              simp [h2] at hk'
              simp [hl, h2, hk']
            · rw [List.getElem?_eq_none (by simp; omega)] at hk'
              simp at hk'
    · have hs : stored s [(Call.set x k, (vault.call v (.set x k)).2)] = [] := by simp [stored, e]
      rw [hs, List.append_nil]
      have hv : (vault.call v (.set x k)).1 s = v s := by
        simp only [Store.call, vault, Vault.set]
        split
        · rfl
        · split
          · rfl
          · simp [upd_ne _ _ (Ne.symm e)]
      exact ⟨by rw [hv]; exact h.len, h.three, by rw [hv]; exact h.third⟩
  | delete now x =>
    have hs : stored s [(Call.delete now x, (vault.call v (.delete now x)).2)] = [] := by simp [stored]
    rw [hs, List.append_nil]
    by_cases e : s = x
    · subst e
      have hv : (vault.call v (.delete now s)).1 s = ((v s).take 2).map (fun _ => none) ++ (v s).drop 2 := by
        simp [Store.call, vault, Vault.delete, upd_self]
      refine ⟨?_, h.three, ?_⟩
      · rw [hv, ← h.len]; simp; omega
      · intro k hk
        have h3 := h.third k hk
        rw [hv]
        have hlt : 2 < (v s).length := by
          by_cases hlt : 2 < (v s).length
          · exact hlt
          · rw [List.getElem?_eq_none (by omega)] at h3; simp at h3
        rw [List.getElem?_append_right (by simp; omega)]
        simp only [List.length_map, List.length_take, List.getElem?_drop]
        rw [show min 2 (v s).length = 2 by omega]
        exact h3
    · have hv : (vault.call v (.delete now x)).1 s = v s := by
        simp [Store.call, vault, Vault.delete, upd_ne _ _ e]
      exact ⟨by rw [hv]; exact h.len, h.three, by rw [hv]; exact h.third⟩

theorem stored_cons (s : Str) (p : Call × Res) (t : List (Call × Res)) :
    stored s (p :: t) = stored s [p] ++ stored s t := by
  rw [show p :: t = [p] ++ t from rfl, stored, List.filterMap_append]
  rfl

theorem Versions.run {s : Str} (cs : List Call) : ∀ {v : Vault} {ks : List Str}, Versions s v ks →
    Versions s (vault.run v cs).1 (ks ++ stored s (vault.run v cs).2) := by
  induction cs with
  | nil => intro v ks h; simpa [Store.run, stored] using h
  | cons c cs ih =>
    intro v ks h
    have := ih (h.call c)
    simp only [Store.run]
    rw [stored_cons, ← List.append_assoc]
    exact this

/-- **C50**, exactly. After any calls of the Vault key store: (1) at most three `Set`s of a subject have
succeeded; (2) as long as at most two have, `Delete` makes the key unreadable; (3) once the third has,
its key is handed out by every later `Get`, whatever is called in between, deletions included. So
`Delete` does its work if and only if fewer than three `Set`s of the subject have succeeded. -/
theorem C50_exact (cs : List Call) (s : Str) :
    let v := (vault.run (fun _ => []) cs).1
    let ks := stored s (vault.run (fun _ => []) cs).2
    ks.length ≤ 3 ∧
    (ks.length ≤ 2 → ∀ now, (vault.get (vault.delete v now s).1 s).2.1 = [] ∧
      (vault.get (vault.delete v now s).1 s).2.2 ≠ none) ∧
    (∀ k, ks[2]? = some k → ∀ later, (vault.get (vault.run v later).1 s).2 = (k, none)) ∧
    (∀ now, (vault.get (vault.delete v now s).1 s).2.2 ≠ none ↔ ks.length < 3) := by
  intro v ks
  have h : Versions s v ks := by
    have := Versions.run (s := s) cs (v := fun _ => []) (ks := []) ⟨rfl, by simp, by simp⟩
    simpa using this
  have h2 : ks.length ≤ 2 → ∀ now, (vault.get (vault.delete v now s).1 s).2.1 = [] ∧
      (vault.get (vault.delete v now s).1 s).2.2 ≠ none := by
    intro hl now
    have hlen : (v s).length ≤ 2 := by rw [h.len]; exact hl
    have hd : (vault.delete v now s).1 s = (v s).map (fun _ => none) := by
      simp [vault, Vault.delete, upd_self, List.take_of_length_le hlen, List.drop_of_length_le hlen]
    generalize (vault.delete v now s).1 = w at *
    simp only [vault, Vault.get]
    cases hg : (w s).getLast? with
    | none => simp
    | some x =>
      have hx := List.mem_of_getLast? hg
      rw [hd] at hx
      obtain ⟨_, _, rfl⟩ := List.mem_map.mp hx
      simp
  have h3 : ∀ k, ks[2]? = some k → ∀ later, (vault.get (vault.run v later).1 s).2 = (k, none) := by
    intro k hk later
    refine (h.run later).get (k := k) ?_
    have : 2 < ks.length := by
      by_cases hlt : 2 < ks.length
      · exact hlt
      · rw [List.getElem?_eq_none (by omega)] at hk; simp at hk
    rw [List.getElem?_append_left this]; exact hk
  refine ⟨h.three, h2, h3, fun now => ⟨?_, fun hl => (h2 (by omega) now).2⟩⟩
  intro hne
  by_cases hl : ks.length < 3
  · exact hl
  · exfalso
    have hlt : 2 < ks.length := by omega
    have := h3 _ (List.getElem?_eq_getElem hlt) [.delete now s]
    apply hne
    have e1 : (vault.run v [.delete now s]).1 = (vault.delete v now s).1 := rfl
    rw [e1] at this
    rw [this]

/-- Three rounds of setting and deleting: the third key stays, and a fourth `Set` is refused. -/
example :
    stored [1] (vault.run (fun _ => []) [.set [1] [9], .delete 5 [1], .set [1] [8], .delete 6 [1],
      .set [1] [7], .delete 7 [1], .set [1] [6]]).2 = [[9], [8], [7]] := by decide

end RangeDB.Key

import Verif.Proof.KeyStore

/-!
# Properties of the encryption key stores

`K.run m cs` performs the calls `cs` one after another, starting in state `m`, and gives the final state
and the trace: each call with what it returned. `Given h s k` and `Deleted h s` say that the trace `h`
contains a `Set(s, k)`, a `Delete(s)` that returned `nil`.
-/

namespace RangeDB.Key

/-! ## C25 -/

/-- **C25.** After any calls, `Get` of the in-memory store is determined by what the earlier calls
returned: a deleted subject yields `ErrKeyWasDeleted`, otherwise a subject for which some `Set` succeeded
yields the key of that `Set`, otherwise `ErrKeyNotFound`. -/
theorem C25_get (cs : List Call) (s : Str) :
    (Deleted (mem.run Mem.new cs).2 s →
      (mem.get (mem.run Mem.new cs).1 s).2 = ([], some .wasDeleted)) ∧
    (∀ k, Given (mem.run Mem.new cs).2 s k → ¬ Deleted (mem.run Mem.new cs).2 s →
      (mem.get (mem.run Mem.new cs).1 s).2 = (k, none)) ∧
    ((∀ k, ¬ Given (mem.run Mem.new cs).2 s k) → ¬ Deleted (mem.run Mem.new cs).2 s →
      (mem.get (mem.run Mem.new cs).1 s).2 = ([], some .notFound)) := by
  have I := memInv_run cs
  generalize mem.run Mem.new cs = x at *
  refine ⟨?_, ?_, ?_⟩
  · intro h; simp [mem, Mem.get, I.del s h]
  · intro k hg hd; simp [mem, Mem.get, I.key s k hg hd, I.ne s k hg]
  · intro hg hd; simp [mem, Mem.get, I.none s hg hd]

/-- **C25.** After any calls, `Set(s, k)` on the in-memory store succeeds if and only if the key is not
empty, was never set successfully for any subject (even one deleted since), and the subject neither has
nor had a key nor was deleted. -/
theorem C25_set (cs : List Call) (s k : Str) :
    (mem.set (mem.run Mem.new cs).1 s k).2 = none ↔
      k ≠ [] ∧ (∀ s', ¬ Given (mem.run Mem.new cs).2 s' k) ∧
      (∀ k', ¬ Given (mem.run Mem.new cs).2 s k') ∧ ¬ Deleted (mem.run Mem.new cs).2 s := by
  have I := memInv_run cs
  generalize mem.run Mem.new cs = x at *
  simp only [mem, Mem.set]
  constructor
  · intro h
    split at h
    · simp at h
    · split at h
      · simp at h
      · split at h
        · simp at h
        · rename_i h1 h2 h3
          have hd : ¬ Deleted x.2 s := fun hd => by simp [I.del s hd] at h3
          refine ⟨h1, fun s' hg => h2 ((I.used k).2 ⟨s', hg⟩), fun k' hg => ?_, hd⟩
          simp [I.key s k' hg hd] at h3
  · rintro ⟨h1, h2, h3, h4⟩
    have hu : x.1.used k = false := by
      cases hu : x.1.used k with
      | false => rfl
      | true => obtain ⟨s', hs'⟩ := (I.used k).1 hu; exact absurd hs' (h2 s')
    simp [h1, hu, I.none s h3 h4]

/-- **C25.** In any sequence of calls two different successful `Set`s of the in-memory store concern
different subjects and different keys. -/
theorem C25_unique (cs : List Call) (i j : Nat) (s k s' k' : Str) (hij : i ≠ j)
    (hi : (mem.run Mem.new cs).2[i]? = some (.set s k, ⟨[], none⟩))
    (hj : (mem.run Mem.new cs).2[j]? = some (.set s' k', ⟨[], none⟩)) : s ≠ s' ∧ k ≠ k' := by
  have I := (memInv_run cs).distinct
  obtain ⟨hi', hi⟩ := List.getElem?_eq_some_iff.mp hi
  obtain ⟨hj', hj⟩ := List.getElem?_eq_some_iff.mp hj
  rcases Nat.lt_or_gt_of_ne hij with hlt | hlt
  · exact List.pairwise_iff_getElem.mp I i j hi' hj' hlt s k s' k' hi hj
  · have := List.pairwise_iff_getElem.mp I j i hj' hi' hlt s' k' s k hj hi
    exact ⟨this.1.symm, this.2.symm⟩

/-- A history with sets, refused sets, a deletion: subjects `[1]`, `[2]`, `[3]`; keys `[9]`, `[8]`. -/
def hist25 : List Call :=
  [.set [1] [9], .set [1] [8], .set [2] [9], .set [2] [8], .delete 5 [1], .set [3] [9], .get [2]]

example : (mem.run Mem.new hist25).2.map (·.2.err) =
    [none, some .exists, some .alreadyUsed, none, none, some .alreadyUsed, none] := by decide
example : Given (mem.run Mem.new hist25).2 [2] [8] ∧ Deleted (mem.run Mem.new hist25).2 [1] ∧
    ¬ Deleted (mem.run Mem.new hist25).2 [2] ∧ (∀ k, ¬ Given (mem.run Mem.new hist25).2 [3] k) := by
  refine ⟨by simp only [Given]; decide, ⟨5, by decide⟩, ?_, ?_⟩
  · rintro ⟨n, hn⟩
    simp [hist25, Store.run, Store.call, mem, Mem.set, Mem.get, Mem.delete, Mem.new, upd] at hn
  · intro k hk
    simp [Given, hist25, Store.run, Store.call, mem, Mem.set, Mem.get, Mem.delete, Mem.new, upd] at hk

/-! ## C26 -/

/-- Deletion is permanent in the key store `K`: once `Delete(s)` has returned `nil`, whatever calls
follow, `Get(s)` yields `ErrKeyWasDeleted` and no key, and `Set(s, _)` is refused. -/
def Permanent {σ : Type} (K : Store σ) (m0 : σ) : Prop :=
  ∀ (before after : List Call) (s : Str) (now : Nat), 0 < now →
    (∀ c ∈ before ++ after, Timed c) →
    (K.delete (K.run m0 before).1 now s).2 = none →
    (K.get (K.run (K.delete (K.run m0 before).1 now s).1 after).1 s).2 = ([], some .wasDeleted) ∧
    ∀ k, (K.set (K.run (K.delete (K.run m0 before).1 now s).1 after).1 s k).2 ≠ none

/-- **C26.** Deletion is permanent in the in-memory key store. -/
theorem C26_memory : Permanent mem Mem.new := by
  intro before after s now hn ht h
  have hd := mem_sticky.run (mem_sticky.delete _ now s hn h) after
    (fun c hc => ht c (List.mem_append_right _ hc))
  exact ⟨mem_sticky.get _ s hd, fun k => mem_sticky.set _ s k hd⟩

/-- **C26.** Deletion is permanent in the DynamoDB key store (with clocks past 1970). -/
theorem C26_dynamodb : Permanent dyn (fun _ => none) := by
  intro before after s now hn ht h
  have hd := dyn_sticky.run (dyn_sticky.delete _ now s hn h) after
    (fun c hc => ht c (List.mem_append_right _ hc))
  exact ⟨dyn_sticky.get _ s hd, fun k => dyn_sticky.set _ s k hd⟩

/-- **C26.** In the PostgreSQL key store deletion is permanent for every subject that has a row. -/
theorem C26_postgres (before after : List Call) (s : Str) (now : Nat)
    (hrow : (pg.get (pg.run [] before).1 s).2.2 ≠ some .notFound)
    (h : (pg.delete (pg.run [] before).1 now s).2 = none) :
    (pg.get (pg.run (pg.delete (pg.run [] before).1 now s).1 after).1 s).2 = ([], some .wasDeleted) ∧
    ∀ k, (pg.set (pg.run (pg.delete (pg.run [] before).1 now s).1 after).1 s k).2 ≠ none := by
  have I : PgInv (pg.delete (pg.run [] before).1 now s).1 := (pgInv_run before).call (.delete now s)
  have hd : PgDead (pg.delete (pg.run [] before).1 now s).1 s := by
    generalize (pg.run [] before).1 = t at hrow h
    simp only [pg, Pg.get] at hrow
    cases hf : t.find? (fun r => r.subject = s) with
    | none => simp [hf] at hrow
    | some r =>
      have hm := List.mem_of_find?_eq_some hf
      have hs := List.find?_some hf
      simp only [decide_eq_true_eq] at hs
      simp only [pg, Pg.delete] at h ⊢
      split at h
      · simp at h
      · rename_i hc
        rw [if_neg hc]
        exact ⟨_, List.mem_map_of_mem hm, by simp [hs], by simp [hs]⟩
  have I' := run_inv pg PgInv (fun _ => True) (fun _ c _ h => h.call c) _ after (fun _ _ => trivial) I
  have hd' := run_inv pg (PgDead · s) (fun _ => True) (fun _ c _ h => h.call c) _ after
    (fun _ _ => trivial) hd
  exact ⟨by rw [hd'.get I'], fun k => (hd'.set k).2⟩

/-- **C26** is false of the PostgreSQL key store for a subject without a row: `Delete` returns `nil` but
leaves no trace, so the subject can be given a key afterwards. -/
theorem C26_false_postgres : ¬ Permanent pg [] := by
  intro h
  have := (h [] [] [1] 5 (by decide) (by simp) (by decide)).2 [9]
  exact this (by decide)

example : (mem.delete (mem.run Mem.new hist25).1 7 [2]).2 = none ∧
    (mem.get (mem.run Mem.new hist25).1 [2]).2 = ([8], none) := by decide
example : (∀ c ∈ hist25, Timed c) ∧ (dyn.delete (dyn.run (fun _ => none) hist25).1 7 [2]).2 = none ∧
    (dyn.get (dyn.run (fun _ => none) hist25).1 [2]).2 = ([9], none) := by
  refine ⟨?_, by decide, by decide⟩
  intro c hc
  simp only [hist25, List.mem_cons, List.not_mem_nil, or_false] at hc
  rcases hc with rfl | rfl | rfl | rfl | rfl | rfl | rfl <;> simp [Timed]
example : (pg.get (pg.run [] [.set [1] [9]]).1 [1]).2.2 ≠ some .notFound ∧
    (pg.delete (pg.run [] [.set [1] [9]]).1 7 [1]).2 = none := by decide

/-! ## C27 -/

/-- **C27.** A process that uses a cache (in memory) in front of a backing store which is itself correct:
once a `Delete(s)` made through the cache has returned `nil`, every later `Get(s)` through it fails and
returns no key, and every `Set(s, _)` fails. This holds whatever calls precede and follow, and although
any call of either store may fail, with or without having taken effect (`ff`, `fs`, `ff'`, `fs'`). -/
theorem C27_deleted (ff fs : List Fault) (m m' : Mem) (before after : List Call) (s : Str) (now : Nat)
    (hn : 0 < now) (ht : ∀ c ∈ before ++ after, Timed c)
    (h : ((cache (faulty mem) (faulty mem)).delete
      ((cache (faulty mem) (faulty mem)).run ((m, ff), (m', fs)) before).1 now s).2 = none) :
    let K := cache (faulty mem) (faulty mem)
    let after' := (K.run (K.delete (K.run ((m, ff), (m', fs)) before).1 now s).1 after).1
    (K.get after' s).2.1 = [] ∧ (K.get after' s).2.2 ≠ none ∧ ∀ k, (K.set after' s k).2 ≠ none := by
  have S := cache_sticky (faulty_sticky mem_sticky.weak) (faulty_sticky mem_sticky.weak)
  have hd := S.run (S.delete _ now s hn h) after (fun c hc => ht c (List.mem_append_right _ hc))
  exact ⟨(S.get _ s hd).1, (S.get _ s hd).2, fun k => S.set _ s k hd⟩

/-- **C27** with DynamoDB as the backing store. -/
theorem C27_deleted_dynamodb (ff fs : List Fault) (m : Mem) (t : Dyn) (before after : List Call)
    (s : Str) (now : Nat) (hn : 0 < now) (ht : ∀ c ∈ before ++ after, Timed c)
    (h : ((cache (faulty mem) (faulty dyn)).delete
      ((cache (faulty mem) (faulty dyn)).run ((m, ff), (t, fs)) before).1 now s).2 = none) :
    let K := cache (faulty mem) (faulty dyn)
    let after' := (K.run (K.delete (K.run ((m, ff), (t, fs)) before).1 now s).1 after).1
    (K.get after' s).2.1 = [] ∧ (K.get after' s).2.2 ≠ none ∧ ∀ k, (K.set after' s k).2 ≠ none := by
  have S := cache_sticky (faulty_sticky mem_sticky.weak) (faulty_sticky dyn_sticky.weak)
  have hd := S.run (S.delete _ now s hn h) after (fun c hc => ht c (List.mem_append_right _ hc))
  exact ⟨(S.get _ s hd).1, (S.get _ s hd).2, fun k => S.set _ s k hd⟩

/-- The cache misses once (its `Get` is lost), then answers; the deletion succeeds. -/
example :
    let K := cache (faulty mem) (faulty mem)
    let c := (K.run ((Mem.new, [.fine, .lost]), (Mem.new, [])) [.set [1] [9], .get [1]]).1
    (K.get c [1]).2 = ([9], none) ∧ (K.delete c 7 [1]).2 = none := by decide

/-- **C27.** A new cache in front of a backing store with any past (`past`). However calls through the
cache and `Get`/`Set` calls of other processes on the backing store interleave (`xs`), a `Get` through
the cache returns exactly what a `Get` on the backing store would, and a `Set` through it the same error. -/
theorem C27_transparent (past : List Call) (xs : List Mixed) (s k : Str) :
    let c := xs.foldl mixed (Mem.new, (mem.run Mem.new past).1)
    ((cache mem mem).get c s).2 = (mem.get c.2 s).2 ∧
    ((cache mem mem).set c s k).2 = (mem.set c.2 s k).2 := by
  have I := cacheInv_run _ past rfl xs
  exact ⟨(I.get s).2, (I.set s k).2⟩

example :
    let c := List.foldl mixed (Mem.new, (mem.run Mem.new [.set [1] [9]]).1)
      [.otherSet [2] [8], .cached (.get [1]), .cached (.delete 7 [1])]
    (mem.get c.2 [1]).2.2 = some .wasDeleted ∧ (mem.get c.2 [2]).2 = ([8], none) := by decide

/-- **C27** is false for two processes with a cache each in front of one backing store: after process A
has deleted subject `[1]` process B's cache still hands out the key. (`c1`, `c2`: the caches.) -/
theorem C27_false_two_caches :
    ∃ (c1 c2 c2' backing backing' : Mem),
      -- A sets a key, then B reads it through its own cache
      ((cache mem mem).set (Mem.new, Mem.new) [1] [9]).1 = (c1, backing) ∧
      ((cache mem mem).get (Mem.new, backing) [1]).1 = (c2, backing) ∧
      -- A deletes the subject successfully
      ((cache mem mem).delete (c1, backing) 7 [1]).2 = none ∧
      ((cache mem mem).delete (c1, backing) 7 [1]).1 = (c2', backing') ∧
      -- B still gets the key
      ((cache mem mem).get (c2, backing') [1]).2 = ([9], none) :=
  ⟨_, _, _, _, _, rfl, rfl, rfl, rfl, rfl⟩

/-! ## C50 -/

/-- **C50**, the full statement: deletion is permanent in the Vault key store. -/
def C50_full : Prop := Permanent vault (fun _ => [])

/-- **C50** is false: `Set` after `Delete` succeeds ... -/
theorem C50_false : ¬ C50_full := by
  intro h
  have := (h [.set [1] [9]] [] [1] 5 (by decide) (by simp [Timed]) (by decide)).2 [8]
  exact this (by decide)

/-- ... and after the third such round `Delete` returns `nil` but `Get` still hands out the key. -/
theorem C50_false_key_survives :
    let v := (vault.run (fun _ => []) [.set [1] [9], .delete 5 [1], .set [1] [8], .delete 6 [1],
      .set [1] [7], .delete 7 [1]]).1
    (vault.delete v 8 [1]).2 = none ∧ (vault.get (vault.delete v 8 [1]).1 [1]).2 = ([7], none) := by
  decide

/-- **C50**, the part that holds: if `Set(s, _)` was called at most twice before a `Delete(s)` and is not
called afterwards, no version of the key survives the deletion, and if there was a version `Get(s)`
yields `ErrKeyWasDeleted` from then on. Missing: more `Set`s, and refusing `Set` after `Delete`. -/
theorem C50_partial (before after : List Call) (s : Str) (now : Nat)
    (htwo : before.countP (isSet s) ≤ 2) (hno : ∀ c ∈ after, isSet s c = false)
    (hsome : (vault.get (vault.run (fun _ => []) before).1 s).2.2 ≠ some .notFound) :
    let v := (vault.run (vault.delete (vault.run (fun _ => []) before).1 now s).1 after).1
    (∀ x ∈ v s, x = none) ∧ (vault.get v s).2 = ([], some .wasDeleted) := by
  have hl := vault_len s (fun _ => []) before
  simp only [List.length_nil, Nat.zero_add] at hl
  generalize (vault.run (fun _ => []) before).1 = v0 at *
  have hne : v0 s ≠ [] := by
    intro h0; simp [vault, Vault.get, h0] at hsome
  have hlen : (v0 s).length ≤ 2 := by omega
  have hdead : (vault.delete v0 now s).1 s = (v0 s).map (fun _ => none) := by
    simp [vault, Vault.delete, upd_self, List.take_of_length_le hlen, List.drop_of_length_le hlen]
  have := vault_dead s (vault.delete v0 now s).1 after hno
    ⟨by rw [hdead]; simpa using hne, by rw [hdead]; simp⟩
  refine ⟨this.2, ?_⟩
  simp only [vault, Vault.get]
  cases hg : ((vault.run (vault.delete v0 now s).1 after).1 s).getLast? with
  | none => rw [List.getLast?_eq_none_iff] at hg; exact absurd hg this.1
  | some x =>
    have hx := this.2 x (List.mem_of_getLast? hg)
    subst hx; simp [vault] at hg; simp [hg]

example : [Call.set [1] [9], .set [2] [8]].countP (isSet [1]) ≤ 2 ∧
    (vault.get (vault.run (fun _ => []) [.set [1] [9], .set [2] [8]]).1 [1]).2.2 ≠ some .notFound := by
  decide

/-! ## C51 -/

/-- **C51**, the full statement: after any calls, every subject that has a key can be deleted from the
PostgreSQL key store. -/
def C51_full : Prop :=
  ∀ (cs : List Call) (s : Str) (now : Nat), (pg.get (pg.run [] cs).1 s).2.2 = none →
    (pg.delete (pg.run [] cs).1 now s).2 = none

/-- **C51** is false: the second subject to be deleted cannot be. -/
theorem C51_false : ¬ C51_full := by
  intro h
  have := h [.set [1] [9], .set [2] [8], .delete 5 [1]] [2] 6 (by decide)
  revert this; decide

/-- **C51**, how bad it is: once one subject is deleted no other subject ever can be, whatever calls
follow; each such `Delete` fails and leaves the key in place. -/
theorem C51_false_forever (before after : List Call) (s s' : Str) (now now' : Nat) (hs : s ≠ s')
    (hrow : (pg.get (pg.run [] before).1 s).2.2 = none)
    (hdel : (pg.delete (pg.run [] before).1 now s).2 = none) (k : Str)
    (hkey : (pg.get (pg.run (pg.delete (pg.run [] before).1 now s).1 after).1 s').2 = (k, none)) :
    let t := (pg.run (pg.delete (pg.run [] before).1 now s).1 after).1
    (pg.delete t now' s').2 = some .other ∧ (pg.get (pg.delete t now' s').1 s').2 = (k, none) := by
  have hdead := C26_postgres before after s now (by rw [hrow]; simp) hdel
  have hinv : PgInv (pg.run (pg.delete (pg.run [] before).1 now s).1 after).1 :=
    run_inv pg PgInv (fun _ => True) (fun _ c _ h => h.call c) _ after (fun _ _ => trivial)
      ((pgInv_run before).call (.delete now s))
  generalize (pg.run (pg.delete (pg.run [] before).1 now s).1 after).1 = t at *
  have h1 : t.any (fun r => r.subject = s') = true := by
    cases hf : t.find? (fun r => r.subject = s') with
    | none => simp [pg, Pg.get, hf] at hkey
    | some r =>
      have hsub := List.find?_some hf
      exact List.any_eq_true.mpr ⟨r, List.mem_of_find?_eq_some hf, hsub⟩
  have h2 : t.any (fun r => r.subject ≠ s' ∧ r.key = []) = true := by
    cases hf : t.find? (fun r => r.subject = s) with
    | none => simp [pg, Pg.get, hf] at hdead
    | some r =>
      have hr := List.mem_of_find?_eq_some hf
      have hsub := List.find?_some hf
      simp only [decide_eq_true_eq] at hsub
      have hd : r.deletedAt.isSome := by
        cases hd : r.deletedAt with
        | none =>
          have h0 := hdead.1
          simp only [pg, Pg.get, hf, hd] at h0
          simp at h0
        | some _ => rfl
      refine List.any_eq_true.mpr ⟨r, hr, ?_⟩
      simp only [decide_eq_true_eq, hsub]
      exact ⟨hs, (hinv.empty r hr).2 hd⟩
  have : pg.delete t now' s' = (t, some .other) := by
    simp only [pg, Pg.delete]; rw [if_pos ⟨h1, h2⟩]
  simp only [this]
  exact ⟨trivial, hkey⟩

/-- **C51**, the part that holds: a subject can be deleted as long as no `Delete` was called for another
subject; the deletion is then permanent (`C26_postgres`). Missing: a second subject. -/
theorem C51_partial (cs : List Call) (s : Str) (now : Nat)
    (hno : ∀ now' s', Call.delete now' s' ∈ cs → s' = s) :
    (pg.delete (pg.run [] cs).1 now s).2 = none := by
  have hinv := pgInv_run cs
  have hdel := pg_deleted_called cs
  generalize (pg.run [] cs).1 = t at *
  simp only [pg, Pg.delete]
  rw [if_neg]
  rintro ⟨_, h⟩
  obtain ⟨r, hr, h⟩ := List.any_eq_true.mp h
  simp only [decide_eq_true_eq] at h
  obtain ⟨n, hn⟩ := hdel r hr ((hinv.empty r hr).1 h.2)
  exact h.1 (hno n _ hn)

example : (pg.get (pg.run [] [.set [1] [9], .set [2] [8]]).1 [1]).2.2 = none ∧
    (pg.delete (pg.run [] [.set [1] [9], .set [2] [8]]).1 5 [1]).2 = none ∧
    (pg.get (pg.run (pg.delete (pg.run [] [.set [1] [9], .set [2] [8]]).1 5 [1]).1 [.get [2]]).1
      [2]).2 = ([8], none) := by decide

end RangeDB.Key

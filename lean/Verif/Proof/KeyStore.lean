import Verif.Model.KeyStore

/-!
# Lemmas about the key stores
-/

namespace RangeDB.Key

variable {σ τ : Type}

/-- The trace `h` contains a successful `Set(s, k)`. -/
def Given (h : List (Call × Res)) (s k : Str) : Prop := (Call.set s k, ⟨[], none⟩) ∈ h

/-- The trace `h` contains a successful `Delete(s)`. -/
def Deleted (h : List (Call × Res)) (s : Str) : Prop := ∃ now, (Call.delete now s, ⟨[], none⟩) ∈ h

theorem run_fst_append (K : Store σ) (m : σ) (cs cs' : List Call) :
    (K.run m (cs ++ cs')).1 = (K.run (K.run m cs).1 cs').1 := by
  induction cs generalizing m with
  | nil => rfl
  | cons c cs ih => simp only [List.cons_append, Store.run]; exact ih _

/-- An invariant of the calls is an invariant of the runs. -/
theorem run_inv (K : Store σ) (P : σ → Prop) (ok : Call → Prop)
    (hstep : ∀ m c, ok c → P m → P (K.call m c).1) (m : σ) (cs : List Call)
    (hok : ∀ c ∈ cs, ok c) (h : P m) : P (K.run m cs).1 := by
  induction cs generalizing m with
  | nil => exact h
  | cons c cs ih =>
    simp only [Store.run]
    exact ih _ (fun c hc => hok c (List.mem_cons_of_mem _ hc)) (hstep m c (hok c (by simp)) h)

/-! ## In memory -/

/-- Two entries of a trace that are both successful `Set`s have different subjects and keys. -/
def Distinct (a b : Call × Res) : Prop :=
  ∀ s k s' k', a = (Call.set s k, ⟨[], none⟩) → b = (Call.set s' k', ⟨[], none⟩) → s ≠ s' ∧ k ≠ k'

/-- What the state says about the trace. -/
structure MemInv (m : Mem) (h : List (Call × Res)) : Prop where
  del : ∀ s, Deleted h s → m.bySubject s = some []
  key : ∀ s k, Given h s k → ¬ Deleted h s → m.bySubject s = some k
  none : ∀ s, (∀ k, ¬ Given h s k) → ¬ Deleted h s → m.bySubject s = none
  used : ∀ k, m.used k = true ↔ ∃ s, Given h s k
  ne : ∀ s k, Given h s k → k ≠ []
  distinct : h.Pairwise Distinct

theorem MemInv.new : MemInv Mem.new [] :=
  ⟨by simp [Deleted], by simp [Given], by simp [Mem.new], by simp [Mem.new, Given], by simp [Given],
    List.Pairwise.nil⟩

theorem Given_snoc (h : List (Call × Res)) (e : Call × Res) (s k : Str) :
    Given (h ++ [e]) s k ↔ Given h s k ∨ e = (Call.set s k, ⟨[], none⟩) := by
  simp [Given, eq_comm]

theorem Deleted_snoc (h : List (Call × Res)) (e : Call × Res) (s : Str) :
    Deleted (h ++ [e]) s ↔ Deleted h s ∨ ∃ now, e = (Call.delete now s, ⟨[], none⟩) := by
  simp [Deleted, exists_or, eq_comm]

/-- An entry that is neither a successful `Set` nor a successful `Delete` changes nothing. -/
theorem MemInv.skip {m : Mem} {h : List (Call × Res)} (I : MemInv m h) (e : Call × Res)
    (h1 : ∀ s k, e ≠ (Call.set s k, ⟨[], Option.none⟩))
    (h2 : ∀ now s, e ≠ (Call.delete now s, ⟨[], Option.none⟩)) : MemInv m (h ++ [e]) := by
  refine ⟨?_, ?_, ?_, ?_, ?_, ?_⟩
  · intro s hd; rw [Deleted_snoc] at hd
    exact I.del s (hd.resolve_right (by rintro ⟨n, hn⟩; exact h2 n s hn))
  · intro s k hg hd; rw [Given_snoc] at hg; rw [Deleted_snoc] at hd
    exact I.key s k (hg.resolve_right (h1 s k)) (fun x => hd (Or.inl x))
  · intro s hg hd; rw [Deleted_snoc] at hd
    exact I.none s (fun k hk => hg k ((Given_snoc ..).2 (Or.inl hk))) (fun x => hd (Or.inl x))
  · intro k; rw [I.used k]; constructor
    · rintro ⟨s, hs⟩; exact ⟨s, (Given_snoc ..).2 (Or.inl hs)⟩
    · rintro ⟨s, hs⟩; exact ⟨s, ((Given_snoc ..).1 hs).resolve_right (h1 s k)⟩
  · intro s k hg; exact I.ne s k (((Given_snoc ..).1 hg).resolve_right (h1 s k))
  · rw [List.pairwise_append]
    refine ⟨I.distinct, List.pairwise_singleton _ _, ?_⟩
    intro a _ b hb s k s' k' _ hb'
    simp only [List.mem_singleton] at hb
    exact absurd (hb ▸ hb') (h1 s' k')

theorem upd_self {β : Type} (m : Str → β) (k : Str) (v : β) : upd m k v k = v := by simp [upd]
theorem upd_ne {β : Type} (m : Str → β) {k x : Str} (v : β) (h : x ≠ k) : upd m k v x = m x := by
  simp [upd, h]

theorem MemInv.set_ok {m : Mem} {h : List (Call × Res)} (I : MemInv m h) {s k : Str}
    (hk : k ≠ []) (hu : m.used k = false) (hs : m.bySubject s = Option.none) :
    MemInv ⟨upd m.bySubject s (some k), upd m.used k true⟩
      (h ++ [(Call.set s k, ⟨[], Option.none⟩)]) := by
  have hnd : ¬ Deleted h s := fun hd => by rw [I.del s hd] at hs; simp at hs
  have hng : ∀ k, ¬ Given h s k := fun k hg => by rw [I.key s k hg hnd] at hs; simp at hs
  have hnk : ∀ x, ¬ Given h x k := fun x hg => by
    have := (I.used k).2 ⟨x, hg⟩; rw [this] at hu; simp at hu
  refine ⟨?_, ?_, ?_, ?_, ?_, ?_⟩
  · intro x hd; rw [Deleted_snoc] at hd
    have hd : Deleted h x := hd.resolve_right (by simp)
    have : x ≠ s := fun e => hnd (e ▸ hd)
    simp only [upd_ne _ _ this]; exact I.del x hd
  · intro x y hg hd; rw [Given_snoc] at hg; rw [Deleted_snoc] at hd
    have hd : ¬ Deleted h x := fun y => hd (Or.inl y)
    rcases hg with hg | hg
    · have : x ≠ s := fun e => hng y (e ▸ hg)
      simp only [upd_ne _ _ this]; exact I.key x y hg hd
    · simp only [Prod.mk.injEq, Call.set.injEq, and_true] at hg
      obtain ⟨rfl, rfl⟩ := hg; simp [upd_self]
  · intro x hg hd
    have : x ≠ s := fun e => hg k ((Given_snoc ..).2 (Or.inr (by rw [e])))
    simp only [upd_ne _ _ this]
    exact I.none x (fun k hk => hg k ((Given_snoc ..).2 (Or.inl hk)))
      (fun y => hd ((Deleted_snoc ..).2 (Or.inl y)))
  · intro y
    by_cases e : y = k
    · subst e; simp only [upd_self, true_iff]; exact ⟨s, (Given_snoc ..).2 (Or.inr rfl)⟩
    · simp only [upd_ne _ _ e]
      rw [I.used y]
      constructor
      · rintro ⟨x, hx⟩; exact ⟨x, (Given_snoc ..).2 (Or.inl hx)⟩
      · rintro ⟨x, hx⟩
        refine ⟨x, ((Given_snoc ..).1 hx).resolve_right ?_⟩
        simp only [Prod.mk.injEq, Call.set.injEq, and_true]
        rintro ⟨_, h2⟩; exact e h2.symm
  · intro x y hg
    rcases (Given_snoc ..).1 hg with hg | hg
    · exact I.ne x y hg
    · simp only [Prod.mk.injEq, Call.set.injEq, and_true] at hg
      rw [← hg.2]; exact hk
  · rw [List.pairwise_append]
    refine ⟨I.distinct, List.pairwise_singleton _ _, ?_⟩
    intro a ha b hb s1 k1 s2 k2 h1 h2
    simp only [List.mem_singleton] at hb
    subst hb
    simp only [Prod.mk.injEq, Call.set.injEq, and_true] at h2
    obtain ⟨rfl, rfl⟩ := h2
    subst h1
    exact ⟨fun e => hng k1 (e ▸ ha), fun e => hnk s1 (e ▸ ha)⟩

theorem MemInv.del_ok {m : Mem} {h : List (Call × Res)} (I : MemInv m h) (now : Nat) (s : Str) :
    MemInv ⟨upd m.bySubject s (some []), m.used⟩ (h ++ [(Call.delete now s, ⟨[], Option.none⟩)]) := by
  refine ⟨?_, ?_, ?_, ?_, ?_, ?_⟩
  · intro x hd; rw [Deleted_snoc] at hd
    by_cases e : x = s
    · simp [e, upd_self]
    · simp only [upd_ne _ _ e]
      refine I.del x (hd.resolve_right ?_)
      rintro ⟨n, hn⟩
      simp only [Prod.mk.injEq, Call.delete.injEq, and_true] at hn
      exact e hn.2.symm
  · intro x y hg hd
    have e : x ≠ s := fun e => hd ((Deleted_snoc ..).2 (Or.inr ⟨now, by rw [e]⟩))
    simp only [upd_ne _ _ e]
    exact I.key x y (((Given_snoc ..).1 hg).resolve_right (by simp))
      (fun y => hd ((Deleted_snoc ..).2 (Or.inl y)))
  · intro x hg hd
    have e : x ≠ s := fun e => hd ((Deleted_snoc ..).2 (Or.inr ⟨now, by rw [e]⟩))
    simp only [upd_ne _ _ e]
    exact I.none x (fun k hk => hg k ((Given_snoc ..).2 (Or.inl hk)))
      (fun y => hd ((Deleted_snoc ..).2 (Or.inl y)))
  · intro k; rw [I.used k]; simp [Given_snoc]
  · intro x y hg; exact I.ne x y (((Given_snoc ..).1 hg).resolve_right (by simp))
  · rw [List.pairwise_append]
    refine ⟨I.distinct, List.pairwise_singleton _ _, ?_⟩
    intro a _ b hb s1 k1 s2 k2 _ h2
    simp only [List.mem_singleton] at hb
    subst hb; simp at h2

theorem MemInv.call {m : Mem} {h : List (Call × Res)} (I : MemInv m h) (c : Call) :
    MemInv (mem.call m c).1 (h ++ [(c, (mem.call m c).2)]) := by
  cases c with
  | get s =>
    have : (mem.call m (.get s)).1 = m := by
      simp only [Store.call, mem, Mem.get]; split <;> (try split) <;> rfl
    rw [this]; exact I.skip _ (by simp) (by simp)
  | set s k =>
    simp only [Store.call, mem, Mem.set]
    split
    · exact I.skip _ (by simp) (by simp)
    · split
      · exact I.skip _ (by simp) (by simp)
      · split
        · exact I.skip _ (by simp) (by simp)
        · rename_i h1 h2 h3
          exact I.set_ok h1 (by simpa using h2) (by simpa using h3)
  | delete now s => exact I.del_ok now s

theorem MemInv.run {m : Mem} {h : List (Call × Res)} (I : MemInv m h) (cs : List Call) :
    MemInv (mem.run m cs).1 (h ++ (mem.run m cs).2) := by
  induction cs generalizing m h with
  | nil => simpa [Store.run] using I
  | cons c cs ih =>
    have := ih (I.call c)
    simp only [Store.run]
    simpa [List.append_assoc] using this

theorem memInv_run (cs : List Call) : MemInv (mem.run Mem.new cs).1 (mem.run Mem.new cs).2 := by
  simpa using MemInv.new.run cs

/-! ## Stores whose deletions stick -/

/-- The clock of a `Delete` call is past 1970. -/
def Timed : Call → Prop
  | .delete now _ => 0 < now
  | _ => True

/-- What a proof that deletions stick consists of: a property `dead` of a subject, established by
`Delete`, kept by every call, under which `Get` and `Set` fail. -/
structure Sticky (K : Store σ) (dead : σ → Str → Prop) : Prop where
  delete : ∀ m now s, 0 < now → (K.delete m now s).2 = none → dead (K.delete m now s).1 s
  call : ∀ m c s, Timed c → dead m s → dead (K.call m c).1 s
  get : ∀ m s, dead m s → (K.get m s).2 = ([], some .wasDeleted)
  set : ∀ m s k, dead m s → (K.set m s k).2 ≠ none

theorem Sticky.run {K : Store σ} {dead : σ → Str → Prop} (S : Sticky K dead) {m : σ} {s : Str}
    (h : dead m s) (cs : List Call) (ht : ∀ c ∈ cs, Timed c) : dead (K.run m cs).1 s :=
  run_inv K (dead · s) Timed (fun m c hc hm => S.call m c s hc hm) m cs ht h

theorem mem_sticky : Sticky mem (fun m s => m.bySubject s = some []) where
  delete m now s _ _ := by simp [mem, Mem.delete, upd_self]
  call m c s _ h := by
    cases c with
    | get x => simp only [Store.call, mem, Mem.get]; split <;> (try split) <;> exact h
    | set x k =>
      simp only [Store.call, mem, Mem.set]
      split
      · exact h
      · split
        · exact h
        · split
          · exact h
          · rename_i h3
            have : s ≠ x := by rintro rfl; simp [h] at h3
            simpa [upd_ne _ _ this] using h
    | delete now x =>
      simp only [Store.call, mem, Mem.delete]
      by_cases e : s = x
      · simp [e, upd_self]
      · simpa [upd_ne _ _ e] using h
  get m s h := by simp [mem, Mem.get, h]
  set m s k h := by
    simp only [mem, Mem.set, h, Option.isSome_some, if_true]
    split
    · simp
    · split <;> simp

theorem dyn_sticky : Sticky dyn (fun t s => ∃ k n, t s = some ⟨k, some n⟩ ∧ 0 < n) where
  delete m now s hn _ := ⟨[], now, by simp [dyn, Dyn.delete, upd_self], hn⟩
  call m c s hc h := by
    obtain ⟨k, n, h, hn⟩ := h
    cases c with
    | get x =>
      simp only [Store.call, dyn, Dyn.get]
      split
      · exact ⟨k, n, h, hn⟩
      · split <;> exact ⟨k, n, h, hn⟩
    | set x y =>
      simp only [Store.call, dyn, Dyn.set]
      split
      · exact ⟨k, n, h, hn⟩
      · split
        · exact ⟨k, n, h, hn⟩
        · rename_i h3
          have : s ≠ x := by rintro rfl; simp [h] at h3
          exact ⟨k, n, by simpa [upd_ne _ _ this] using h, hn⟩
    | delete now x =>
      simp only [Store.call, dyn, Dyn.delete]
      by_cases e : s = x
      · exact ⟨[], now, by simp [e, upd_self], hc⟩
      · exact ⟨k, n, by simpa [upd_ne _ _ e] using h, hn⟩
  get m s h := by obtain ⟨k, n, h, hn⟩ := h; simp [dyn, Dyn.get, h, hn]
  set m s k h := by
    obtain ⟨k, n, h, hn⟩ := h
    simp only [dyn, Dyn.set, h, Option.isSome_some, if_true]
    split <;> simp

end RangeDB.Key

namespace RangeDB.Key

variable {σ τ : Type}

/-- As `Sticky`, for stores that may also fail for other reasons. -/
structure Sticky' (K : Store σ) (dead : σ → Str → Prop) : Prop where
  delete : ∀ m now s, 0 < now → (K.delete m now s).2 = none → dead (K.delete m now s).1 s
  call : ∀ m c s, Timed c → dead m s → dead (K.call m c).1 s
  get : ∀ m s, dead m s → (K.get m s).2.1 = [] ∧ (K.get m s).2.2 ≠ none
  set : ∀ m s k, dead m s → (K.set m s k).2 ≠ none

theorem Sticky'.run {K : Store σ} {dead : σ → Str → Prop} (S : Sticky' K dead) {m : σ} {s : Str}
    (h : dead m s) (cs : List Call) (ht : ∀ c ∈ cs, Timed c) : dead (K.run m cs).1 s :=
  run_inv K (dead · s) Timed (fun m c hc hm => S.call m c s hc hm) m cs ht h

theorem Sticky.weak {K : Store σ} {dead : σ → Str → Prop} (S : Sticky K dead) : Sticky' K dead where
  delete := S.delete
  call := S.call
  get m s h := by simp [S.get m s h]
  set := S.set

theorem faulty_sticky {K : Store σ} {dead : σ → Str → Prop} (S : Sticky' K dead) :
    Sticky' (faulty K) (fun m s => dead m.1 s) where
  delete m now s hn h := by
    simp only [faulty] at h ⊢
    cases hd : m.2.headD .fine with
    | fine => simp only [hd] at h ⊢; exact S.delete m.1 now s hn h
    | lost => simp only [hd] at h; simp at h
    | lostReply => simp only [hd] at h; simp at h
  call m c s hc h := by
    have := S.call m.1 c s hc h
    cases c with
    | get x =>
      simp only [Store.call, faulty] at this ⊢
      cases hd : m.2.headD .fine <;> simp only [hd] <;> first | exact this | exact h
    | set x k =>
      simp only [Store.call, faulty] at this ⊢
      cases hd : m.2.headD .fine <;> simp only [hd] <;> first | exact this | exact h
    | delete now x =>
      simp only [Store.call, faulty] at this ⊢
      cases hd : m.2.headD .fine <;> simp only [hd] <;> first | exact this | exact h
  get m s h := by
    have := S.get m.1 s h
    simp only [faulty]
    cases hd : m.2.headD .fine with
    | fine => simpa only [hd] using this
    | lost => simp [hd]
    | lostReply => simp [hd]
  set m s k h := by
    have := S.set m.1 s k h
    simp only [faulty]
    cases hd : m.2.headD .fine with
    | fine => simpa only [hd] using this
    | lost => simp [hd]
    | lostReply => simp [hd]

theorem cache_sticky {K : Store σ} {L : Store τ} {d : σ → Str → Prop} {d' : τ → Str → Prop}
    (S : Sticky' K d) (T : Sticky' L d') :
    Sticky' (cache K L) (fun c s => d c.1 s ∧ d' c.2 s) where
  delete c now s hn h := by
    have h1 := T.delete c.2 now s hn
    have h2 := S.delete c.1 now s hn
    simp only [cache, Cache.delete] at h ⊢
    generalize L.delete c.2 now s = x at *
    obtain ⟨t, e⟩ := x
    cases e with
    | some e => simp at h
    | none =>
      simp only at h ⊢
      exact ⟨h2 h, h1 rfl⟩
  call c x s hc h := by
    cases x with
    | get y =>
      have h1 : d (K.get c.1 y).1 s := S.call c.1 (.get y) s hc h.1
      have h2 : d' (L.get c.2 y).1 s := T.call c.2 (.get y) s hc h.2
      have h3 : ∀ k, d (K.set (K.get c.1 y).1 y k).1 s := fun k => S.call _ (.set y k) s trivial h1
      change d (Cache.get K L c y).1.1 s ∧ d' (Cache.get K L c y).1.2 s
      simp only [Cache.get]
      generalize K.get c.1 y = a at *
      generalize L.get c.2 y = b at *
      obtain ⟨f, key, e⟩ := a
      obtain ⟨t, key', e'⟩ := b
      cases e with
      | none => exact ⟨h1, h.2⟩
      | some e =>
        cases e' with
        | some e' => exact ⟨h1, h2⟩
        | none => exact ⟨h3 key', h2⟩
    | set y k =>
      have h1 : d (K.set c.1 y k).1 s := S.call c.1 (.set y k) s hc h.1
      have h2 : d' (L.set c.2 y k).1 s := T.call c.2 (.set y k) s hc h.2
      change d (Cache.set K L c y k).1.1 s ∧ d' (Cache.set K L c y k).1.2 s
      simp only [Cache.set]
      generalize L.set c.2 y k = b at *
      obtain ⟨t, e⟩ := b
      cases e with
      | some e => exact ⟨h.1, h2⟩
      | none => exact ⟨h1, h2⟩
    | delete now y =>
      have h1 : d (K.delete c.1 now y).1 s := S.call c.1 (.delete now y) s hc h.1
      have h2 : d' (L.delete c.2 now y).1 s := T.call c.2 (.delete now y) s hc h.2
      change d (Cache.delete K L c now y).1.1 s ∧ d' (Cache.delete K L c now y).1.2 s
      simp only [Cache.delete]
      generalize L.delete c.2 now y = b at *
      obtain ⟨t, e⟩ := b
      cases e with
      | some e => exact ⟨h.1, h2⟩
      | none => exact ⟨h1, h2⟩
  get c s h := by
    have h1 := S.get c.1 s h.1
    have h2 := T.get c.2 s h.2
    simp only [cache, Cache.get]
    generalize K.get c.1 s = a at *
    generalize L.get c.2 s = b at *
    obtain ⟨f, key, e⟩ := a
    obtain ⟨t, key', e'⟩ := b
    cases e with
    | none => simp at h1
    | some e =>
      cases e' with
      | none => simp at h2
      | some e' => simp
  set c s k h := by
    have h2 := T.set c.2 s k h.2
    simp only [cache, Cache.set]
    generalize L.set c.2 s k = b at *
    obtain ⟨t, e⟩ := b
    cases e with
    | none => simp at h2
    | some e => simp

/-! ## A cache over a shared in-memory store -/

/-- A call of a system in which one process uses the cache and others use the backing store directly,
without deleting. -/
inductive Mixed where
  /-- through the cache -/
  | cached (c : Call)
  /-- `Get` on the backing store by another process -/
  | otherGet (s : Str)
  /-- `Set` on the backing store by another process -/
  | otherSet (s key : Str)
deriving DecidableEq, Repr

/-- One such call. -/
def mixed (c : Mem × Mem) : Mixed → Mem × Mem
  | .cached x => ((cache mem mem).call c x).1
  | .otherGet s => (c.1, (mem.get c.2 s).1)
  | .otherSet s key => (c.1, (mem.set c.2 s key).1)

/-- The invariant of the cache. -/
def CacheInv (c : Mem × Mem) : Prop :=
  ∃ h, MemInv c.2 h ∧
    (∀ s, c.1.bySubject s = none ∨ c.1.bySubject s = c.2.bySubject s) ∧
    (∀ k, c.1.used k = true → ∃ s, Given h s k ∧ c.1.bySubject s ≠ none)

theorem mem_get_state (m : Mem) (s : Str) : (mem.get m s).1 = m := by
  simp only [mem, Mem.get]; split <;> (try split) <;> rfl

theorem CacheInv.backingSet {c : Mem × Mem} (I : CacheInv c) (s k : Str) :
    CacheInv (c.1, (mem.set c.2 s k).1) := by
  obtain ⟨h, I, h1, h2⟩ := I
  refine ⟨_, I.call (.set s k), ?_, ?_⟩
  · intro x
    rcases h1 x with hx | hx
    · exact Or.inl hx
    · simp only [mem, Mem.set]
      split
      · exact Or.inr hx
      · split
        · exact Or.inr hx
        · split
          · exact Or.inr hx
          · rename_i h3
            by_cases e : x = s
            · subst e
              left; rw [hx]
              cases hb : c.2.bySubject x with
              | none => rfl
              | some v => simp [hb] at h3
            · right; simpa [upd_ne _ _ e] using hx
  · intro y hy
    obtain ⟨x, hx, hx'⟩ := h2 y hy
    exact ⟨x, (Given_snoc ..).2 (Or.inl hx), hx'⟩

/-- Copying the backing store's key into the cache. -/
theorem CacheInv.fill {c : Mem × Mem} (I : CacheInv c) {s k : Str} (hk : k ≠ [])
    (hf : c.1.bySubject s = none) (hs : c.2.bySubject s = some k) :
    mem.set c.1 s k = (⟨upd c.1.bySubject s (some k), upd c.1.used k true⟩, none) ∧
    CacheInv (⟨upd c.1.bySubject s (some k), upd c.1.used k true⟩, c.2) := by
  obtain ⟨h, I, h1, h2⟩ := I
  have hg : Given h s k := by
    by_cases hd : Deleted h s
    · rw [I.del s hd] at hs; simp at hs; exact absurd hs hk
    · by_cases hx : ∃ k', Given h s k'
      · obtain ⟨k', hx⟩ := hx
        rw [I.key s k' hx hd] at hs
        simp only [Option.some.injEq] at hs; exact hs ▸ hx
      · rw [I.none s (fun k' hk' => hx ⟨k', hk'⟩) hd] at hs; simp at hs
  have hu : c.1.used k = false := by
    cases hu : c.1.used k with
    | false => rfl
    | true =>
      obtain ⟨x, hx, hx'⟩ := h2 k hu
      have : x = s := by
        false_or_by_contra
        rename_i hne
        obtain ⟨i, hi⟩ := List.getElem?_of_mem hx
        obtain ⟨j, hj⟩ := List.getElem?_of_mem hg
        have hij : i ≠ j := by
          rintro rfl; rw [hi] at hj; simp at hj; exact hne hj
        rcases Nat.lt_or_gt_of_ne hij with hlt | hlt
        · obtain ⟨hi', hi⟩ := List.getElem?_eq_some_iff.mp hi
          obtain ⟨hj', hj⟩ := List.getElem?_eq_some_iff.mp hj
          exact (List.pairwise_iff_getElem.mp I.distinct i j hi' hj' hlt x k s k hi hj).2 rfl
        · obtain ⟨hi', hi⟩ := List.getElem?_eq_some_iff.mp hi
          obtain ⟨hj', hj⟩ := List.getElem?_eq_some_iff.mp hj
          exact (List.pairwise_iff_getElem.mp I.distinct j i hj' hi' hlt s k x k hj hi).2 rfl
      subst this; exact absurd hf hx'
  refine ⟨by simp [mem, Mem.set, hk, hu, hf], h, I, ?_, ?_⟩
  · intro x
    by_cases e : x = s
    · right; simp [e, upd_self, hs]
    · simpa [upd_ne _ _ e] using h1 x
  · intro y hy
    by_cases e : y = k
    · subst e; exact ⟨s, hg, by simp [upd_self]⟩
    · simp only [upd_ne _ _ e] at hy
      obtain ⟨x, hx, hx'⟩ := h2 y hy
      refine ⟨x, hx, ?_⟩
      by_cases e' : x = s
      · simp [e', upd_self]
      · simpa [upd_ne _ _ e'] using hx'

theorem CacheInv.set {c : Mem × Mem} (I : CacheInv c) (s k : Str) :
    CacheInv ((cache mem mem).set c s k).1 ∧
    ((cache mem mem).set c s k).2 = (mem.set c.2 s k).2 := by
  have hb := I.backingSet s k
  simp only [cache, Cache.set]
  by_cases hok : (mem.set c.2 s k).2 = none
  · have hk : k ≠ [] := by
      rintro rfl; simp [mem, Mem.set] at hok
    have hnone : c.2.bySubject s = none := by
      simp only [mem, Mem.set] at hok
      split at hok
      · simp at hok
      · split at hok
        · simp at hok
        · split at hok
          · simp at hok
          · rename_i h3; simpa using h3
    have hs : (mem.set c.2 s k).1.bySubject s = some k := by
      simp only [mem, Mem.set] at hok ⊢
      split at hok
      · simp at hok
      · split at hok
        · simp at hok
        · split at hok
          · simp at hok
          · simp [upd_self, *]
    have hf : c.1.bySubject s = none := by
      obtain ⟨h, _, h1, _⟩ := I
      rcases h1 s with hx | hx
      · exact hx
      · rw [hx, hnone]
    obtain ⟨e1, e2⟩ := hb.fill hk hf hs
    generalize mem.set c.2 s k = b at *
    obtain ⟨t, e⟩ := b
    simp only at hok e1 e2
    subst hok
    simp only [e1]
    exact ⟨e2, trivial⟩
  · generalize mem.set c.2 s k = b at *
    obtain ⟨t, e⟩ := b
    cases e with
    | none => simp at hok
    | some e => exact ⟨hb, rfl⟩

theorem CacheInv.get {c : Mem × Mem} (I : CacheInv c) (s : Str) :
    CacheInv ((cache mem mem).get c s).1 ∧
    ((cache mem mem).get c s).2 = (mem.get c.2 s).2 := by
  have I' := I
  obtain ⟨h, J, h1, h2⟩ := I
  simp only [cache, Cache.get]
  rcases h1 s with hx | hx
  · have hf : mem.get c.1 s = (c.1, [], some .notFound) := by simp [mem, Mem.get, hx]
    rw [hf]
    cases hb : c.2.bySubject s with
    | none => simp only [mem, Mem.get, hb]; exact ⟨I', trivial⟩
    | some k =>
      by_cases hk : k = []
      · simp only [mem, Mem.get, hb, hk, if_true]; exact ⟨I', trivial⟩
      · have : mem.get c.2 s = (c.2, k, none) := by simp [mem, Mem.get, hb, hk]
        rw [this]
        obtain ⟨e1, e2⟩ := I'.fill hk hx hb
        simp only [e1]
        exact ⟨e2, trivial⟩
  · cases hb : c.2.bySubject s with
    | none =>
      rw [hb] at hx
      have e1 : mem.get c.1 s = (c.1, [], some .notFound) := by simp [mem, Mem.get, hx]
      have e2 : mem.get c.2 s = (c.2, [], some .notFound) := by simp [mem, Mem.get, hb]
      rw [e1, e2]; exact ⟨I', rfl⟩
    | some k =>
      rw [hb] at hx
      by_cases hk : k = []
      · have e1 : mem.get c.1 s = (c.1, [], some .wasDeleted) := by simp [mem, Mem.get, hx, hk]
        have e2 : mem.get c.2 s = (c.2, [], some .wasDeleted) := by simp [mem, Mem.get, hb, hk]
        rw [e1, e2]; exact ⟨I', rfl⟩
      · have e1 : mem.get c.1 s = (c.1, k, none) := by simp [mem, Mem.get, hx, hk]
        have e2 : mem.get c.2 s = (c.2, k, none) := by simp [mem, Mem.get, hb, hk]
        rw [e1, e2]; exact ⟨I', rfl⟩

theorem CacheInv.delete {c : Mem × Mem} (I : CacheInv c) (now : Nat) (s : Str) :
    CacheInv ((cache mem mem).delete c now s).1 := by
  obtain ⟨h, J, h1, h2⟩ := I
  refine ⟨_, J.del_ok now s, ?_, ?_⟩
  · intro x
    simp only [cache, Cache.delete, mem, Mem.delete]
    by_cases e : x = s
    · right; simp [e, upd_self]
    · simpa [upd_ne _ _ e] using h1 x
  · intro k hk
    simp only [cache, Cache.delete, mem, Mem.delete] at hk ⊢
    obtain ⟨x, hx, hx'⟩ := h2 k hk
    refine ⟨x, (Given_snoc ..).2 (Or.inl hx), ?_⟩
    by_cases e : x = s
    · simp [e, upd_self]
    · simpa [upd_ne _ _ e] using hx'

theorem CacheInv.step {c : Mem × Mem} (I : CacheInv c) (x : Mixed) : CacheInv (mixed c x) := by
  cases x with
  | cached y =>
    cases y with
    | get s => simpa only [mixed, Store.call] using (I.get s).1
    | set s k => simpa only [mixed, Store.call] using (I.set s k).1
    | delete now s => simpa only [mixed, Store.call] using I.delete now s
  | otherGet s => simpa only [mixed, mem_get_state] using I
  | otherSet s k => simpa only [mixed] using I.backingSet s k

theorem cacheInv_run (m : Mem) (cs : List Call) (hm : m = (mem.run Mem.new cs).1) (xs : List Mixed) :
    CacheInv (xs.foldl mixed (Mem.new, m)) := by
  have h0 : CacheInv (Mem.new, m) :=
    ⟨(mem.run Mem.new cs).2, hm ▸ memInv_run cs, fun s => Or.inl rfl, by simp [Mem.new]⟩
  clear hm
  generalize (Mem.new, m) = c at h0
  induction xs generalizing c with
  | nil => exact h0
  | cons x xs ih => exact ih _ (h0.step x)

end RangeDB.Key

namespace RangeDB.Key

/-! ## Vault and PostgreSQL -/

/-- Is the call a `Set` for subject `s`? -/
def isSet (s : Str) : Call → Bool
  | .set x _ => x = s
  | _ => false

theorem vault_len (s : Str) (v : Vault) (cs : List Call) :
    ((vault.run v cs).1 s).length ≤ (v s).length + cs.countP (isSet s) := by
  induction cs generalizing v with
  | nil => simp [Store.run]
  | cons c cs ih =>
    simp only [Store.run]
    refine Nat.le_trans (ih _) ?_
    rw [List.countP_cons]
    have : ((vault.call v c).1 s).length ≤ (v s).length + if isSet s c then 1 else 0 := by
      cases c with
      | get x =>
        simp only [Store.call, vault, Vault.get]
        split <;> simp
      | set x k =>
        simp only [Store.call, vault, Vault.set]
        split
        · simp
        · split
          · simp
          · by_cases e : s = x
            · subst e; simp [upd_self, isSet]
            · simp [upd_ne _ _ e]
      | delete now x =>
        simp only [Store.call, vault, Vault.delete]
        by_cases e : s = x
        · subst e
          simp only [upd_self, List.length_append, List.length_map, List.length_take, List.length_drop]
          omega
        · simp [upd_ne _ _ e]
    omega

theorem vault_dead (s : Str) (v : Vault) (cs : List Call) (hno : ∀ c ∈ cs, isSet s c = false)
    (h : v s ≠ [] ∧ ∀ x ∈ v s, x = none) :
    (vault.run v cs).1 s ≠ [] ∧ ∀ x ∈ (vault.run v cs).1 s, x = none := by
  refine run_inv vault (fun v => v s ≠ [] ∧ ∀ x ∈ v s, x = none) (fun c => isSet s c = false)
    ?_ v cs hno h
  intro v c hc hv
  cases c with
  | get x =>
    simp only [Store.call, vault, Vault.get]
    split <;> exact hv
  | set x k =>
    simp only [isSet, decide_eq_false_iff_not] at hc
    simp only [Store.call, vault, Vault.set]
    split
    · exact hv
    · split
      · exact hv
      · simpa only [upd_ne _ _ (Ne.symm hc)] using hv
  | delete now x =>
    simp only [Store.call, vault, Vault.delete]
    by_cases e : s = x
    · subst e
      simp only [upd_self]
      constructor
      · intro h0
        have := congrArg List.length h0
        simp only [List.length_append, List.length_map, List.length_take, List.length_drop,
          List.length_nil] at this
        exact hv.1 (List.length_eq_zero_iff.mp (by omega))
      · intro y hy
        rcases List.mem_append.mp hy with hy | hy
        · obtain ⟨_, _, rfl⟩ := List.mem_map.mp hy; rfl
        · exact hv.2 y (List.mem_of_mem_drop hy)
    · simpa only [upd_ne _ _ e] using hv

/-- In the table, a row with an empty key is a deleted row, and each subject has at most one row. -/
structure PgInv (t : List Row) : Prop where
  nodup : (t.map (·.subject)).Nodup
  empty : ∀ r ∈ t, r.key = [] ↔ r.deletedAt.isSome

theorem find_subject {t : List Row} (h : (t.map (·.subject)).Nodup) {r : Row} (hr : r ∈ t) :
    t.find? (fun x => x.subject = r.subject) = some r := by
  induction t with
  | nil => simp at hr
  | cons a t ih =>
    simp only [List.map_cons, List.nodup_cons] at h
    rcases List.mem_cons.mp hr with rfl | hr
    · simp
    · have : a.subject ≠ r.subject := fun e => h.1 (e ▸ List.mem_map_of_mem hr)
      simp [this, ih h.2 hr]

theorem PgInv.call {t : List Row} (I : PgInv t) (c : Call) : PgInv (pg.call t c).1 := by
  cases c with
  | get s =>
    simp only [Store.call, pg, Pg.get]
    split
    · exact I
    · split <;> exact I
  | set s k =>
    simp only [Store.call, pg, Pg.set]
    split
    · exact I
    · split
      · exact I
      · split
        · exact I
        · rename_i h1 h2 h3
          refine ⟨?_, ?_⟩
          · rw [List.map_append, List.nodup_append]
            refine ⟨I.nodup, by simp, ?_⟩
            intro a ha b hb
            simp only [List.map_cons, List.map_nil, List.mem_singleton] at hb
            subst hb
            rintro rfl
            obtain ⟨r, hr, he⟩ := List.mem_map.mp ha
            exact h2 (List.any_eq_true.mpr ⟨r, hr, by simpa using he⟩)
          · intro r hr
            rcases List.mem_append.mp hr with hr | hr
            · exact I.empty r hr
            · simp only [List.mem_singleton] at hr
              subst hr; simp [h1]
  | delete now s =>
    simp only [Store.call, pg, Pg.delete]
    split
    · exact I
    · refine ⟨?_, ?_⟩
      · rw [List.map_map]
        have : ((fun r : Row => r.subject) ∘ fun r => if r.subject = s then ⟨s, [], some now⟩ else r)
            = (fun r : Row => r.subject) := by
          funext r; simp only [Function.comp]; split
          · rename_i h; exact h.symm
          · rfl
        rw [this]; exact I.nodup
      · intro r hr
        obtain ⟨x, hx, rfl⟩ := List.mem_map.mp hr
        split
        · simp
        · exact I.empty x hx

theorem pgInv_run (cs : List Call) : PgInv (pg.run [] cs).1 :=
  run_inv pg PgInv (fun _ => True) (fun _ c _ h => h.call c) [] cs (fun _ _ => trivial)
    ⟨by simp, by simp⟩

/-- The subject has a deleted row. -/
def PgDead (t : List Row) (s : Str) : Prop := ∃ r ∈ t, r.subject = s ∧ r.deletedAt.isSome

theorem PgDead.call {t : List Row} {s : Str} (h : PgDead t s) (c : Call) : PgDead (pg.call t c).1 s := by
  obtain ⟨r, hr, rfl, hd⟩ := h
  cases c with
  | get s =>
    simp only [Store.call, pg, Pg.get]
    split
    · exact ⟨r, hr, rfl, hd⟩
    · split <;> exact ⟨r, hr, rfl, hd⟩
  | set s k =>
    simp only [Store.call, pg, Pg.set]
    split
    · exact ⟨r, hr, rfl, hd⟩
    · split
      · exact ⟨r, hr, rfl, hd⟩
      · split
        · exact ⟨r, hr, rfl, hd⟩
        · exact ⟨r, List.mem_append_left _ hr, rfl, hd⟩
  | delete now s =>
    simp only [Store.call, pg, Pg.delete]
    split
    · exact ⟨r, hr, rfl, hd⟩
    · refine ⟨_, List.mem_map_of_mem hr, ?_, ?_⟩
      · split
        · rename_i h; exact h.symm
        · rfl
      · split
        · rfl
        · exact hd

theorem PgDead.get {t : List Row} {s : Str} (I : PgInv t) (h : PgDead t s) :
    pg.get t s = (t, [], some .wasDeleted) := by
  obtain ⟨r, hr, rfl, hd⟩ := h
  simp [pg, Pg.get, find_subject I.nodup hr, hd]

theorem PgDead.set {t : List Row} {s : Str} (h : PgDead t s) (k : Str) :
    (pg.set t s k).1 = t ∧ (pg.set t s k).2 ≠ none := by
  obtain ⟨r, hr, rfl, hd⟩ := h
  have : t.any (fun x => x.subject = r.subject) = true :=
    List.any_eq_true.mpr ⟨r, hr, by simp⟩
  simp only [pg, Pg.set, this, if_true]
  split <;> simp

/-- Subjects with a deleted row had a `Delete` call. -/
theorem pg_deleted_called (cs : List Call) :
    ∀ r ∈ (pg.run [] cs).1, r.deletedAt.isSome → ∃ now, Call.delete now r.subject ∈ cs := by
  have key : ∀ (t : List Row) (ds cs : List Call),
      (∀ r ∈ t, r.deletedAt.isSome → ∃ now, Call.delete now r.subject ∈ ds) →
      ∀ r ∈ (pg.run t cs).1, r.deletedAt.isSome → ∃ now, Call.delete now r.subject ∈ ds ++ cs := by
    intro t ds cs
    induction cs generalizing t ds with
    | nil => intro h; simpa [Store.run] using h
    | cons c cs ih =>
      intro h
      have := ih (pg.call t c).1 (ds ++ [c]) ?_
      · simpa [Store.run, List.append_assoc] using this
      · intro r hr hd
        have hold : r ∈ t → ∃ now, Call.delete now r.subject ∈ ds ++ [c] := fun hr => by
          obtain ⟨n, hn⟩ := h r hr hd
          exact ⟨n, List.mem_append_left _ hn⟩
        cases c with
        | get s =>
          simp only [Store.call, pg, Pg.get] at hr
          split at hr
          · exact hold hr
          · split at hr <;> exact hold hr
        | set s k =>
          simp only [Store.call, pg, Pg.set] at hr
          split at hr
          · exact hold hr
          · split at hr
            · exact hold hr
            · split at hr
              · exact hold hr
              · rcases List.mem_append.mp hr with hr | hr
                · exact hold hr
                · simp only [List.mem_singleton] at hr
                  subst hr; simp at hd
        | delete now s =>
          simp only [Store.call, pg, Pg.delete] at hr
          split at hr
          · exact hold hr
          · obtain ⟨x, hx, rfl⟩ := List.mem_map.mp hr
            by_cases e : x.subject = s
            · exact ⟨now, by simp [e]⟩
            · rw [if_neg e] at hd hr ⊢
              obtain ⟨n, hn⟩ := h x hx hd
              exact ⟨n, List.mem_append_left _ hn⟩
  simpa using key [] [] cs (by simp)

end RangeDB.Key

import Verif.Model.KeyRace
import Verif.Proof.Engine
import Verif.Proof.KeyStore

/-!
# Rely and guarantee for goroutines that share a key store
-/

namespace RangeDB.Race

open RangeDB.Key RangeDB.Cry

variable {σ τ β γ : Type}

/-- A program that only makes changes allowed by `R`, in an environment that only makes changes allowed by
`R`, and whose result satisfies `Q` from then on. -/
def Safe (R : σ → σ → Prop) (Q : σ → β → Prop) : σ → Prog σ β → Prop
  | m, .ret b => ∀ m', R m m' → Q m' b
  | m, .act f k => ∀ m', R m m' → R m' (f m') ∧ Safe R Q (f m') (k m')

/-- Changes can be put together. -/
structure Pre (R : σ → σ → Prop) : Prop where
  refl : ∀ m, R m m
  trans : ∀ a b c, R a b → R b c → R a c

variable {R : σ → σ → Prop} {Q Q' : σ → β → Prop}

theorem Safe.mono (hR : Pre R) {m m' : σ} {p : Prog σ β} (h : Safe R Q m p) (hm : R m m') : Safe R Q m' p := by
  cases p with
  | ret b => exact fun n hn => h n (hR.trans _ _ _ hm hn)
  | act f k => exact fun n hn => h n (hR.trans _ _ _ hm hn)

theorem Safe.weaken (hR : Pre R) (hQ : ∀ m b, Q m b → Q' m b) {p : Prog σ β} :
    ∀ {m : σ}, Safe R Q m p → Safe R Q' m p := by
  induction p with
  | ret b => exact fun h m' hm => hQ _ _ (h m' hm)
  | act f k ih => exact fun h m' hm => ⟨(h m' hm).1, ih m' (h m' hm).2⟩

theorem Safe.bind (hR : Pre R) {Q : σ → β → Prop} {Q' : σ → γ → Prop} {g : β → Prog σ γ} {p : Prog σ β} :
    ∀ {m : σ}, Safe R Q m p → (∀ m' b, R m m' → Q m' b → Safe R Q' m' (g b)) → Safe R Q' m (p.bind g) := by
  induction p with
  | ret b => exact fun {m} h hg => hg m b (hR.refl m) (h m (hR.refl m))
  | act f k ih =>
    intro m h hg m' hm
    refine ⟨(h m' hm).1, ih m' (h m' hm).2 (fun n b hn hq => hg n b ?_ hq)⟩
    exact hR.trans _ _ _ hm (hR.trans _ _ _ (h m' hm).1 hn)

theorem Safe.atom {f : σ → σ × β} {m : σ}
    (h : ∀ m', R m m' → R m' (f m').1 ∧ ∀ n, R (f m').1 n → Q n (f m').2) : Safe R Q m (atom f) :=
  fun m' hm => ⟨(h m' hm).1, fun n hn => (h m' hm).2 n hn⟩

/-- All goroutines stay safe. -/
theorem run_safe (hR : Pre R) {Q : Nat → σ → Cry.R → Prop} :
    ∀ (sched : List Nat) (y : Sys σ), (∀ i, Safe R (Q i) y.ks (y.threads i)) →
      (∀ i, Safe R (Q i) (y.run sched).ks ((y.run sched).threads i)) ∧ R y.ks (y.run sched).ks := by
  intro sched
  induction sched with
  | nil => exact fun y h => ⟨h, hR.refl _⟩
  | cons i sched ih =>
    intro y h
    have hstep : (∀ j, Safe R (Q j) (y.step i).ks ((y.step i).threads j)) ∧ R y.ks (y.step i).ks := by
      simp only [Sys.step]
      cases ht : y.threads i with
      | ret b => exact ⟨h, hR.refl _⟩
      | act f k =>
        have hi := h i
        rw [ht] at hi
        obtain ⟨h1, h2⟩ := hi y.ks (hR.refl _)
        refine ⟨fun j => ?_, h1⟩
        by_cases hj : j = i
        · subst hj; simpa using h2
        · simp only [hj, if_false]
          exact (h j).mono hR h1
    obtain ⟨h1, h2⟩ := ih _ hstep.1
    exact ⟨h1, hR.trans _ _ _ hstep.2 h2⟩

theorem run_append (y : Sys σ) (a b : List Nat) : y.run (a ++ b) = (y.run a).run b := by
  simp [Sys.run, List.foldl_append]

/-- A goroutine that has not been scheduled has not begun. -/
theorem not_started : ∀ (sched : List Nat) (y : Sys σ) (j : Nat), j ∉ sched →
    (y.run sched).threads j = y.threads j := by
  intro sched
  induction sched with
  | nil => intros; rfl
  | cons i sched ih =>
    intro y j hj
    simp only [List.mem_cons, not_or] at hj
    show ((y.step i).run sched).threads j = _
    rw [ih _ _ hj.2]
    simp only [Sys.step]
    cases y.threads i with
    | ret => rfl
    | act => simp [hj.1]

/-! ## One subject's key -/

/-- What the proofs need of a key store with respect to one subject `s`, if nobody deletes it: `R` are the
changes its methods make, `has m k` says that later `Get` calls return `k`. -/
structure Holds (C : CStore σ) (s : Str) (R : σ → σ → Prop) (ok : σ → Prop) (has : σ → Str → Prop) : Prop where
  pre : Pre R
  okR : ∀ m m', ok m → R m m' → ok m'
  hasR : ∀ m m' k, ok m → has m k → R m m' → has m' k
  get : ∀ m x, Safe R (fun _ _ => True) m (C.get x)
  set : ∀ m x k, Safe R (fun _ _ => True) m (C.set x k)
  delete : ∀ m now x, x ≠ s → Safe R (fun _ _ => True) m (C.delete now x)
  got : ∀ m, ok m → Safe R (fun m' r => r.2 = none → has m' r.1) m (C.get s)
  wrote : ∀ m k, ok m → Safe R (fun m' e => e = none → has m' k) m (C.set s k)
  gets : ∀ m k, ok m → has m k → Safe R (fun _ r => r = (k, none)) m (C.get s)

variable {C : CStore σ} {s : Str} {ok : σ → Prop} {has : σ → Str → Prop} {enc : Encryptor}

theorem Holds.prog_safe (H : Holds C s R ok has) (c : Call) (hc : ∀ now, c ≠ .delete now s) (m : σ) :
    Safe R (fun _ _ => True) m (prog C enc c) := by
  have ret : ∀ {γ : Type} (m : σ) (b : γ), Safe R (fun _ _ => True) m (.ret b) := fun _ _ _ _ => trivial
  cases c with
  | encrypt x data raw tape =>
    refine Safe.bind H.pre (H.get m x) (fun m' r _ _ => ?_)
    split
    · exact ret _ _
    · refine Safe.bind H.pre (H.set m' x _) (fun m'' e _ _ => ?_)
      split <;> exact ret _ _
    · exact ret _ _
  | decrypt x cipher =>
    refine Safe.bind H.pre (H.get m x) (fun m' r _ _ => ?_)
    split <;> exact ret _ _
  | get x =>
    refine Safe.bind H.pre (H.get m x) (fun m' r _ _ => ?_)
    split <;> exact ret _ _
  | set x k => exact Safe.bind H.pre (H.set m x k) (fun m' r _ _ => ret _ _)
  | delete now x =>
    exact Safe.bind H.pre (H.delete m now x (fun h => hc now (by rw [h]))) (fun m' r _ _ => ret _ _)

/-- What a successful `Encrypt` tells about the key store. -/
theorem Holds.encrypt_safe (H : Holds C s R ok has) (m : σ) (hm : ok m) (data raw tape : Str) :
    Safe R (fun m' r => ∀ cipher, r = Cry.R.ok cipher → ok m' ∧ ∃ k, has m' k ∧ (enc.encrypt k data tape).1 = .ok cipher) m
      (encrypt C enc s data raw tape) := by
  have fin : ∀ (m : σ) (k : Str), ok m → has m k →
      Safe R (fun m' r => ∀ cipher, r = Cry.R.ok cipher → ok m' ∧ ∃ k, has m' k ∧ (enc.encrypt k data tape).1 = .ok cipher)
        m (.ret (enc.encrypt k data tape).1) :=
    fun m k h1 h2 m' hm' cipher h => ⟨H.okR _ _ h1 hm', k, H.hasR _ _ _ h1 h2 hm', h⟩
  refine Safe.bind H.pre (H.got m hm) (fun m' r hm' hr => ?_)
  split
  · rename_i h
    exact fin m' r.1 (H.okR _ _ hm hm') (hr h)
  · refine Safe.bind H.pre (H.wrote m' (b64enc raw) (H.okR _ _ hm hm')) (fun m'' e hm'' he => ?_)
    split
    · exact fin m'' _ (H.okR _ _ (H.okR _ _ hm hm') hm'') (he rfl)
    · intro n _ cipher h; cases h
  · intro n _ cipher h; cases h

theorem Holds.encrypt_later (H : Holds C s R ok has) (m : σ) (k : Str) (hm : ok m) (hk : has m k)
    (data raw tape : Str) :
    Safe R (fun _ r => r = (enc.encrypt k data tape).1) m (encrypt C enc s data raw tape) := by
  refine Safe.bind H.pre (H.gets m k hm hk) (fun m' r _ hr => ?_)
  subst hr
  exact fun _ _ => rfl

theorem Holds.decrypt_later (H : Holds C s R ok has) (m : σ) (k : Str) (hm : ok m) (hk : has m k)
    (cipher : Str) :
    Safe R (fun _ r => r = enc.decrypt k cipher) m (decrypt C enc s cipher) := by
  refine Safe.bind H.pre (H.gets m k hm hk) (fun m' r _ hr => ?_)
  subst hr
  exact fun _ _ => rfl

/-- After goroutine `i` has encrypted, the key it used is the one that all calls that begin later use. -/
theorem Holds.main (H : Holds C s R ok has) {m0 : σ} (h0 : ok m0) (calls : Nat → Call)
    (hc : ∀ n now, calls n ≠ .delete now s) (pre post : List Nat) (i : Nat) (data raw tape cipher : Str)
    (hi : calls i = .encrypt s data raw tape)
    (hf : ((Sys.init C enc m0 calls).run pre).Finished i (.ok cipher)) :
    ∃ k, (enc.encrypt k data tape).1 = .ok cipher ∧ ∀ j, j ∉ pre →
      (∀ data' raw' tape' r, calls j = .encrypt s data' raw' tape' →
        ((Sys.init C enc m0 calls).run (pre ++ post)).Finished j r → r = (enc.encrypt k data' tape').1) ∧
      (∀ cipher' r, calls j = .decrypt s cipher' →
        ((Sys.init C enc m0 calls).run (pre ++ post)).Finished j r → r = enc.decrypt k cipher') := by
  have hall : ∀ n, Safe R (fun _ _ => True) m0 (prog C enc (calls n)) :=
    fun n => H.prog_safe (calls n) (hc n) m0
  -- the encryption
  have h1 := run_safe H.pre (Q := fun n m' r => n = i → ∀ cipher, r = Cry.R.ok cipher →
      ok m' ∧ ∃ k, has m' k ∧ (enc.encrypt k data tape).1 = .ok cipher) pre (Sys.init C enc m0 calls) (by
    intro n
    by_cases hn : n = i
    · subst hn
      show Safe _ _ m0 (prog C enc (calls n))
      rw [hi]
      exact (H.encrypt_safe m0 h0 data raw tape).weaken H.pre (fun _ _ h _ => h)
    · exact (hall n).weaken H.pre (fun _ _ _ h => absurd h hn))
  have hfi := h1.1 i
  rw [show ((Sys.init C enc m0 calls).run pre).threads i = .ret (.ok cipher) from hf] at hfi
  obtain ⟨hok, k, hk, hek⟩ := hfi _ (H.pre.refl _) rfl cipher rfl
  refine ⟨k, hek, fun j hj => ?_⟩
  have hallPre : ∀ n, Safe R (fun _ _ => True) ((Sys.init C enc m0 calls).run pre).ks
      (((Sys.init C enc m0 calls).run pre).threads n) :=
    (run_safe H.pre (Q := fun _ _ _ => True) pre (Sys.init C enc m0 calls) hall).1
  have hstart : ((Sys.init C enc m0 calls).run pre).threads j = prog C enc (calls j) := not_started _ _ _ hj
  constructor
  · intro data' raw' tape' r hcj hfj
    have h2 := run_safe H.pre (Q := fun n _ q => n = j → q = (enc.encrypt k data' tape').1) post _ (by
      intro n
      by_cases hn : n = j
      · subst hn
        rw [hstart, hcj]
        exact (H.encrypt_later _ k hok hk data' raw' tape').weaken H.pre (fun _ _ h _ => h)
      · exact (hallPre n).weaken H.pre (fun _ _ _ h => absurd h hn))
    have := h2.1 j
    rw [← run_append, show ((Sys.init C enc m0 calls).run (pre ++ post)).threads j = .ret r from hfj] at this
    exact this _ (H.pre.refl _) rfl
  · intro cipher' r hcj hfj
    have h2 := run_safe H.pre (Q := fun n _ q => n = j → q = enc.decrypt k cipher') post _ (by
      intro n
      by_cases hn : n = j
      · subst hn
        rw [hstart, hcj]
        exact (H.decrypt_later _ k hok hk cipher').weaken H.pre (fun _ _ h _ => h)
      · exact (hallPre n).weaken H.pre (fun _ _ _ h => absurd h hn))
    have := h2.1 j
    rw [← run_append, show ((Sys.init C enc m0 calls).run (pre ++ post)).threads j = .ret r from hfj] at this
    exact this _ (H.pre.refl _) rfl

/-! ## The stores -/

/-- Stores whose methods are atomic. -/
theorem atomic_holds {K : Store σ} {inv : σ → Prop} {hs : σ → Str → Str → Prop} (hK : Keeps K inv hs) (s : Str) :
    Holds (atomic K) s (fun m m' => (inv m → inv m') ∧ ∀ k, inv m → hs m s k → hs m' s k) inv
      (fun m k => hs m s k) := by
  have pre : Pre (fun m m' => (inv m → inv m') ∧ ∀ k, inv m → hs m s k → hs m' s k) :=
    ⟨fun _ => ⟨id, fun _ _ h => h⟩, fun a b c h1 h2 =>
      ⟨fun h => h2.1 (h1.1 h), fun k hi h => h2.2 k (h1.1 hi) (h1.2 k hi h)⟩⟩
  have call : ∀ (m : σ) (c : Key.Call), (∀ now, c ≠ .delete now s) →
      (inv m → inv (K.call m c).1) ∧ ∀ k, inv m → hs m s k → hs (K.call m c).1 s k :=
    fun m c hc => ⟨hK.stays m c, fun k hi h => hK.call m s k c hi h hc⟩
  refine ⟨pre, fun m m' h h' => h'.1 h, fun m m' k h1 h2 h' => h'.2 k h1 h2, ?_, ?_, ?_, ?_, ?_, ?_⟩
  · exact fun m x => Safe.atom (fun m' _ => ⟨call m' (.get x) (by simp), fun _ _ => trivial⟩)
  · exact fun m x k => Safe.atom (fun m' _ => ⟨call m' (.set x k) (by simp), fun _ _ => trivial⟩)
  · refine fun m now x hx => Safe.atom (fun m' _ => ⟨call m' (.delete now x) ?_, fun _ _ => trivial⟩)
    intro n h
    injection h with _ h
    exact hx h
  · refine fun m hm => Safe.atom (fun m' hm' => ⟨call m' (.get s) (by simp), fun n hn h => ?_⟩)
    have hi := hm'.1 hm
    have he : (K.get m' s).2 = ((K.get m' s).2.1, none) := Prod.ext rfl h
    exact hn.2 _ ((call m' (.get s) (by simp)).1 hi) (hK.got m' s _ hi he)
  · refine fun m k hm => Safe.atom (fun m' hm' => ⟨call m' (.set s k) (by simp), fun n hn h => ?_⟩)
    have hi := hm'.1 hm
    exact hn.2 _ ((call m' (.set s k) (by simp)).1 hi) (hK.set m' s k hi h)
  · refine fun m k hm hk => Safe.atom (fun m' hm' => ⟨call m' (.get s) (by simp), fun n hn => ?_⟩)
    exact hK.get m' s k (hm'.1 hm) (hm'.2 k hm hk)

/-- The changes that calls through the cache make, as far as subject `s` is concerned. -/
def CacheR (inv : τ → Prop) (hs : τ → Str → Str → Prop) (s : Str) (c c' : Mem × τ) : Prop :=
  (inv c.2 → inv c'.2) ∧ (∀ k, inv c.2 → hs c.2 s k → hs c'.2 s k) ∧
  (∀ k, c.1.bySubject s = some k → k ≠ [] → c'.1.bySubject s = some k)

theorem cacheR_pre (inv : τ → Prop) (hs : τ → Str → Str → Prop) (s : Str) : Pre (CacheR inv hs s) :=
  ⟨fun _ => ⟨id, fun _ _ h => h, fun _ h _ => h⟩, fun a b c h1 h2 =>
    ⟨fun h => h2.1 (h1.1 h), fun k hi h => h2.2.1 k (h1.1 hi) (h1.2.1 k hi h),
      fun k h hk => h2.2.2 k (h1.2.2 k h hk) hk⟩⟩

theorem Safe.onFst_atom {R : σ × τ → σ × τ → Prop} {Q : σ × τ → β → Prop} {f : σ → σ × β} {c : σ × τ}
    (h : ∀ c', R c c' → R c' ((f c'.1).1, c'.2) ∧ ∀ n, R ((f c'.1).1, c'.2) n → Q n (f c'.1).2) :
    Safe R Q c (Race.atom f).onFst :=
  fun c' hc => ⟨(h c' hc).1, fun n hn => (h c' hc).2 n hn⟩

theorem Safe.onSnd_atom {R : σ × τ → σ × τ → Prop} {Q : σ × τ → β → Prop} {f : τ → τ × β} {c : σ × τ}
    (h : ∀ c', R c c' → R c' (c'.1, (f c'.2).1) ∧ ∀ n, R (c'.1, (f c'.2).1) n → Q n (f c'.2).2) :
    Safe R Q c (Race.atom f).onSnd :=
  fun c' hc => ⟨(h c' hc).1, fun n hn => (h c' hc).2 n hn⟩

/-- An in-memory cache in front of a store whose methods are atomic. -/
theorem cache_holds {K : Store τ} {inv : τ → Prop} {hs : τ → Str → Str → Prop} (hK : Keeps K inv hs) (s : Str) :
    Holds (cacheC (atomic mem) (atomic K)) s (CacheR inv hs s) (fun c => inv c.2)
      (fun c k => c.1.bySubject s = some k ∧ k ≠ []) := by
  have pre := cacheR_pre inv hs s
  have fst : ∀ (c : Mem × τ) (x : Key.Call), (∀ now, x ≠ .delete now s) →
      CacheR inv hs s c ((mem.call c.1 x).1, c.2) :=
    fun c x hx => ⟨id, fun _ _ h => h, fun k h hk => (mem_keeps.call c.1 s k x trivial ⟨h, hk⟩ hx).1⟩
  have snd : ∀ (c : Mem × τ) (x : Key.Call), (∀ now, x ≠ .delete now s) →
      CacheR inv hs s c (c.1, (K.call c.2 x).1) :=
    fun c x hx => ⟨hK.stays _ x, fun k hi h => hK.call c.2 s k x hi h hx, fun k h _ => h⟩
  have fget : ∀ (c : Mem × τ) (x : Str), Safe (CacheR inv hs s) (fun _ _ => True) c
      (((atomic mem).get x).onFst : Prog (Mem × τ) _) :=
    fun c x => Safe.onFst_atom (fun c' _ => ⟨fst c' (.get x) (by simp), fun _ _ => trivial⟩)
  have sget : ∀ (c : Mem × τ) (x : Str), Safe (CacheR inv hs s) (fun _ _ => True) c
      (((atomic K).get x).onSnd : Prog (Mem × τ) _) :=
    fun c x => Safe.onSnd_atom (fun c' _ => ⟨snd c' (.get x) (by simp), fun _ _ => trivial⟩)
  have fset : ∀ (c : Mem × τ) (x k : Str), Safe (CacheR inv hs s) (fun _ _ => True) c
      (((atomic mem).set x k).onFst : Prog (Mem × τ) _) :=
    fun c x k => Safe.onFst_atom (fun c' _ => ⟨fst c' (.set x k) (by simp), fun _ _ => trivial⟩)
  have fsetS : ∀ (c : Mem × τ) (k : Str), Safe (CacheR inv hs s)
      (fun n e => e = none → n.1.bySubject s = some k ∧ k ≠ []) c
      (((atomic mem).set s k).onFst : Prog (Mem × τ) _) := by
    intro c k
    refine Safe.onFst_atom (fun c' _ => ⟨fst c' (.set s k) (by simp), fun n hn h => ?_⟩)
    have := mem_keeps.set c'.1 s k trivial h
    exact ⟨hn.2.2 k this.1 this.2, this.2⟩
  have ret : ∀ {γ : Type} (c : Mem × τ) (b : γ), Safe (CacheR inv hs s) (fun _ _ => True) c (.ret b) :=
    fun _ _ _ _ => trivial
  refine ⟨pre, fun m m' h h' => h'.1 h, fun m m' k _ h h' => ⟨h'.2.2 k h.1 h.2, h.2⟩, ?_, ?_, ?_, ?_, ?_, ?_⟩
  · intro c x
    refine Safe.bind pre (fget c x) (fun c1 r _ _ => ?_)
    split
    · exact ret _ _
    · refine Safe.bind pre (sget c1 x) (fun c2 q _ _ => ?_)
      split
      · exact ret _ _
      · exact Safe.bind pre (fset c2 x _) (fun _ _ _ _ => ret _ _)
  · intro c x k
    refine Safe.bind pre (Q := fun _ _ => True)
      (Safe.onSnd_atom (fun c' _ => ⟨snd c' (.set x k) (by simp), fun _ _ => trivial⟩)) (fun c1 r _ _ => ?_)
    split
    · exact ret _ _
    · exact fset c1 x k
  · intro c now x hx
    have hne : ∀ n, Key.Call.delete now x ≠ .delete n s := by
      intro n h; injection h with _ h; exact hx h
    refine Safe.bind pre (Q := fun _ _ => True)
      (Safe.onSnd_atom (fun c' _ => ⟨snd c' (.delete now x) hne, fun _ _ => trivial⟩)) (fun c1 r _ _ => ?_)
    split
    · exact ret _ _
    · exact Safe.onFst_atom (fun c' _ => ⟨fst c' (.delete now x) hne, fun _ _ => trivial⟩)
  · intro c hc
    refine Safe.bind pre (Q := fun n r => r.2 = none → n.1.bySubject s = some r.1 ∧ r.1 ≠ [])
      (Safe.onFst_atom (fun c' _ => ⟨fst c' (.get s) (by simp), fun n hn h => ?_⟩)) (fun c1 r _ hr => ?_)
    · have he : (mem.get c'.1 s).2 = ((mem.get c'.1 s).2.1, none) := Prod.ext rfl h
      have := mem_keeps.got c'.1 s _ trivial he
      exact ⟨hn.2.2 _ this.1 this.2, this.2⟩
    · split
      · rename_i h
        exact fun n hn _ => ⟨hn.2.2 _ (hr h).1 (hr h).2, (hr h).2⟩
      · refine Safe.bind pre (sget c1 s) (fun c2 q _ _ => ?_)
        split
        · intro n _ h; cases h
        · refine Safe.bind pre (fsetS c2 q.1) (fun c3 e _ he => ?_)
          intro n hn h
          exact ⟨hn.2.2 _ (he h).1 (he h).2, (he h).2⟩
  · intro c k hc
    refine Safe.bind pre (Q := fun _ _ => True)
      (Safe.onSnd_atom (fun c' _ => ⟨snd c' (.set s k) (by simp), fun _ _ => trivial⟩)) (fun c1 r _ _ => ?_)
    split
    · intro n _ h; cases h
    · exact fsetS c1 k
  · intro c k hc hk
    refine Safe.bind pre (Q := fun _ r => r = (k, none))
      (Safe.onFst_atom (fun c' hc' => ⟨fst c' (.get s) (by simp), fun n hn => ?_⟩)) (fun c1 r _ hr => ?_)
    · exact mem_keeps.get c'.1 s k trivial ⟨hc'.2.2 k hk.1 hk.2, hk.2⟩
    · subst hr
      exact fun _ _ => rfl

/-! ## Deleted subjects -/

/-- What the proofs need of a key store with respect to a deleted subject `s`. -/
structure Buries (C : CStore σ) (s : Str) (R : σ → σ → Prop) (dead : σ → Prop) : Prop where
  pre : Pre R
  deadR : ∀ m m', dead m → R m m' → dead m'
  get : ∀ m x, Safe R (fun _ _ => True) m (C.get x)
  set : ∀ m x k, Safe R (fun _ _ => True) m (C.set x k)
  delete : ∀ m now x, 0 < now → Safe R (fun _ _ => True) m (C.delete now x)
  deleted : ∀ m now, 0 < now → Safe R (fun m' e => e = none → dead m') m (C.delete now s)
  gets : ∀ m, dead m → Safe R (fun _ r => r = ([], some .wasDeleted)) m (C.get s)
  sets : ∀ m k, dead m → Safe R (fun _ e => e ≠ none) m (C.set s k)

/-- Clocks are past 1970. -/
def TimedC : Call → Prop
  | .delete now _ => 0 < now
  | _ => True

variable {dead : σ → Prop}

theorem Buries.prog_safe (H : Buries C s R dead) (c : Call) (hc : TimedC c) (m : σ) :
    Safe R (fun _ _ => True) m (prog C enc c) := by
  have ret : ∀ {γ : Type} (m : σ) (b : γ), Safe R (fun _ _ => True) m (.ret b) := fun _ _ _ _ => trivial
  cases c with
  | encrypt x data raw tape =>
    refine Safe.bind H.pre (H.get m x) (fun m' r _ _ => ?_)
    split
    · exact ret _ _
    · refine Safe.bind H.pre (H.set m' x _) (fun m'' e _ _ => ?_)
      split <;> exact ret _ _
    · exact ret _ _
  | decrypt x cipher =>
    refine Safe.bind H.pre (H.get m x) (fun m' r _ _ => ?_)
    split <;> exact ret _ _
  | get x =>
    refine Safe.bind H.pre (H.get m x) (fun m' r _ _ => ?_)
    split <;> exact ret _ _
  | set x k => exact Safe.bind H.pre (H.set m x k) (fun m' r _ _ => ret _ _)
  | delete now x => exact Safe.bind H.pre (H.delete m now x hc) (fun m' r _ _ => ret _ _)

/-- What every call for a deleted subject returns. -/
theorem Buries.call_dead (H : Buries C s R dead) (m : σ) (hm : dead m) (c : Call)
    (hc : (∃ data raw tape, c = .encrypt s data raw tape) ∨ (∃ cipher, c = .decrypt s cipher) ∨ c = .get s) :
    Safe R (fun _ r => r = .err .wasDeleted) m (prog C enc c) := by
  rcases hc with ⟨data, raw, tape, rfl⟩ | ⟨cipher, rfl⟩ | rfl <;>
  · refine Safe.bind H.pre (H.gets m hm) (fun m' r _ hr => ?_)
    subst hr
    exact fun _ _ => rfl

theorem Buries.main (H : Buries C s R dead) {m0 : σ} (calls : Nat → Call) (hc : ∀ n, TimedC (calls n))
    (pre post : List Nat) (i now : Nat) (hi : calls i = .delete now s)
    (hf : ((Sys.init C enc m0 calls).run pre).Finished i (.ok []))
    (j : Nat) (hj : j ∉ pre) (r : Cry.R) (hfj : ((Sys.init C enc m0 calls).run (pre ++ post)).Finished j r) :
    (((∃ data raw tape, calls j = .encrypt s data raw tape) ∨ (∃ cipher, calls j = .decrypt s cipher) ∨
      calls j = .get s) → r = .err .wasDeleted) ∧
    (∀ k, calls j = .set s k → ∃ e, r = .err e) := by
  have hall : ∀ n, Safe R (fun _ _ => True) m0 (prog C enc (calls n)) :=
    fun n => H.prog_safe (calls n) (hc n) m0
  have h1 := run_safe H.pre (Q := fun n m' (r : Cry.R) => n = i → r = .ok [] → dead m') pre (Sys.init C enc m0 calls) (by
    intro n
    by_cases hn : n = i
    · subst hn
      show Safe _ _ m0 (prog C enc (calls n))
      have ht := hc n
      rw [hi] at ht ⊢
      refine Safe.bind H.pre (H.deleted m0 now ht) (fun m' e _ he => ?_)
      intro n' hn' _ hr
      cases e with
      | none => exact H.deadR _ _ (he rfl) hn'
      | some e => cases hr
    · exact (hall n).weaken H.pre (fun _ _ _ h => absurd h hn))
  have hfi := h1.1 i
  rw [show ((Sys.init C enc m0 calls).run pre).threads i = .ret (.ok []) from hf] at hfi
  have hdead : dead ((Sys.init C enc m0 calls).run pre).ks := hfi _ (H.pre.refl _) rfl rfl
  have hallPre : ∀ n, Safe R (fun _ _ => True) ((Sys.init C enc m0 calls).run pre).ks
      (((Sys.init C enc m0 calls).run pre).threads n) :=
    (run_safe H.pre (Q := fun _ _ _ => True) pre (Sys.init C enc m0 calls) hall).1
  have hstart : ((Sys.init C enc m0 calls).run pre).threads j = prog C enc (calls j) := not_started _ _ _ hj
  constructor
  · intro hcj
    have h2 := run_safe H.pre (Q := fun n _ q => n = j → q = Cry.R.err .wasDeleted) post _ (by
      intro n
      by_cases hn : n = j
      · subst hn
        rw [hstart]
        exact (H.call_dead _ hdead _ hcj).weaken H.pre (fun _ _ h _ => h)
      · exact (hallPre n).weaken H.pre (fun _ _ _ h => absurd h hn))
    have := h2.1 j
    rw [← run_append, show ((Sys.init C enc m0 calls).run (pre ++ post)).threads j = .ret r from hfj] at this
    exact this _ (H.pre.refl _) rfl
  · intro k hcj
    have h2 := run_safe H.pre (Q := fun n _ (q : Cry.R) => n = j → ∃ e, q = .err e) post _ (by
      intro n
      by_cases hn : n = j
      · subst hn
        rw [hstart, hcj]
        refine Safe.bind H.pre (H.sets _ k hdead) (fun m' e _ he => ?_)
        intro _ _ _
        cases e with
        | none => exact absurd rfl he
        | some e => exact ⟨e, rfl⟩
      · exact (hallPre n).weaken H.pre (fun _ _ _ h => absurd h hn))
    have := h2.1 j
    rw [← run_append, show ((Sys.init C enc m0 calls).run (pre ++ post)).threads j = .ret r from hfj] at this
    exact this _ (H.pre.refl _) rfl

theorem atomic_buries {K : Store σ} {dead : σ → Str → Prop} (S : Sticky K dead) (s : Str) :
    Buries (atomic K) s (fun m m' => dead m s → dead m' s) (dead · s) := by
  refine ⟨⟨fun _ h => h, fun _ _ _ h1 h2 h => h2 (h1 h)⟩, fun m m' h h' => h' h, ?_, ?_, ?_, ?_, ?_, ?_⟩
  · exact fun m x => Safe.atom (fun m' _ => ⟨S.call m' (.get x) s trivial, fun _ _ => trivial⟩)
  · exact fun m x k => Safe.atom (fun m' _ => ⟨S.call m' (.set x k) s trivial, fun _ _ => trivial⟩)
  · exact fun m now x hn => Safe.atom (fun m' _ => ⟨S.call m' (.delete now x) s hn, fun _ _ => trivial⟩)
  · exact fun m now hn => Safe.atom (fun m' _ => ⟨S.call m' (.delete now s) s hn,
      fun n hn' h => hn' (S.delete m' now s hn h)⟩)
  · exact fun m hm => Safe.atom (fun m' hm' => ⟨S.call m' (.get s) s trivial, fun n _ => S.get m' s (hm' hm)⟩)
  · exact fun m k hm => Safe.atom (fun m' hm' => ⟨S.call m' (.set s k) s trivial, fun n _ => S.set m' s k (hm' hm)⟩)

theorem cache_buries {K : Store σ} {L : Store τ} {d : σ → Str → Prop} {d' : τ → Str → Prop}
    (S : Sticky K d) (T : Sticky L d') (s : Str) :
    Buries (cacheC (atomic K) (atomic L)) s (fun c c' => (d c.1 s → d c'.1 s) ∧ (d' c.2 s → d' c'.2 s))
      (fun c => d c.1 s ∧ d' c.2 s) := by
  have pre : Pre (fun c c' : σ × τ => (d c.1 s → d c'.1 s) ∧ (d' c.2 s → d' c'.2 s)) :=
    ⟨fun _ => ⟨id, id⟩, fun _ _ _ h1 h2 => ⟨fun h => h2.1 (h1.1 h), fun h => h2.2 (h1.2 h)⟩⟩
  have ret : ∀ {γ : Type} (c : σ × τ) (b : γ),
      Safe (fun c c' : σ × τ => (d c.1 s → d c'.1 s) ∧ (d' c.2 s → d' c'.2 s)) (fun _ _ => True) c (.ret b) :=
    fun _ _ _ _ => trivial
  have fst : ∀ (c : σ × τ) (x : Key.Call), Timed x →
      (d c.1 s → d ((K.call c.1 x).1) s) ∧ (d' c.2 s → d' c.2 s) := fun c x hx => ⟨S.call c.1 x s hx, id⟩
  have snd : ∀ (c : σ × τ) (x : Key.Call), Timed x →
      (d c.1 s → d c.1 s) ∧ (d' c.2 s → d' ((L.call c.2 x).1) s) := fun c x hx => ⟨id, T.call c.2 x s hx⟩
  refine ⟨pre, fun m m' h h' => ⟨h'.1 h.1, h'.2 h.2⟩, ?_, ?_, ?_, ?_, ?_, ?_⟩
  · intro c x
    refine Safe.bind pre (Q := fun _ _ => True)
      (Safe.onFst_atom (fun c' _ => ⟨fst c' (.get x) trivial, fun _ _ => trivial⟩)) (fun c1 r _ _ => ?_)
    split
    · exact ret _ _
    · refine Safe.bind pre (Q := fun _ _ => True)
        (Safe.onSnd_atom (fun c' _ => ⟨snd c' (.get x) trivial, fun _ _ => trivial⟩)) (fun c2 q _ _ => ?_)
      split
      · exact ret _ _
      · exact Safe.bind pre (Q := fun _ _ => True)
          (Safe.onFst_atom (fun c' _ => ⟨fst c' (.set x _) trivial, fun _ _ => trivial⟩)) (fun _ _ _ _ => ret _ _)
  · intro c x k
    refine Safe.bind pre (Q := fun _ _ => True)
      (Safe.onSnd_atom (fun c' _ => ⟨snd c' (.set x k) trivial, fun _ _ => trivial⟩)) (fun c1 r _ _ => ?_)
    split
    · exact ret _ _
    · exact Safe.onFst_atom (fun c' _ => ⟨fst c' (.set x k) trivial, fun _ _ => trivial⟩)
  · intro c now x hn
    refine Safe.bind pre (Q := fun _ _ => True)
      (Safe.onSnd_atom (fun c' _ => ⟨snd c' (.delete now x) hn, fun _ _ => trivial⟩)) (fun c1 r _ _ => ?_)
    split
    · exact ret _ _
    · exact Safe.onFst_atom (fun c' _ => ⟨fst c' (.delete now x) hn, fun _ _ => trivial⟩)
  · intro c now hn
    refine Safe.bind pre (Q := fun n e => e = none → d' n.2 s)
      (Safe.onSnd_atom (fun c' _ => ⟨snd c' (.delete now s) hn, fun n hn' h => hn'.2 (T.delete c'.2 now s hn h)⟩))
      (fun c1 r _ hr => ?_)
    split
    · intro n _ h; cases h
    · refine Safe.onFst_atom (fun c' hc' => ⟨fst c' (.delete now s) hn, fun n hn' h => ?_⟩)
      exact ⟨hn'.1 (S.delete c'.1 now s hn h), hn'.2 (hc'.2 (hr rfl))⟩
  · intro c hc
    refine Safe.bind pre (Q := fun _ r => r = ([], some KErr.wasDeleted))
      (Safe.onFst_atom (fun c' hc' => ⟨fst c' (.get s) trivial, fun n _ => S.get c'.1 s (hc'.1 hc.1)⟩))
      (fun c1 r h1 hr => ?_)
    subst hr
    refine Safe.bind pre (Q := fun _ r => r = ([], some KErr.wasDeleted))
      (Safe.onSnd_atom (fun c' hc' => ⟨snd c' (.get s) trivial, fun n _ => T.get c'.2 s (hc'.2 (h1.2 hc.2))⟩))
      (fun c2 q _ hq => ?_)
    subst hq
    exact fun _ _ => rfl
  · intro c k hc
    refine Safe.bind pre (Q := fun _ e => e ≠ none)
      (Safe.onSnd_atom (fun c' hc' => ⟨snd c' (.set s k) trivial, fun n _ => T.set c'.2 s k (hc'.2 hc.2)⟩))
      (fun c1 e _ he => ?_)
    cases e with
    | none => exact absurd rfl he
    | some e => intro n _ h; cases h

end RangeDB.Race

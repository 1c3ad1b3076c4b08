import Verif.Thm.Lock

/-!
# Using the store from inside the loop that reads it (C86)

The goroutine behind an iterator of the in-memory or the LevelDB store holds the store's read lock until it has
handed over its last record (provider/inmemorystore/inmemory_store.go:64-160,
provider/leveldbstore/leveldb_store.go:71-170; `Model/Lock`). A consumer that calls the store before it has
received the last record, for instance the callback of a subscription that is catching up
(pkg/recordsubscriber/record_subscriber.go:125-139), waits for that lock and does not receive meanwhile.
-/

namespace RangeDB.Lock

variable {σ ρ : Type}

/-- The consumer of reading call `c` receives nothing and does not cancel its context: it is busy. -/
def Busy (c : Nat) (ls : List (Label σ ρ)) : Prop := (∀ i, .emit c i ∉ ls) ∧ .cancel c ∉ ls

/-- A consumer starts a read `q` and receives `k` records. -/
def received (q : σ → List ρ × Bool) (k : Nat) : List (Label σ ρ) :=
  [.newCall [q], .rlock 0] ++ List.replicate k (.emit 0 0)

/-- The full claim of **C86** for a store: a consumer that has received `k` records of a read that meets no
error and then saves (`ops`) gets its save done, while it receives nothing. -/
def C86_full (x : σ) : Prop :=
  ∀ (q : σ → List ρ × Bool) (ops : Writes σ) (k : Nat), (q x).2 = false → 0 < k → k ≤ (q x).1.length →
    ∀ s, exec (init x) (received q k ++ [.newWriter ops, .announce 0]) = some s →
      ∃ ls s', Busy 0 ls ∧ exec s ls = some s' ∧ s'.phase = .free ∧
        s'.content = ops.foldl (fun x f => f x) x

/-- The state after `k` records. -/
def atRecord (x : σ) (q : σ → List ρ × Bool) (k : Nat) : State σ ρ :=
  ⟨x, .free, [], [⟨[], false, [⟨q, k, (q x).1.take k, true, false, x⟩]⟩]⟩

theorem exec_emits (x : σ) (q : σ → List ρ × Bool) : ∀ (k p : Nat), p + k ≤ (q x).1.length →
    exec (atRecord x q p) (List.replicate k (.emit 0 0)) = some (atRecord x q (p + k)) := by
  intro k
  induction k with
  | zero => intro p _; rfl
  | succ k ih =>
    intro p hp
    have hlt : p < (q x).1.length := by omega
    have hstep : step (atRecord x q p) (.emit 0 0) = some (atRecord x q (p + 1)) := by
      simp only [step, atRecord, List.getElem?_cons_zero, List.isEmpty_nil, and_self, if_true,
        List.getElem?_eq_getElem hlt, State.setCall, Call.setIt, List.set_cons_zero]
      rw [List.take_add_one, List.getElem?_eq_getElem hlt]
      rfl
    rw [List.replicate_succ, exec, hstep]
    simp only
    rw [ih (p + 1) (by omega)]
    congr 2
    omega

theorem exec_append_eq (a b : List (Label σ ρ)) : ∀ (s : State σ ρ),
    exec s (a ++ b) = (exec s a).bind (fun s' => exec s' b) := by
  induction a with
  | nil => intro s; rfl
  | cons l a ih =>
    intro s
    simp only [List.cons_append, exec]
    cases step s l with
    | none => rfl
    | some s1 => exact ih s1

theorem exec_received (x : σ) (q : σ → List ρ × Bool) (k : Nat) (hk : k ≤ (q x).1.length) :
    exec (init x) (received q k) = some (atRecord x q k) := by
  rw [received, exec_append_eq]
  show (exec (atRecord x q 0) (List.replicate k (.emit 0 0))) = _
  rw [exec_emits x q k 0 (by omega), Nat.zero_add]

/-- The invariant: the consumer's write is announced, its own iterator keeps the lock, and no other reading call
has got the lock. -/
def Wedged (ops : Writes σ) (x : σ) (s : State σ ρ) : Prop :=
  s.content = x ∧ s.phase = .announced ops ∧
  (∃ w it, s.calls[0]? = some ⟨[], w, [it]⟩ ∧ it.isOpen = true ∧ it.pos < (it.query x).1.length) ∧
  ∀ c call, c ≠ 0 → s.calls[c]? = some call → call.its = []

theorem wedged_step {ops : Writes σ} {x : σ} {s s' : State σ ρ} (h : Wedged ops x s) (l : Label σ ρ)
    (hl : (∀ i, l ≠ .emit 0 i) ∧ l ≠ .cancel 0) (hs : step s l = some s') : Wedged ops x s' := by
  obtain ⟨hx, hp, ⟨w, it, hc, ho, hr⟩, hother⟩ := h
  have hlt : 0 < s.calls.length := (List.getElem?_eq_some_iff.mp hc).1
  have hheld : s.held = true := by
    unfold State.held
    rw [List.any_eq_true]
    exact ⟨_, List.mem_of_getElem? hc, by simp [ho]⟩
  have hset : ∀ (c : Nat) (y : Call σ ρ), c ≠ 0 → y.its = [] → Wedged ops x (s.setCall c y) := by
    intro c y hc0 hy
    refine ⟨hx, hp, ⟨w, it, ?_, ho, hr⟩, ?_⟩
    · simp only [State.setCall]
      rw [List.getElem?_set_ne (by omega)]
      exact hc
    · intro c' call hc' hcall
      simp only [State.setCall] at hcall
      rcases getElem?_set_cases hcall with ⟨_, rfl, _⟩ | h
      · exact hy
      · exact hother c' call hc' h
  cases l with
  | newWriter o =>
    simp only [step, Option.some.injEq] at hs
    subst hs
    exact ⟨hx, hp, ⟨w, it, hc, ho, hr⟩, hother⟩
  | newCall qs =>
    simp only [step, Option.some.injEq] at hs
    subst hs
    refine ⟨hx, hp, ⟨w, it, ?_, ho, hr⟩, ?_⟩
    · simp only
      rw [List.getElem?_append_left hlt]
      exact hc
    · intro c call hc0 hcall
      simp only at hcall
      by_cases hlen : c < s.calls.length
      · rw [List.getElem?_append_left hlen] at hcall
        exact hother c call hc0 hcall
      · rw [List.getElem?_append_right (by omega)] at hcall
        have := List.mem_of_getElem? hcall
        simp only [List.mem_singleton] at this
        rw [this]
  | announce i =>
    simp only [step, hp] at hs
    cases hs
  | activate =>
    simp only [step, hp, hheld, if_true] at hs
    cases hs
  | write =>
    simp only [step, hp] at hs
    cases hs
  | unlock =>
    simp only [step, hp] at hs
    cases hs
  | rlock c =>
    simp only [step] at hs
    cases hcc : s.calls[c]? with
    | none => simp [hcc] at hs
    | some call =>
      simp only [hcc, hp] at hs
      by_cases hb : call.todo.isEmpty ∨ call.waiting
      · rw [if_pos hb] at hs; cases hs
      · rw [if_neg hb] at hs
        obtain rfl := Option.some.inj hs
        have hc0 : c ≠ 0 := by
          rintro rfl
          rw [hc] at hcc
          obtain rfl := Option.some.inj hcc
          exact hb (Or.inl rfl)
        exact hset c _ hc0 (hother c call hc0 hcc)
  | emit c i =>
    have hc0 : c ≠ 0 := by rintro rfl; exact hl.1 i rfl
    simp only [step] at hs
    cases hcc : s.calls[c]? with
    | none => simp [hcc] at hs
    | some call => simp [hcc, hother c call hc0 hcc] at hs
  | close c i =>
    simp only [step] at hs
    cases hcc : s.calls[c]? with
    | none => simp [hcc] at hs
    | some call =>
      by_cases hc0 : c = 0
      · subst hc0
        rw [hc] at hcc
        obtain rfl := Option.some.inj hcc
        simp only [hc] at hs
        cases i with
        | zero =>
          simp only [List.getElem?_cons_zero, hx] at hs
          rw [if_neg (by rintro ⟨_, h, _⟩; omega)] at hs
          cases hs
        | succ i => simp at hs
      · simp [hcc, hother c call hc0 hcc] at hs
  | cancel c =>
    have hc0 : c ≠ 0 := by rintro rfl; exact hl.2 rfl
    simp only [step] at hs
    cases hcc : s.calls[c]? with
    | none => simp [hcc] at hs
    | some call =>
      simp only [hcc, Option.some.injEq] at hs
      subst hs
      exact hset c _ hc0 (by simp [hother c call hc0 hcc])

theorem wedged_exec {ops : Writes σ} {x : σ} (ls : List (Label σ ρ)) : ∀ {s s' : State σ ρ},
    Wedged ops x s → Busy 0 ls → exec s ls = some s' → Wedged ops x s' := by
  induction ls with
  | nil => intro s s' h _ hs; simp only [exec, Option.some.injEq] at hs; subst hs; exact h
  | cons l ls ih =>
    intro s s' h hb hs
    simp only [exec] at hs
    cases hst : step s l with
    | none => simp [hst] at hs
    | some s1 =>
      simp only [hst] at hs
      refine ih (wedged_step h l ⟨fun i hi => hb.1 i (by simp [hi]), fun hc => hb.2 (by simp [hc])⟩ hst)
        ⟨fun i hi => hb.1 i (List.mem_cons_of_mem _ hi), fun hc => hb.2 (List.mem_cons_of_mem _ hc)⟩ hs

/-- **C86 fails for saving**, for every store, read and save: the consumer has received `k` of the records, at
least one more is to come, and it saves. However the goroutines go on, the save never begins, nothing is ever
written, and no other read that begins later gets a record. -/
theorem C86_false_save (x : σ) (q : σ → List ρ × Bool) (ops : Writes σ) (k : Nat) (hk : k < (q x).1.length) :
    ∃ s, exec (init x) (received q k ++ [.newWriter ops, .announce 0]) = some s ∧
      ∀ ls s', Busy 0 ls → exec s ls = some s' →
        s'.content = x ∧ s'.phase = .announced ops ∧
        ∀ c call, c ≠ 0 → s'.calls[c]? = some call → call.its = [] := by
  refine ⟨_, by rw [exec_append_eq, exec_received x q k (by omega)]; rfl, ?_⟩
  intro ls s' hb hs
  have := wedged_exec (ops := ops) (x := x) ls ⟨rfl, rfl, ⟨false, _, rfl, rfl, hk⟩, by
    intro c call hc0 hcall
    cases c with
    | zero => exact absurd rfl hc0
    | succ c => simp [atRecord] at hcall⟩ hb hs
  exact ⟨this.1, this.2.1, this.2.2.2⟩

/-- **C86 fails for reading**: the same with a second read by the consumer, if another goroutine's save has
begun to wait for the lock in between: the second read never gets the lock. -/
theorem C86_false_read (x : σ) (q q2 : σ → List ρ × Bool) (ops : Writes σ) (k : Nat) (hk : k < (q x).1.length) :
    ∃ s, exec (init x) (received q k ++ [.newWriter ops, .announce 0, .newCall [q2], .rlock 1]) = some s ∧
      ∀ ls s', Busy 0 ls → exec s ls = some s' →
        ∀ call, s'.calls[1]? = some call → call.its = [] := by
  refine ⟨_, by rw [exec_append_eq, exec_received x q k (by omega)]; rfl, ?_⟩
  intro ls s' hb hs
  have := wedged_exec (ops := ops) (x := x) ls ⟨rfl, rfl, ⟨false, _, rfl, rfl, hk⟩, by
    intro c call hc0 hcall
    match c with
    | 0 => exact absurd rfl hc0
    | 1 =>
      obtain rfl := Option.some.inj hcall
      rfl
    | c + 2 => cases hcall⟩ hb hs
  exact fun call hcall => this.2.2.2 1 call (by decide) hcall

/-- The in-memory store with two events. -/
def two : IM.State := wSave [65, 33, 50] (Demo.ev [65] [50] [2]) (wSave [65, 33, 49] (Demo.ev [65] [49] [1]) IM.init)

/-- **C86 is false** of the in-memory store: the consumer of two events saves a third after the first. -/
theorem C86_false : ¬ C86_full (ρ := Record) two := by
  intro h
  have hk : 1 < (qType [65] two).1.length := by decide
  obtain ⟨s, hs, hall⟩ := C86_false_save two (qType [65]) [wSave [65, 33, 51] (Demo.ev [65] [51] [3])] 1 hk
  obtain ⟨ls, s', hb, he, hp, -⟩ := h _ _ 1 (by decide) (by decide) (Nat.le_of_lt hk) s hs
  rw [(hall ls s' hb he).2.1] at hp
  cases hp

/-- Call `c` has handed over every record of its open iterators, which meet no error, and asks for no more. -/
def Drained (c : Nat) (s : State σ ρ) : Prop :=
  ∃ call, s.calls[c]? = some call ∧ call.todo = [] ∧
    ∀ it ∈ call.its, it.isOpen = true → (it.query it.start).1.length ≤ it.pos ∧ (it.query it.start).2 = false

theorem drained_step {V : Nat → σ → Prop} {c : Nat} {s s' : State σ ρ} (hg : Good V s) (h : Drained c s)
    (l : Label σ ρ) (hs : step s l = some s') : Drained c s' ∧ ∀ i, l ≠ .emit c i := by
  obtain ⟨call, hc, ht, hits⟩ := h
  have hlt : c < s.calls.length := (List.getElem?_eq_some_iff.mp hc).1
  have hset : ∀ (c' : Nat) (y : Call σ ρ), (c' = c → y.todo = [] ∧ ∀ it ∈ y.its, it.isOpen = true →
      (it.query it.start).1.length ≤ it.pos ∧ (it.query it.start).2 = false) → Drained c (s.setCall c' y) := by
    intro c' y hy
    by_cases hcc : c' = c
    · subst hcc
      exact ⟨y, by simp [State.setCall, hlt], hy rfl⟩
    · exact ⟨call, by simp only [State.setCall]; rw [List.getElem?_set_ne hcc]; exact hc, ht, hits⟩
  cases l with
  | newWriter o =>
    obtain rfl := Option.some.inj hs
    exact ⟨⟨call, hc, ht, hits⟩, by simp⟩
  | newCall qs =>
    obtain rfl := Option.some.inj hs
    exact ⟨⟨call, by simp only; rw [List.getElem?_append_left hlt]; exact hc, ht, hits⟩, by simp⟩
  | announce i =>
    simp only [step] at hs
    split at hs
    · obtain rfl := Option.some.inj hs
      exact ⟨⟨call, hc, ht, hits⟩, by simp⟩
    · cases hs
  | activate =>
    simp only [step] at hs
    split at hs
    · split at hs
      · cases hs
      · obtain rfl := Option.some.inj hs
        exact ⟨⟨call, hc, ht, hits⟩, by simp⟩
    · cases hs
  | write =>
    simp only [step] at hs
    split at hs
    · obtain rfl := Option.some.inj hs
      exact ⟨⟨call, hc, ht, hits⟩, by simp⟩
    · cases hs
  | unlock =>
    simp only [step] at hs
    split at hs
    · obtain rfl := Option.some.inj hs
      refine ⟨⟨call, ?_, ht, hits⟩, by simp⟩
      simp only [List.getElem?_map, hc, Option.map_some]
      congr 1
      simp [Call.wake, Call.acquire, ht]
    · cases hs
  | rlock c' =>
    refine ⟨?_, by simp⟩
    simp only [step] at hs
    cases hcc : s.calls[c']? with
    | none => simp [hcc] at hs
    | some call' =>
      simp only [hcc] at hs
      by_cases hb : call'.todo.isEmpty ∨ call'.waiting
      · rw [if_pos hb] at hs; cases hs
      · rw [if_neg hb] at hs
        have hne : c' ≠ c := by
          rintro rfl
          rw [hc] at hcc
          obtain rfl := Option.some.inj hcc
          exact hb (Or.inl (by simp [ht]))
        split at hs <;> (obtain rfl := Option.some.inj hs; exact hset c' _ (fun h => absurd h hne))
  | emit c' i =>
    simp only [step] at hs
    cases hcc : s.calls[c']? with
    | none => simp [hcc] at hs
    | some call' =>
      simp only [hcc] at hs
      cases hi : call'.its[i]? with
      | none => simp [hi] at hs
      | some it =>
        simp only [hi] at hs
        by_cases hb : it.isOpen ∧ call'.todo.isEmpty
        · rw [if_pos hb] at hs
          have hmem := List.mem_of_getElem? hi
          have hne : c' ≠ c := by
            rintro rfl
            rw [hc] at hcc
            obtain rfl := Option.some.inj hcc
            have h1 := (hits it hmem hb.1).1
            rw [(hg.its c' call hc it hmem).2.2.1 hb.1] at h1
            rw [List.getElem?_eq_none h1] at hs
            cases hs
          refine ⟨?_, fun j hj => hne (by injection hj)⟩
          split at hs
          · cases hs
          · obtain rfl := Option.some.inj hs
            exact hset c' _ (fun h => absurd h hne)
        · rw [if_neg hb] at hs; cases hs
  | close c' i =>
    refine ⟨?_, by simp⟩
    simp only [step] at hs
    cases hcc : s.calls[c']? with
    | none => simp [hcc] at hs
    | some call' =>
      simp only [hcc] at hs
      cases hi : call'.its[i]? with
      | none => simp [hi] at hs
      | some it =>
        simp only [hi] at hs
        split at hs
        · obtain rfl := Option.some.inj hs
          refine hset c' _ ?_
          rintro rfl
          rw [hc] at hcc
          obtain rfl := Option.some.inj hcc
          refine ⟨ht, ?_⟩
          intro it' hm ho
          rcases mem_set_cases hm with rfl | hm
          · cases ho
          · exact hits it' hm ho
        · cases hs
  | cancel c' =>
    refine ⟨?_, by simp⟩
    simp only [step] at hs
    cases hcc : s.calls[c']? with
    | none => simp [hcc] at hs
    | some call' =>
      simp only [hcc] at hs
      obtain rfl := Option.some.inj hs
      refine hset c' _ ?_
      rintro rfl
      rw [hc] at hcc
      obtain rfl := Option.some.inj hcc
      refine ⟨ht, ?_⟩
      intro it' hm ho
      obtain ⟨it, hit, rfl⟩ := List.mem_map.mp hm
      by_cases hp : it.pos < (it.query s.content).1.length
      · simp [It.stop, hp] at ho
      · simp only [It.stop, hp, if_false] at ho ⊢
        exact hits it hit ho

theorem drained_exec {c : Nat} (ls : List (Label σ ρ)) : ∀ {V : Nat → σ → Prop} {s s' : State σ ρ}, Good V s →
    Drained c s → exec s ls = some s' → ∀ i, .emit c i ∉ ls := by
  induction ls with
  | nil => intro V s s' _ _ _ i; simp
  | cons l ls ih =>
    intro V s s' hg hd hs i
    simp only [exec] at hs
    cases hst : step s l with
    | none => simp [hst] at hs
    | some s1 =>
      simp only [hst] at hs
      obtain ⟨hd1, hne⟩ := drained_step hg hd l hst
      simp only [List.mem_cons, not_or]
      exact ⟨fun h => hne i h.symm, ih (good_step l hg hst) hd1 hs i⟩

/-- **C86**, what holds. In every history of reads of one type (or stream, or all events): a consumer that has
received the last record of its read may use the store. Whatever calls are pending, its own included, they can
all be completed while it receives nothing, and no schedule of them goes on forever or gets stuck before.
Missing: the records before the last, for which it is false. -/
theorem C86_partial (x : σ) (ls : List (Label σ ρ)) (s : State σ ρ) (hx : exec (init x) ls = some s)
    (h1 : ∀ qs, .newCall qs ∈ ls → qs.length ≤ 1) (c : Nat) (hd : Drained c s) :
    (∃ ls' s', (∀ l ∈ ls', Work l) ∧ Busy c ls' ∧ exec s ls' = some s' ∧ AllDone s') ∧
    ∀ ls' s', exec s ls' = some s' → (∀ l ∈ ls', Work l) →
      Busy c ls' ∧ (¬ AllDone s' → ∃ l s'', Work l ∧ step s' l = some s'') := by
  have hg := good_exec (V := fun _ _ => False) ls ⟨by simp [init], by simp [init]⟩ hx
  have hbusy : ∀ ls' s', exec s ls' = some s' → (∀ l ∈ ls', Work l) → Busy c ls' :=
    fun ls' s' he hw => ⟨drained_exec ls' hg hd he, fun hc => hw _ hc⟩
  obtain ⟨-, ⟨ls', s', hw, he, ha⟩, -⟩ := C24_partial x ls s hx h1
  refine ⟨⟨ls', s', hw, hbusy ls' s' he hw, he, ha⟩, ?_⟩
  intro ls' s' he hw
  refine ⟨hbusy ls' s' he hw, ?_⟩
  have hS : Single s := single_exec ls (by intro c call hc; simp [init] at hc) h1 hx
  have hS' : Single s' := single_exec ls' hS (fun qs hq => absurd (hw _ hq) (by simp [Work])) he
  exact progress hS'

/-- A consumer of the two events saves a third when it has the second: it gets done. -/
example : (exec (init two) (received (qType [65]) 2 ++ [.newWriter [wSave [65, 33, 51] (Demo.ev [65] [51] [3])],
    .announce 0, .close 0 0, .activate, .write, .unlock])).map
      (fun s => (s.calls.map (fun c => c.its.map (fun it => it.out.map (·.gsn))), s.content.records))
      = some ([[[1, 2]]], [1, 2, 3]) := by decide

/-- After its second record the consumer is drained, after its first it is not. -/
example : (∃ s, exec (init two) (received (qType [65]) 2 ++ [.newWriter [wSave [65, 33, 51] (Demo.ev [65] [51] [3])],
    .announce 0]) = some s ∧ Drained 0 s) := by
  refine ⟨_, by rw [exec_append_eq, exec_received two (qType [65]) 2 (by decide)]; rfl, _, rfl, rfl, ?_⟩
  intro it hit _
  simp only [List.mem_singleton] at hit
  subst hit
  decide

end RangeDB.Lock

import Verif.Model.Concurrent

/-!
# Concurrent calls: invariant
-/

namespace RangeDB.Lin

variable {κ σ ρ : Type}

/-- The result of a program that is at its end. -/
def Prog.result : Prog σ ρ → Option ρ
  | .ret r => some r
  | .step _ _ => none

/-- The result of a call whose program is at its end. -/
def PC.result : PC σ ρ → Option ρ
  | .called => none
  | .body p => p.result
  | .done r => some r
  | .returned r => some r

/-- The program changes nothing. -/
def ReadOnly : Prog σ ρ → Prop
  | .ret _ => True
  | .step f k => ∀ s, f s = s ∧ ReadOnly (k s)

/-- The program changes nothing before its last step. -/
def Atomic : Prog σ ρ → Prop
  | .ret _ => True
  | .step f k => ∀ s, (k s).result ≠ none ∨ (f s = s ∧ Atomic (k s))

/-- All calls with the write lock change the content in one step, their last one. -/
def AllAtomic (I : Impl κ σ ρ) : Prop := ∀ c, I.mode c = .write → Atomic (I.body c)

/-- What the calls of a store must be like. -/
structure WF (I : Impl κ σ ρ) : Prop where
  read : ∀ c, I.mode c = .read → ReadOnly (I.body c)
  none : ∀ c, I.mode c = .none → (∃ r, I.body c = .ret r) ∨
    (AllAtomic I ∧ ∃ k : σ → ρ, I.body c = look fun s => .ret (k s))

theorem readOnly_run : ∀ (p : Prog σ ρ) (s : σ), ReadOnly p → (p.run s).1 = s
  | .ret _, _, _ => rfl
  | .step f k, s, h => by
    simp only [Prog.run]
    rw [(h s).1]
    exact readOnly_run (k s) s (h s).2

theorem result_some {p : Prog σ ρ} {r : ρ} (h : p.result = some r) : p = .ret r := by
  cases p with
  | ret r' => simp [Prog.result] at h; rw [h]
  | step f k => simp [Prog.result] at h

/-! ## Lists -/

theorem get_set {α : Type} {l : List α} {i : Nat} {e e' : α} (h : l[i]? = some e') (j : Nat) :
    (l.set i e)[j]? = if j = i then some e else l[j]? := by
  have hi : i < l.length := by
    rw [List.getElem?_eq_some_iff] at h; exact h.1
  rw [List.getElem?_set]
  by_cases hj : j = i
  · subst hj; simp [hi]
  · have : i ≠ j := fun h => hj h.symm
    simp [hj, this]

theorem precedes_append {α : Type} {l : List α} {a b : α} (m : List α) (h : Precedes l a b) :
    Precedes (l ++ m) a b := by
  obtain ⟨l1, l2, l3, rfl⟩ := h
  exact ⟨l1, l2, l3 ++ m, by simp⟩

theorem precedes_last {α : Type} {l : List α} {a b : α} (h : a ∈ l) : Precedes (l ++ [b]) a b := by
  obtain ⟨l1, l2, rfl⟩ := List.append_of_mem h
  exact ⟨l1, l2, [], by simp⟩

theorem precedes_of_append {α : Type} {l : List α} {a b c : α} (h : Precedes (l ++ [c]) a b) :
    Precedes l a b ∨ (b = c ∧ a ∈ l) := by
  obtain ⟨l1, l2, l3, h⟩ := h
  rcases List.eq_nil_or_concat l3 with rfl | ⟨l3', d, rfl⟩
  · right
    have : l ++ [c] = (l1 ++ a :: l2) ++ [b] := by simpa using h
    have h2 := List.append_inj' this rfl
    refine ⟨by simpa using h2.2.symm, ?_⟩
    rw [h2.1]; simp
  · left
    have : l ++ [c] = (l1 ++ a :: (l2 ++ b :: l3')) ++ [d] := by simpa using h
    have h2 := List.append_inj' this rfl
    exact ⟨l1, l2, l3', h2.1⟩

/-! ## The order -/

theorem explains_calls {spec : κ → σ → σ × ρ} {calls : List κ} {y : σ} (more : List κ) :
    ∀ (l : List (Nat × ρ)) (x : σ), Explains spec calls x l y → Explains spec (calls ++ more) x l y
  | [], _, h => h
  | (i, r) :: l, x, h => by
    obtain ⟨c, h1, h2, h3⟩ := h
    refine ⟨c, ?_, h2, explains_calls more l _ h3⟩
    rw [List.getElem?_append_left (by rw [List.getElem?_eq_some_iff] at h1; exact h1.1)]
    exact h1

theorem explains_snoc {spec : κ → σ → σ × ρ} {calls : List κ} {y : σ} {i : Nat} {c : κ}
    (hc : calls[i]? = some c) :
    ∀ (l : List (Nat × ρ)) (x : σ), Explains spec calls x l y →
      Explains spec calls x (l ++ [(i, (spec c y).2)]) (spec c y).1
  | [], x, h => by
    subst h
    exact ⟨c, hc, rfl, rfl⟩
  | (j, r) :: l, x, h => by
    obtain ⟨c', h1, h2, h3⟩ := h
    exact ⟨c', h1, h2, explains_snoc hc l _ h3⟩

/-- The part of the invariant about the order. -/
structure Core (I : Impl κ σ ρ) (x0 : σ) (calls : List (Entry κ σ ρ)) (hist : List (Event ρ))
    (order : List (Nat × ρ)) (x : σ) : Prop where
  nodup : (order.map (·.1)).Nodup
  mem : ∀ i r, (i, r) ∈ order ↔ ∃ e, calls[i]? = some e ∧ e.pc.result = some r
  expl : Explains (fun c => (I.body c).run) (calls.map (·.call)) x0 order x
  ended : ∀ i r, Event.res i r ∈ hist → ∃ c, calls[i]? = some ⟨c, .returned r⟩
  inv : ∀ j, Event.inv j ∈ hist → j < calls.length
  time : ∀ i r j r', Precedes hist (.res i r) (.inv j) → (j, r') ∈ order → Precedes order (i, r) (j, r')

variable {I : Impl κ σ ρ} {x0 x : σ} {calls : List (Entry κ σ ρ)} {hist : List (Event ρ)} {order : List (Nat × ρ)}

theorem Core.invoke (h : Core I x0 calls hist order x) (c : κ) :
    Core I x0 (calls ++ [⟨c, .called⟩]) (hist ++ [.inv calls.length]) order x where
  nodup := h.nodup
  mem i r := by
    rw [h.mem]
    constructor
    · rintro ⟨e, h1, h2⟩
      refine ⟨e, ?_, h2⟩
      rw [List.getElem?_append_left (by rw [List.getElem?_eq_some_iff] at h1; exact h1.1)]
      exact h1
    · rintro ⟨e, h1, h2⟩
      rw [List.getElem?_append] at h1
      split at h1
      · exact ⟨e, h1, h2⟩
      · rename_i hn
        cases hd : i - calls.length with
        | zero =>
          rw [hd] at h1
          simp at h1
          subst h1
          simp [PC.result] at h2
        | succ n => rw [hd] at h1; simp at h1
  expl := by
    rw [List.map_append]
    exact explains_calls _ _ _ h.expl
  ended i r hm := by
    simp only [List.mem_append, List.mem_cons, List.not_mem_nil, or_false, reduceCtorEq] at hm
    obtain ⟨c', h1⟩ := h.ended i r hm
    refine ⟨c', ?_⟩
    rw [List.getElem?_append_left (by rw [List.getElem?_eq_some_iff] at h1; exact h1.1)]
    exact h1
  inv j hm := by
    simp only [List.mem_append, List.mem_cons, List.not_mem_nil, or_false, Event.inv.injEq] at hm
    rw [List.length_append, List.length_singleton]
    rcases hm with hm | hm
    · have := h.inv j hm; omega
    · omega
  time i r j r' hp hj := by
    rcases precedes_of_append hp with hp | ⟨hp, _⟩
    · exact h.time i r j r' hp hj
    · simp only [Event.inv.injEq] at hp
      obtain ⟨e, h1, _⟩ := (h.mem j r').1 hj
      rw [List.getElem?_eq_some_iff] at h1
      obtain ⟨h1, _⟩ := h1
      omega

theorem map_set_call {i : Nat} {c : κ} {pc pc' : PC σ ρ} (hi : calls[i]? = some ⟨c, pc⟩) :
    (calls.set i ⟨c, pc'⟩).map (·.call) = calls.map (·.call) := by
  rw [List.map_set]
  apply List.ext_getElem?
  intro j
  have hm : (calls.map (·.call))[i]? = some c := by simp [hi]
  rw [get_set hm]
  split
  · rename_i h; subst h; exact hm.symm
  · rfl

theorem Core.same (h : Core I x0 calls hist order x) {i : Nat} {c : κ} {pc pc' : PC σ ρ}
    (hi : calls[i]? = some ⟨c, pc⟩) (hr : pc'.result = pc.result) (hn : ∀ r, pc ≠ .returned r) :
    Core I x0 (calls.set i ⟨c, pc'⟩) hist order x where
  nodup := h.nodup
  mem j r := by
    rw [h.mem]
    constructor
    · rintro ⟨e, h1, h2⟩
      rw [get_set hi]
      by_cases hj : j = i
      · subst hj
        rw [hi] at h1
        cases h1
        exact ⟨_, if_pos rfl, by rw [← h2]; exact hr⟩
      · exact ⟨e, by rw [if_neg hj]; exact h1, h2⟩
    · rintro ⟨e, h1, h2⟩
      rw [get_set hi] at h1
      by_cases hj : j = i
      · subst hj
        rw [if_pos rfl] at h1
        cases h1
        exact ⟨_, hi, by rw [← h2]; exact hr.symm⟩
      · rw [if_neg hj] at h1
        exact ⟨e, h1, h2⟩
  expl := by rw [map_set_call hi]; exact h.expl
  ended j r hm := by
    obtain ⟨c', h1⟩ := h.ended j r hm
    refine ⟨c', ?_⟩
    rw [get_set hi]
    by_cases hj : j = i
    · subst hj
      rw [hi] at h1
      cases h1
      exact absurd rfl (hn r)
    · rw [if_neg hj]; exact h1
  inv j hm := by rw [List.length_set]; exact h.inv j hm
  time := h.time

/-- A call comes to its end. -/
theorem Core.lin (h : Core I x0 calls hist order x) {i : Nat} {c : κ} {pc pc' : PC σ ρ}
    (hi : calls[i]? = some ⟨c, pc⟩) (hr : pc.result = none) (hr' : pc'.result = some ((I.body c).run x).2) :
    Core I x0 (calls.set i ⟨c, pc'⟩) hist (order ++ [(i, ((I.body c).run x).2)]) ((I.body c).run x).1 where
  nodup := by
    rw [List.map_append]
    rw [List.nodup_append]
    refine ⟨h.nodup, by simp, ?_⟩
    intro a ha b hb
    simp only [List.map_cons, List.map_nil, List.mem_cons, List.not_mem_nil, or_false] at hb
    subst hb
    rintro rfl
    rw [List.mem_map] at ha
    obtain ⟨⟨i', r⟩, h1, h2⟩ := ha
    simp only at h2
    subst h2
    obtain ⟨e, h3, h4⟩ := (h.mem _ r).1 h1
    rw [hi] at h3
    cases h3
    rw [hr] at h4
    exact absurd h4 (by simp)
  mem j r := by
    rw [List.mem_append, h.mem, get_set hi]
    by_cases hj : j = i
    · subst hj
      rw [if_pos rfl]
      constructor
      · rintro (⟨e, h1, h2⟩ | h1)
        · rw [hi] at h1; cases h1; rw [hr] at h2; exact absurd h2 (by simp)
        · simp only [List.mem_cons, Prod.mk.injEq, true_and, List.not_mem_nil, or_false] at h1
          exact ⟨_, rfl, by rw [h1]; exact hr'⟩
      · rintro ⟨e, h1, h2⟩
        cases h1
        right
        rw [hr'] at h2
        cases h2
        simp
    · rw [if_neg hj]
      simp [hj]
  expl := by
    rw [map_set_call hi]
    exact explains_snoc (spec := fun c => (I.body c).run) (by simp [hi]) order x0 h.expl
  ended j r hm := by
    obtain ⟨c', h1⟩ := h.ended j r hm
    refine ⟨c', ?_⟩
    rw [get_set hi]
    by_cases hj : j = i
    · subst hj
      rw [hi] at h1
      cases h1
      simp [PC.result] at hr
    · rw [if_neg hj]; exact h1
  inv j hm := by rw [List.length_set]; exact h.inv j hm
  time j r j' r' hp hj := by
    rw [List.mem_append] at hj
    rcases hj with hj | hj
    · exact precedes_append _ (h.time j r j' r' hp hj)
    · simp only [List.mem_cons, Prod.mk.injEq, List.not_mem_nil, or_false] at hj
      obtain ⟨rfl, rfl⟩ := hj
      apply precedes_last
      obtain ⟨l1, l2, l3, hl⟩ := hp
      obtain ⟨c', h1⟩ := h.ended j r (by rw [hl]; simp)
      exact (h.mem j r).2 ⟨_, h1, rfl⟩

/-- A call returns. -/
theorem Core.ret (h : Core I x0 calls hist order x) {i : Nat} {c : κ} {r : ρ}
    (hi : calls[i]? = some ⟨c, .done r⟩) :
    Core I x0 (calls.set i ⟨c, .returned r⟩) (hist ++ [.res i r]) order x := by
  have h' := h.same hi (pc' := .returned r) rfl (by simp)
  exact {
    nodup := h'.nodup
    mem := h'.mem
    expl := h'.expl
    ended := by
      intro j r' hm
      simp only [List.mem_append, List.mem_cons, List.not_mem_nil, or_false, Event.res.injEq] at hm
      rcases hm with hm | ⟨rfl, rfl⟩
      · exact h'.ended j r' hm
      · exact ⟨c, by rw [get_set hi, if_pos rfl]⟩
    inv := by
      intro j hm
      simp only [List.mem_append, List.mem_cons, List.not_mem_nil, or_false, reduceCtorEq] at hm
      exact h'.inv j hm
    time := by
      intro j r' j' r'' hp hj
      rcases precedes_of_append hp with hp | ⟨hp, _⟩
      · exact h'.time j r' j' r'' hp hj
      · exact absurd hp (by simp) }

/-! ## The locks -/

/-- The part of the invariant about the content and who holds the lock. -/
structure Locks (I : Impl κ σ ρ) (content : σ) (calls : List (Entry κ σ ρ)) (x : σ) : Prop where
  excl : ∀ (i j : Nat) (c d : κ) (p q : Prog σ ρ), calls[i]? = some ⟨c, .body p⟩ → calls[j]? = some ⟨d, .body q⟩ → I.mode c = .write →
    I.mode d ≠ .none → i = j
  writer : ∀ (i : Nat) (c : κ) (p : Prog σ ρ), calls[i]? = some ⟨c, .body p⟩ → I.mode c = .write → p.result = none →
    p.run content = (I.body c).run x ∧ (AllAtomic I → Atomic p ∧ content = x)
  quiet : (∀ (i : Nat) (c : κ) (p : Prog σ ρ), calls[i]? = some ⟨c, .body p⟩ → I.mode c = .write → p.result ≠ none) → content = x
  reader : ∀ (i : Nat) (c : κ) (p : Prog σ ρ), calls[i]? = some ⟨c, .body p⟩ → I.mode c = .read → p.result = none →
    ReadOnly p ∧ (p.run content).2 = ((I.body c).run content).2
  nolock : ∀ (i : Nat) (c : κ) (p : Prog σ ρ), calls[i]? = some ⟨c, .body p⟩ → I.mode c = .none → p.result = none → p = I.body c

variable {content : σ}

theorem Locks.invoke (h : Locks I content calls x) (c : κ) : Locks I content (calls ++ [⟨c, .called⟩]) x := by
  have key : ∀ (i : Nat) (d : κ) (p : Prog σ ρ), (calls ++ [⟨c, .called⟩])[i]? = some ⟨d, .body p⟩ → calls[i]? = some ⟨d, .body p⟩ := by
    intro i d p hi
    rw [List.getElem?_append] at hi
    split at hi
    · exact hi
    · cases hd : i - calls.length with
      | zero => rw [hd] at hi; simp at hi
      | succ n => rw [hd] at hi; simp at hi
  have key' : ∀ (i : Nat) (d : κ) (p : Prog σ ρ), calls[i]? = some ⟨d, .body p⟩ → (calls ++ [⟨c, .called⟩])[i]? = some ⟨d, .body p⟩ := by
    intro i d p hi
    rw [List.getElem?_append_left (by rw [List.getElem?_eq_some_iff] at hi; exact hi.1)]
    exact hi
  exact {
    excl := fun i j c d p q h1 h2 h3 h4 => h.excl i j c d p q (key _ _ _ h1) (key _ _ _ h2) h3 h4
    writer := fun i c p h1 h2 h3 => h.writer i c p (key _ _ _ h1) h2 h3
    quiet := fun hq => h.quiet fun i c p h1 h2 => hq i c p (key' _ _ _ h1) h2
    reader := fun i c p h1 h2 h3 => h.reader i c p (key _ _ _ h1) h2 h3
    nolock := fun i c p h1 h2 h3 => h.nolock i c p (key _ _ _ h1) h2 h3 }

/-- A call that has or had no lock, or that is at its end, is given a state without a lock. -/
theorem Locks.leave (h : Locks I content calls x) {i : Nat} {c : κ} {pc pc' : PC σ ρ}
    (hi : calls[i]? = some ⟨c, pc⟩) (hp : ∀ p, pc = .body p → p.result ≠ none) (hp' : ∀ p, pc' ≠ .body p) :
    Locks I content (calls.set i ⟨c, pc'⟩) x := by
  have key : ∀ (j : Nat) (d : κ) (p : Prog σ ρ), (calls.set i ⟨c, pc'⟩)[j]? = some ⟨d, .body p⟩ → calls[j]? = some ⟨d, .body p⟩ := by
    intro j d p hj
    rw [get_set hi] at hj
    by_cases e : j = i
    · subst e
      rw [if_pos rfl] at hj
      simp only [Option.some.injEq, Entry.mk.injEq] at hj
      exact absurd hj.2 (hp' p)
    · rw [if_neg e] at hj; exact hj
  exact {
    excl := fun i j c d p q h1 h2 h3 h4 => h.excl i j c d p q (key _ _ _ h1) (key _ _ _ h2) h3 h4
    writer := fun i c p h1 h2 h3 => h.writer i c p (key _ _ _ h1) h2 h3
    quiet := fun hq => h.quiet fun j d p h1 h2 => by
      by_cases e : j = i
      · subst e
        rw [hi] at h1
        cases h1
        exact hp p rfl
      · exact hq j d p (by rw [get_set hi, if_neg e]; exact h1) h2
    reader := fun i c p h1 h2 h3 => h.reader i c p (key _ _ _ h1) h2 h3
    nolock := fun i c p h1 h2 h3 => h.nolock i c p (key _ _ _ h1) h2 h3 }

/-! ## One step -/

/-- The invariant. -/
def Inv (I : Impl κ σ ρ) (x0 : σ) (s : State κ σ ρ) : Prop :=
  ∃ order x, Core I x0 s.calls s.hist order x ∧ Locks I s.content s.calls x

theorem init_inv (x0 : σ) : Inv I x0 (init x0) :=
  ⟨[], x0, ⟨by simp, by simp [init], rfl, by simp [init], by simp [init], by simp⟩,
    ⟨by simp [init], by simp [init], fun _ => rfl, by simp [init], by simp [init]⟩⟩

/-- No call holds the write lock. -/
def NoWriter (I : Impl κ σ ρ) (calls : List (Entry κ σ ρ)) : Prop :=
  ∀ (j : Nat) (d : κ) (p : Prog σ ρ), calls[j]? = some ⟨d, .body p⟩ → I.mode d ≠ .write

theorem any_holds {m : Mode} (h : calls.any (Entry.holds I m) = false) :
    ∀ (j : Nat) (d : κ) (p : Prog σ ρ), calls[j]? = some ⟨d, .body p⟩ → I.mode d ≠ m := by
  intro j d p hj hm
  rw [List.any_eq_false] at h
  have := h _ (List.mem_of_getElem? hj)
  simp [Entry.holds, hm] at this

theorem Locks.same_of_noWriter (h : Locks I content calls x) (hw : NoWriter I calls) : content = x :=
  h.quiet fun j d p hj hm => absurd hm (hw j d p hj)

/-- A call gets into its program or one step on in it, without a change of the content, when there is no writer
other than possibly itself. -/
theorem Locks.enter (h : Locks I content calls x) {i : Nat} {c : κ} {pc : PC σ ρ} {p : Prog σ ρ}
    (hi : calls[i]? = some ⟨c, pc⟩) (hpc : ∀ q, pc = .body q → I.mode c ≠ .write)
    (hexcl : ∀ (j : Nat) (d : κ) (q : Prog σ ρ), j ≠ i → calls[j]? = some ⟨d, .body q⟩ →
      (I.mode c = .write → I.mode d = .none) ∧ (I.mode d = .write → I.mode c = .none))
    (hwrite : I.mode c = .write → p = I.body c ∧ content = x)
    (hread : I.mode c = .read → p.result = none → ReadOnly p ∧ (p.run content).2 = ((I.body c).run content).2)
    (hnone : I.mode c = .none → p.result = none → p = I.body c) :
    Locks I content (calls.set i ⟨c, .body p⟩) x := by
  have key : ∀ (j : Nat) (d : κ) (q : Prog σ ρ), (calls.set i ⟨c, .body p⟩)[j]? = some ⟨d, .body q⟩ →
      (j = i ∧ d = c ∧ q = p) ∨ (j ≠ i ∧ calls[j]? = some ⟨d, .body q⟩) := by
    intro j d q hj
    rw [get_set hi] at hj
    by_cases e : j = i
    · subst e
      rw [if_pos rfl] at hj
      simp only [Option.some.injEq, Entry.mk.injEq, PC.body.injEq] at hj
      exact Or.inl ⟨rfl, hj.1.symm, hj.2.symm⟩
    · rw [if_neg e] at hj; exact Or.inr ⟨e, hj⟩
  refine ⟨?_, ?_, ?_, ?_, ?_⟩
  · intro j j' d d' q q' h1 h2 h3 h4
    rcases key _ _ _ h1 with ⟨rfl, rfl, rfl⟩ | ⟨n1, h1'⟩ <;> rcases key _ _ _ h2 with ⟨rfl, rfl, rfl⟩ | ⟨n2, h2'⟩
    · rfl
    · exact absurd ((hexcl _ _ _ n2 h2').1 h3) h4
    · exact absurd ((hexcl _ _ _ n1 h1').2 h3) h4
    · exact h.excl j j' d d' q q' h1' h2' h3 h4
  · intro j d q h1 h2 h3
    rcases key _ _ _ h1 with ⟨rfl, rfl, rfl⟩ | ⟨n1, h1⟩
    · obtain ⟨rfl, rfl⟩ := hwrite h2
      exact ⟨rfl, fun ha => ⟨ha _ h2, rfl⟩⟩
    · exact h.writer j d q h1 h2 h3
  · intro hq
    by_cases hm : I.mode c = .write
    · exact (hwrite hm).2
    · refine h.quiet fun j d q h1 h2 => ?_
      by_cases e : j = i
      · subst e
        rw [hi] at h1
        cases h1
        exact absurd h2 hm
      · exact hq j d q (by rw [get_set hi, if_neg e]; exact h1) h2
  · intro j d q h1 h2 h3
    rcases key _ _ _ h1 with ⟨rfl, rfl, rfl⟩ | ⟨n1, h1⟩
    · exact hread h2 h3
    · exact h.reader j d q h1 h2 h3
  · intro j d q h1 h2 h3
    rcases key _ _ _ h1 with ⟨rfl, rfl, rfl⟩ | ⟨n1, h1⟩
    · exact hnone h2 h3
    · exact h.nolock j d q h1 h2 h3

/-- Call `i` goes on without a change of the content. -/
theorem enter_inv {s : State κ σ ρ} (hc : Core I x0 s.calls s.hist order x) {i : Nat} {c : κ} {pc : PC σ ρ}
    {p : Prog σ ρ} (hi : s.calls[i]? = some ⟨c, pc⟩) (hr : pc.result = none)
    (hl : Locks I s.content (s.calls.set i ⟨c, .body p⟩) x)
    (hend : ∀ r, p = .ret r → (I.body c).run x = (x, r)) :
    Inv I x0 (s.set i c (.body p)) := by
  cases hp : p.result with
  | none => exact ⟨order, x, hc.same hi (by rw [hr]; exact hp) (by rintro r rfl; simp [PC.result] at hr), hl⟩
  | some r =>
    have h1 := result_some hp
    have h2 := hend r h1
    have h3 := hc.lin (pc' := .body p) hi hr (by rw [h2]; exact hp)
    refine ⟨_, _, h3, ?_⟩
    rw [h2]
    exact hl

theorem step_inv (hwf : WF I) {s s' : State κ σ ρ} {l : Label κ} (h : Inv I x0 s) (hs : step I s l = some s') :
    Inv I x0 s' := by
  obtain ⟨order, x, hc, hl⟩ := h
  cases l with
  | invoke c =>
    simp only [step, Option.some.injEq] at hs
    subst hs
    exact ⟨order, x, hc.invoke c, hl.invoke c⟩
  | lock i =>
    simp only [step] at hs
    split at hs
    · rename_i c hi
      split at hs
      · rename_i hf
        simp only [Option.some.injEq] at hs
        subst hs
        have hex : ∀ (j : Nat) (d : κ) (q : Prog σ ρ), j ≠ i → s.calls[j]? = some ⟨d, .body q⟩ →
            (I.mode c = .write → I.mode d = .none) ∧ (I.mode d = .write → I.mode c = .none) := by
          intro j d q _ hj
          cases hm : I.mode c with
          | none => simp
          | read =>
            rw [hm] at hf
            simp only [State.free, Bool.not_eq_true'] at hf
            exact ⟨by simp, fun hd => absurd hd (any_holds hf j d q hj)⟩
          | write =>
            rw [hm] at hf
            simp only [State.free, Bool.and_eq_true, Bool.not_eq_true'] at hf
            have h1 := any_holds hf.1 j d q hj
            have h2 := any_holds hf.2 j d q hj
            refine ⟨fun _ => ?_, fun hd => absurd hd h1⟩
            cases hd : I.mode d <;> simp_all
        have hx : I.mode c = .write → s.content = x := by
          intro hm
          refine hl.same_of_noWriter fun j d q hj hd => ?_
          rw [hm] at hf
          simp only [State.free, Bool.and_eq_true, Bool.not_eq_true'] at hf
          exact any_holds hf.1 j d q hj hd
        refine enter_inv hc hi rfl ?_ ?_
        · exact hl.enter hi (by simp) hex (fun hm => ⟨rfl, hx hm⟩) (fun hm _ => ⟨hwf.read c hm, rfl⟩) (fun _ _ => rfl)
        · intro r hr
          rw [hr]; rfl
      · simp at hs
    · simp at hs
  | step i =>
    simp only [step] at hs
    split at hs
    · rename_i c f k hi
      simp only [Option.some.injEq] at hs
      subst hs
      cases hm : I.mode c with
      | none =>
        have hb := hl.nolock i c _ hi hm rfl
        rcases hwf.none c hm with ⟨r, hr⟩ | ⟨ha, g, hg⟩
        · rw [hr] at hb; exact absurd hb (by simp)
        · rw [hg] at hb
          simp only [look, Prog.step.injEq] at hb
          obtain ⟨rfl, rfl⟩ := hb
          have hx : s.content = x := by
            by_cases hw : ∀ (i : Nat) (c : κ) (p : Prog σ ρ), s.calls[i]? = some ⟨c, .body p⟩ → I.mode c = .write → p.result ≠ none
            · exact hl.quiet hw
            · simp only [Classical.not_forall] at hw
              obtain ⟨j, d, p, h1, h2, h3⟩ := hw
              exact ((hl.writer j d p h1 h2 (Classical.byContradiction h3)).2 ha).2
          refine enter_inv hc hi rfl ?_ ?_
          · exact hl.enter hi (by rw [hm]; simp)
              (fun j d q _ _ => ⟨fun h => by rw [hm] at h; simp at h, fun _ => hm⟩)
              (fun h => by rw [hm] at h; simp at h) (fun h => by rw [hm] at h; simp at h)
              (fun _ h => by simp [Prog.result] at h)
          · intro r hr
            rw [hg]
            simp only [Prog.ret.injEq] at hr
            simp only [look, Prog.run, id]
            rw [← hx, hr]
      | read =>
        obtain ⟨h1, h2⟩ := hl.reader i c _ hi hm rfl
        have h3 := (h1 s.content).1
        have hnw : ∀ (j : Nat) (d : κ) (q : Prog σ ρ), s.calls[j]? = some ⟨d, .body q⟩ → I.mode d ≠ .write := by
          intro j d q hj hd
          have e := hl.excl j i d c q _ hj hi hd (by rw [hm]; simp)
          subst e
          rw [hi] at hj
          cases hj
          rw [hm] at hd; simp at hd
        have hx := hl.same_of_noWriter hnw
        have hcont : ({ s.set i c (.body (k s.content)) with content := f s.content } : State κ σ ρ)
            = s.set i c (.body (k s.content)) := by rw [h3]; rfl
        rw [hcont]
        have h4 : ((k s.content).run s.content).2 = ((I.body c).run s.content).2 := by
          rw [← h2]; simp only [Prog.run]; rw [h3]
        refine enter_inv hc hi rfl ?_ ?_
        · exact hl.enter hi (by rw [hm]; simp)
            (fun j d q _ hj => ⟨fun h => by rw [hm] at h; simp at h, fun h => absurd h (hnw j d q hj)⟩)
            (fun h => by rw [hm] at h; simp at h) (fun _ _ => ⟨(h1 s.content).2, h4⟩)
            (fun h => by rw [hm] at h; simp at h)
        · intro r hr
          rw [hr] at h4
          have := readOnly_run (I.body c) x (hwf.read c hm)
          rw [hx] at h4
          exact Prod.ext this h4.symm
      | write =>
        obtain ⟨h1, h2⟩ := hl.writer i c _ hi hm rfl
        have h1' : (k s.content).run (f s.content) = (I.body c).run x := h1
        have huniq : ∀ (j : Nat) (d : κ) (q : Prog σ ρ), (s.calls.set i ⟨c, .body (k s.content)⟩)[j]? = some ⟨d, .body q⟩ →
            (j = i ∧ d = c ∧ q = k s.content) ∨ (j ≠ i ∧ I.mode d = .none ∧ s.calls[j]? = some ⟨d, .body q⟩) := by
          intro j d q hj
          rw [get_set hi] at hj
          by_cases e : j = i
          · subst e
            rw [if_pos rfl] at hj
            simp only [Option.some.injEq, Entry.mk.injEq, PC.body.injEq] at hj
            exact Or.inl ⟨rfl, hj.1.symm, hj.2.symm⟩
          · rw [if_neg e] at hj
            refine Or.inr ⟨e, ?_, hj⟩
            refine Classical.byContradiction fun hd => e ?_
            exact (hl.excl i j c d _ q hi hj hm hd).symm
        have build : ∀ y : σ, ((k s.content).result = none → y = x) → ((k s.content).result ≠ none → y = f s.content) →
            Locks I (f s.content) (s.calls.set i ⟨c, .body (k s.content)⟩) y := by
          intro y hy1 hy2
          refine ⟨?_, ?_, ?_, ?_, ?_⟩
          · intro j j' d d' q q' e1 e2 e3 e4
            rcases huniq _ _ _ e1 with ⟨rfl, _, _⟩ | ⟨_, n1, _⟩
            · rcases huniq _ _ _ e2 with ⟨rfl, _, _⟩ | ⟨_, n2, _⟩
              · rfl
              · exact absurd n2 e4
            · rw [e3] at n1; simp at n1
          · intro j d q e1 e2 e3
            rcases huniq _ _ _ e1 with ⟨rfl, rfl, rfl⟩ | ⟨_, n1, _⟩
            · rw [hy1 e3]
              refine ⟨h1', fun ha => ?_⟩
              obtain ⟨a1, a2⟩ := h2 ha
              rcases a1 s.content with a3 | ⟨a3, a4⟩
              · exact absurd e3 a3
              · exact ⟨a4, by rw [a3]; exact a2⟩
            · rw [e2] at n1; simp at n1
          · intro hq
            have := hq i c (k s.content) (by rw [get_set hi, if_pos rfl]) hm
            exact (hy2 this).symm
          · intro j d q e1 e2 _
            rcases huniq _ _ _ e1 with ⟨rfl, rfl, rfl⟩ | ⟨_, n1, _⟩
            · rw [hm] at e2; simp at e2
            · rw [e2] at n1; simp at n1
          · intro j d q e1 e2 e3
            rcases huniq _ _ _ e1 with ⟨rfl, rfl, rfl⟩ | ⟨_, _, n1⟩
            · rw [hm] at e2; simp at e2
            · exact hl.nolock j d q n1 e2 e3
        cases hk : (k s.content).result with
        | none =>
          exact ⟨order, x, hc.same hi (pc' := .body (k s.content)) hk (by simp),
            build x (fun _ => rfl) (fun h => absurd hk h)⟩
        | some r =>
          have hr := result_some hk
          have h5 : (I.body c).run x = (f s.content, r) := by
            rw [← h1', hr]; rfl
          refine ⟨_, _, hc.lin (pc' := .body (k s.content)) hi rfl (by rw [h5]; exact hk), ?_⟩
          rw [h5]
          exact build _ (fun h => by rw [hk] at h; simp at h) (fun _ => rfl)
    · simp at hs
  | unlock i =>
    simp only [step] at hs
    split at hs
    · rename_i c r hi
      split at hs
      · simp at hs
      · simp only [Option.some.injEq] at hs
        subst hs
        refine ⟨order, x, hc.same hi rfl (by simp), hl.leave hi ?_ (by simp)⟩
        intro p hp
        cases hp
        simp [Prog.result]
    · simp at hs
  | ret i =>
    simp only [step] at hs
    split at hs
    · rename_i c r hi
      simp only [Option.some.injEq] at hs
      subst hs
      exact ⟨order, x, hc.ret hi, hl.leave hi (by simp) (by simp)⟩
    · simp at hs

theorem exec_inv (hwf : WF I) : ∀ (ls : List (Label κ)) (s s' : State κ σ ρ), Inv I x0 s →
    exec I s ls = some s' → Inv I x0 s'
  | [], s, s', h, hs => by simp only [exec, Option.some.injEq] at hs; subst hs; exact h
  | l :: ls, s, s', h, hs => by
    simp only [exec] at hs
    split at hs
    · simp at hs
    · rename_i s1 h1
      exact exec_inv hwf ls s1 s' (step_inv hwf h h1) hs

/-- No call with the write lock is in the middle of its work. -/
def Quiet (I : Impl κ σ ρ) (s : State κ σ ρ) : Prop :=
  ∀ (i : Nat) (c : κ) (p : Prog σ ρ), s.calls[i]? = some ⟨c, .body p⟩ → I.mode c = .write → p.result ≠ none

/-- Every schedule of well-formed calls is linearizable. -/
theorem linearizable (hwf : WF I) (ls : List (Label κ)) (s : State κ σ ρ) (hs : exec I (init x0) ls = some s) :
    ∃ y, Linearizable (fun c => (I.body c).run) x0 (s.calls.map (·.call)) s.hist y ∧
      (Quiet I s → y = s.content) := by
  obtain ⟨order, x, hc, hl⟩ := exec_inv hwf ls _ s (init_inv x0) hs
  refine ⟨x, ⟨order, hc.nodup, ?_, hc.expl, hc.time⟩, fun hq => (hl.quiet hq).symm⟩
  intro i r hm
  obtain ⟨c, h1⟩ := hc.ended i r hm
  exact (hc.mem i r).2 ⟨_, h1, rfl⟩

end RangeDB.Lin

import Verif.Proof.ConcurrentStores
import Verif.Thm.Optimistic
import Verif.Base.Demo

/-!
# Concurrent calls act one after the other: C105
-/

namespace RangeDB.Lin

/-! ## Histories -/

/-- The call as a change of the store, if it is one. -/
def Call.op? : Call → Option Op
  | .save name expected cancelAt ers => some (.save name expected cancelAt ers)
  | .delete name expected cancelled => some (.delete name expected cancelled)
  | _ => none

theorem explains_split {κ σ ρ : Type} {spec : κ → σ → σ × ρ} {calls : List κ} {y : σ} {i : Nat} {r : ρ}
    (b : List (Nat × ρ)) :
    ∀ (a : List (Nat × ρ)) (x : σ), Explains spec calls x (a ++ (i, r) :: b) y →
      ∃ c m, calls[i]? = some c ∧ Explains spec calls x a m ∧ (spec c m).2 = r ∧
        Explains spec calls (spec c m).1 b y
  | [], x, h => by
    obtain ⟨c, h1, h2, h3⟩ := h
    exact ⟨c, x, h1, rfl, h2, h3⟩
  | (j, r') :: a, x, h => by
    obtain ⟨c, h1, h2, h3⟩ := h
    obtain ⟨c', m, h4, h5, h6, h7⟩ := explains_split b a _ h3
    exact ⟨c', m, h4, ⟨c, h1, h2, h5⟩, h6, h7⟩

/-- The changes among the calls of an order. -/
def opsOf (calls : List Call) (order : List (Nat × Res)) : List Op :=
  order.filterMap (fun p => calls[p.1]?.bind Call.op?)

theorem opsOf_append (calls : List Call) (a b : List (Nat × Res)) :
    opsOf calls (a ++ b) = opsOf calls a ++ opsOf calls b := List.filterMap_append

theorem opsOf_cons {calls : List Call} {i : Nat} {c : Call} (hc : calls[i]? = some c) (r : Res) (b : List (Nat × Res)) :
    opsOf calls ((i, r) :: b) = c.op?.toList ++ opsOf calls b := by
  simp only [opsOf, List.filterMap_cons, hc, Option.bind_some]
  cases c.op? <;> rfl

theorem explains_ops {σ : Type} {spec : Call → σ → σ × Res} {st : σ → Op → σ}
    (hst : ∀ c x, (spec c x).1 = c.op?.toList.foldl st x) {calls : List Call} {y : σ} :
    ∀ (l : List (Nat × Res)) (x : σ), Explains spec calls x l y → y = (opsOf calls l).foldl st x
  | [], _, h => h.symm
  | (i, r) :: l, x, h => by
    obtain ⟨c, h1, _, h3⟩ := h
    rw [explains_ops hst l _ h3, opsOf_cons h1, List.foldl_append, hst]

theorem map_getElem?_range {α : Type} (l : List α) : (List.range l.length).map (fun i => l[i]?) = l.map some := by
  apply List.ext_getElem?
  intro i
  simp only [List.getElem?_map]
  by_cases h : i < l.length <;> simp [h]

theorem filterMap_range {α β : Type} (f : α → Option β) (l : List α) :
    (List.range l.length).filterMap (fun i => l[i]?.bind f) = l.filterMap f := by
  have h := congrArg (List.filterMap (fun o => Option.bind o f)) (map_getElem?_range l)
  rw [List.filterMap_map, List.filterMap_map] at h
  exact h

theorem order_perm {σ : Type} {I : Impl Call σ Res} {x0 x : σ} {calls : List (Entry Call σ Res)}
    {hist : List (Event Res)} {order : List (Nat × Res)} (h : Core I x0 calls hist order x)
    (hall : ∀ e ∈ calls, ∃ r, e.pc = .returned r) :
    (opsOf (calls.map (·.call)) order).Perm (calls.filterMap (fun e => e.call.op?)) := by
  have hp : (order.map (·.1)).Perm (List.range calls.length) := by
    rw [List.perm_ext_iff_of_nodup h.nodup List.nodup_range]
    intro i
    rw [List.mem_range, List.mem_map]
    constructor
    · rintro ⟨⟨j, r⟩, h1, rfl⟩
      obtain ⟨e, h2, _⟩ := (h.mem _ r).1 h1
      rw [List.getElem?_eq_some_iff] at h2
      exact h2.1
    · intro hi
      obtain ⟨r, hr⟩ := hall calls[i] (List.getElem_mem hi)
      exact ⟨(i, r), (h.mem i r).2 ⟨calls[i], by simp [hi], by rw [hr]; rfl⟩, rfl⟩
  have h1 := hp.filterMap (fun i => (calls.map (·.call))[i]?.bind Call.op?)
  rw [List.filterMap_map, ← List.length_map (·.call), filterMap_range, List.filterMap_map] at h1
  exact h1

/-- With every call back, the changes were made one after the other, and every call returned what it returns after
those before it. -/
theorem history {σ : Type} {I : Impl Call σ Res} {x0 : σ} {spec : Call → σ → σ × Res} {st : σ → Op → σ}
    (hwf : WF I) (hspec : (fun c => (I.body c).run) = spec)
    (hst : ∀ c x, (spec c x).1 = c.op?.toList.foldl st x) (ls : List (Label Call)) (s : State Call σ Res)
    (hs : exec I (init x0) ls = some s) (hall : ∀ e ∈ s.calls, ∃ r, e.pc = .returned r) :
    ∃ ops : List Op, ops.Perm (s.calls.filterMap (fun e => e.call.op?)) ∧ s.content = ops.foldl st x0 ∧
      ∀ (i : Nat) (c : Call) (r : Res), s.calls[i]? = some ⟨c, .returned r⟩ →
        ∃ before after, ops = before ++ c.op?.toList ++ after ∧ r = (spec c (before.foldl st x0)).2 := by
  obtain ⟨order, x, hc, hl⟩ := exec_inv hwf ls _ s (init_inv x0) hs
  have hexp := hc.expl
  rw [hspec] at hexp
  refine ⟨_, order_perm hc hall, ?_, ?_⟩
  · rw [← explains_ops hst _ _ hexp]
    refine hl.quiet ?_
    intro i c p hi
    obtain ⟨r, hr⟩ := hall _ (List.mem_of_getElem? hi)
    exact absurd hr (by simp)
  · intro i c r hi
    have hm := (hc.mem i r).2 ⟨_, hi, rfl⟩
    obtain ⟨a, b, rfl⟩ := List.append_of_mem hm
    obtain ⟨c', m, h1, h2, h3, h4⟩ := explains_split b a _ hexp
    rw [List.getElem?_map, hi] at h1
    cases h1
    refine ⟨opsOf (s.calls.map (·.call)) a, opsOf (s.calls.map (·.call)) b, ?_, ?_⟩
    · rw [opsOf_append, opsOf_cons (by rw [List.getElem?_map, hi]; rfl), List.append_assoc]
    · rw [← explains_ops hst _ _ h2, h3]

/-! ## The stores -/

/-- **C105**, in memory: whatever goroutines call the store, and however their steps interleave, what the calls
returned is what they would have returned if each of them had acted at once, at some moment between its beginning and
its end. Whenever no writer is at work, the content is what those calls made of it. -/
theorem C105_inmemory (z : Serializer) (ls : List (Label Call)) (s : State Call IM.State Res)
    (hs : exec (InM.impl z) (init IM.init) ls = some s) :
    ∃ y, Linearizable (InM.spec z) IM.init (s.calls.map (·.call)) s.hist y ∧
      ((∀ e ∈ s.calls, e.holds (InM.impl z) .write = false) → y = s.content) := by
  obtain ⟨y, h1, h2⟩ := linearizable (InM.wf z) ls s hs
  have e : (fun c => ((InM.impl z).body c).run) = InM.spec z := funext InM.run_eq
  rw [e] at h1
  refine ⟨y, h1, fun hq => h2 ?_⟩
  intro i c p hi hm
  have := hq _ (List.mem_of_getElem? hi)
  simp [Entry.holds, hm] at this

/-- **C105**, LevelDB. -/
theorem C105_leveldb (z : Serializer) (ls : List (Label Call)) (s : State Call LD.State Res)
    (hs : exec (Lev.impl z) (init LD.init) ls = some s) :
    ∃ y, Linearizable (Lev.spec z) LD.init (s.calls.map (·.call)) s.hist y ∧
      ((∀ e ∈ s.calls, e.holds (Lev.impl z) .write = false) → y = s.content) := by
  obtain ⟨y, h1, h2⟩ := linearizable (Lev.wf z) ls s hs
  have e : (fun c => ((Lev.impl z).body c).run) = Lev.spec z := funext Lev.run_eq
  rw [e] at h1
  refine ⟨y, h1, fun hq => h2 ?_⟩
  intro i c p hi hm
  have := hq _ (List.mem_of_getElem? hi)
  simp [Entry.holds, hm] at this

/-- **C105**, in memory: when every call has returned, the store is in the state that the saves and deletes among them
leave one after the other, in some order; each of them did its part there, and each read and each count saw the store
between two of them. So what holds for every sequence of operations (C01 to C11) holds for every schedule. -/
theorem C105_inmemory_history (z : Serializer) (ls : List (Label Call)) (s : State Call IM.State Res)
    (hs : exec (InM.impl z) (init IM.init) ls = some s) (hall : ∀ e ∈ s.calls, ∃ r, e.pc = .returned r) :
    ∃ ops : List Op, ops.Perm (s.calls.filterMap (fun e => e.call.op?)) ∧ s.content = IM.run z ops ∧
      ∀ (i : Nat) (c : Call) (r : Res), s.calls[i]? = some ⟨c, .returned r⟩ →
        ∃ before after, ops = before ++ c.op?.toList ++ after ∧ r = (InM.spec z c (IM.run z before)).2 :=
  history (InM.wf z) (funext InM.run_eq) (fun c x => by cases c <;> rfl) ls s hs hall

/-- **C105**, LevelDB. -/
theorem C105_leveldb_history (z : Serializer) (ls : List (Label Call)) (s : State Call LD.State Res)
    (hs : exec (Lev.impl z) (init LD.init) ls = some s) (hall : ∀ e ∈ s.calls, ∃ r, e.pc = .returned r) :
    ∃ ops : List Op, ops.Perm (s.calls.filterMap (fun e => e.call.op?)) ∧ s.content = LD.run z ops ∧
      ∀ (i : Nat) (c : Call) (r : Res), s.calls[i]? = some ⟨c, .returned r⟩ →
        ∃ before after, ops = before ++ c.op?.toList ++ after ∧ r = (Lev.spec z c (LD.run z before)).2 :=
  history (Lev.wf z) (funext Lev.run_eq) (fun c x => by cases c <;> rfl) ls s hs hall

/-- Of two places in a list, one is first. -/
theorem split_two {α : Type} : ∀ (l : List α) (a b : α), a ∈ l → b ∈ l → a ≠ b →
    (∃ x y w, l = x ++ a :: y ++ b :: w) ∨ (∃ x y w, l = x ++ b :: y ++ a :: w)
  | c :: l, a, b, ha, hb, hne => by
    by_cases h1 : a = c
    · subst h1
      have hb' : b ∈ l := by
        rcases List.mem_cons.mp hb with h | h
        · exact absurd h.symm hne
        · exact h
      obtain ⟨y, w, rfl⟩ := List.append_of_mem hb'
      exact .inl ⟨[], y, w, by simp⟩
    · by_cases h2 : b = c
      · subst h2
        have ha' : a ∈ l := by
          rcases List.mem_cons.mp ha with h | h
          · exact absurd h hne
          · exact h
        obtain ⟨y, w, rfl⟩ := List.append_of_mem ha'
        exact .inr ⟨[], y, w, by simp⟩
      · have ha' : a ∈ l := (List.mem_cons.mp ha).resolve_left h1
        have hb' : b ∈ l := (List.mem_cons.mp hb).resolve_left h2
        rcases split_two l a b ha' hb' hne with ⟨x, y, w, h⟩ | ⟨x, y, w, h⟩
        · exact .inl ⟨c :: x, y, w, by simp [h]⟩
        · exact .inr ⟨c :: x, y, w, by simp [h]⟩

theorem mem_opsOf {calls : List Call} {order : List (Nat × Res)} {o : Op} (h : o ∈ opsOf calls order) :
    ∃ c ∈ calls, c.op? = some o := by
  simp only [opsOf, List.mem_filterMap] at h
  obtain ⟨p, _, h2⟩ := h
  cases hc : calls[p.1]? with
  | none => simp [hc] at h2
  | some c =>
    rw [hc, Option.bind_some] at h2
    exact ⟨c, List.mem_of_getElem? hc, h2⟩

theorem no_second {z : Serializer} {c c' : Option Nat} (hz : z.Lawful) {calls : List Call} {x y w : List (Nat × Res)} {i j : Nat}
    {st : Str} {e : Nat} {ers ers' : List EventRecord} {k k' : Nat} {b b' : List Record} {fin : IM.State}
    (hg : ∀ c ∈ calls, ∀ o, c.op? = some o → o.Guarded z ∧ o.Keeps st)
    (hi : calls[i]? = some (.save st (some e) c ers)) (hj : calls[j]? = some (.save st (some e) c' ers'))
    (h : Explains (InM.spec z) calls IM.init
      (x ++ (i, Res.saved (.ok k) b) :: y ++ (j, Res.saved (.ok k') b') :: w) fin) : False := by
  have hst : ∀ c s, (InM.spec z c s).1 = c.op?.toList.foldl (IM.step z) s := fun c s => by cases c <;> rfl
  obtain ⟨call', m', h1, h2, h3, _⟩ := explains_split w _ _ h
  rw [hj] at h1
  cases h1
  have hm' := explains_ops hst _ _ h2
  obtain ⟨call, m, h4, h5, h6, _⟩ := explains_split y _ _ h2
  rw [hi] at h4
  cases h4
  have hm := explains_ops hst _ _ h5
  rw [opsOf_append, opsOf_cons hi] at hm'
  simp only [InM.spec, Res.saved.injEq] at h3 h6
  have hin : ∀ {l : List (Nat × Res)} {o : Op}, o ∈ opsOf calls l → o.Guarded z ∧ o.Keeps st := by
    intro l o ho
    obtain ⟨c, hc, hco⟩ := mem_opsOf ho
    exact hg c hc o hco
  refine IM.C91_inmemory_one_winner z hz (c := c) (c' := c') (opsOf calls x) (opsOf calls y) st e ers ers' k k' ?_ ?_ ?_ ?_
  · intro o ho
    rcases List.mem_append.mp ho with h | h
    · exact (hin h).1
    · rcases List.mem_cons.mp h with h | h
      · subst h
        exact (hg _ (List.mem_of_getElem? hi) _ rfl).1
      · exact (hin h).1
  · exact fun o ho => (hin ho).2
  · rw [hm] at h6
    exact h6.1
  · rw [hm'] at h3
    exact h3.1

/-- **C105**, in memory: two `OptimisticSave` calls that expect the same number of events in a stream nobody deletes
are not both successful, however they overlap with each other and with other calls. -/
theorem C105_inmemory_one_winner (z : Serializer) {c c' : Option Nat} (hz : z.Lawful) (ls : List (Label Call))
    (s : State Call IM.State Res) (hs : exec (InM.impl z) (init IM.init) ls = some s) (st : Str) (e : Nat)
    (hg : ∀ en ∈ s.calls, ∀ o, en.call.op? = some o → o.Guarded z ∧ o.Keeps st)
    (i j k k' : Nat) (hij : i ≠ j) (ers ers' : List EventRecord) (b b' : List Record)
    (hi : s.calls[i]? = some ⟨.save st (some e) c ers, .returned (.saved (.ok k) b)⟩)
    (hj : s.calls[j]? = some ⟨.save st (some e) c' ers', .returned (.saved (.ok k') b')⟩) : False := by
  obtain ⟨order, x, hc, _⟩ := exec_inv (InM.wf z) ls _ s (init_inv IM.init) hs
  have hexp := hc.expl
  rw [show (fun c => ((InM.impl z).body c).run) = InM.spec z from funext InM.run_eq] at hexp
  have hg' : ∀ c ∈ s.calls.map (·.call), ∀ o, c.op? = some o → o.Guarded z ∧ o.Keeps st := by
    intro c hcm o ho
    obtain ⟨en, h1, rfl⟩ := List.mem_map.mp hcm
    exact hg en h1 o ho
  have hi' : (s.calls.map (·.call))[i]? = some (.save st (some e) c ers) := by rw [List.getElem?_map, hi]; rfl
  have hj' : (s.calls.map (·.call))[j]? = some (.save st (some e) c' ers') := by rw [List.getElem?_map, hj]; rfl
  rcases split_two order (i, Res.saved (.ok k) b) (j, Res.saved (.ok k') b') ((hc.mem _ _).2 ⟨_, hi, rfl⟩)
    ((hc.mem _ _).2 ⟨_, hj, rfl⟩) (fun h => hij (congrArg Prod.fst h)) with ⟨x1, y1, w1, rfl⟩ | ⟨x1, y1, w1, rfl⟩
  · exact no_second hz hg' hi' hj' hexp
  · exact no_second hz hg' hj' hi' hexp

/-- How many events a call may add. -/
def weight (calls : List Call) (i : Nat) : Nat := ((calls[i]?.bind Call.op?).map Op.size).getD 0

theorem opsOf_size (calls : List Call) : ∀ order : List (Nat × Res),
    ((opsOf calls order).map Op.size).sum = ((order.map (·.1)).map (weight calls)).sum
  | [] => rfl
  | (i, r) :: order => by
    have ih := opsOf_size calls order
    simp only [opsOf, List.filterMap_cons, List.map_cons, List.sum_cons, weight] at ih ⊢
    cases h : calls[i]?.bind Call.op? with
    | none => simp [h, ih]
    | some o => simp [h, ih]

theorem sum_le_range {f : Nat → Nat} {n : Nat} {ids : List Nat} (hn : ids.Nodup) (hlt : ∀ i ∈ ids, i < n) :
    (ids.map f).sum ≤ ((List.range n).map f).sum := by
  have hp : (ids ++ (List.range n).filter (fun i => decide (i ∉ ids))).Perm (List.range n) := by
    rw [List.perm_ext_iff_of_nodup ?_ List.nodup_range]
    · intro i
      simp only [List.mem_append, List.mem_filter, List.mem_range, decide_eq_true_eq]
      constructor
      · rintro (h | h)
        · exact hlt i h
        · exact h.1
      · intro h
        by_cases hi : i ∈ ids
        · exact .inl hi
        · exact .inr ⟨h, hi⟩
    · rw [List.nodup_append]
      refine ⟨hn, List.nodup_range.filter _, ?_⟩
      intro a ha b hb
      simp only [List.mem_filter, decide_eq_true_eq] at hb
      rintro rfl
      exact hb.2 ha
  have h1 := (hp.map f).sum_nat
  rw [List.map_append, List.sum_append] at h1
  omega

theorem opsOf_bound {σ : Type} {I : Impl Call σ Res} {x0 x : σ} {calls : List (Entry Call σ Res)}
    {hist : List (Event Res)} {order : List (Nat × Res)} (h : Core I x0 calls hist order x) :
    ((opsOf (calls.map (·.call)) order).map Op.size).sum ≤
      ((calls.filterMap (fun e => e.call.op?)).map Op.size).sum := by
  rw [opsOf_size]
  refine Nat.le_trans (sum_le_range h.nodup (n := (calls.map (·.call)).length) ?_) ?_
  · intro i hi
    obtain ⟨⟨j, r⟩, h1, rfl⟩ := List.mem_map.mp hi
    obtain ⟨e, h2, _⟩ := (h.mem _ r).1 h1
    rw [List.getElem?_eq_some_iff] at h2
    rw [List.length_map]
    exact h2.1
  · have h1 := filterMap_range Call.op? (calls.map (·.call))
    rw [List.filterMap_map] at h1
    have h2 : (calls.filterMap (fun e => e.call.op?)) =
        (List.range (calls.map (·.call)).length).filterMap (fun i => (calls.map (·.call))[i]?.bind Call.op?) :=
      h1.symm
    rw [h2]
    generalize List.range (calls.map (·.call)).length = l
    induction l with
    | nil => simp
    | cons a l ih =>
      simp only [List.map_cons, List.sum_cons, List.filterMap_cons]
      simp only [weight] at ih ⊢
      cases h : (calls.map (·.call))[a]?.bind Call.op? with
      | none => simpa [h] using ih
      | some o => simpa [h] using ih

theorem no_second_leveldb {z : Serializer} {c c' : Option Nat} (hz : z.Lawful) {calls : List Call} {x y w : List (Nat × Res)} {i j : Nat}
    {st : Str} {e : Nat} {ers ers' : List EventRecord} {k k' : Nat} {b b' : List Record} {fin : LD.State}
    (hg : ∀ c ∈ calls, ∀ o, c.op? = some o → o.NamesIn N ∧ o.Keeps st)
    (hi : calls[i]? = some (.save st (some e) c ers)) (hj : calls[j]? = some (.save st (some e) c' ers'))
    (hb : ((opsOf calls (x ++ (i, Res.saved (.ok k) b) :: y ++ (j, Res.saved (.ok k') b') :: w)).map Op.size).sum
      < 2 ^ 64)
    (h : Explains (Lev.spec z) calls LD.init
      (x ++ (i, Res.saved (.ok k) b) :: y ++ (j, Res.saved (.ok k') b') :: w) fin) : False := by
  have hst : ∀ c s, (Lev.spec z c s).1 = c.op?.toList.foldl (LD.step z) s := fun c s => by cases c <;> rfl
  obtain ⟨call', m', h1, h2, h3, _⟩ := explains_split w _ _ h
  rw [hj] at h1
  cases h1
  have hm' := explains_ops hst _ _ h2
  obtain ⟨call, m, h4, h5, h6, _⟩ := explains_split y _ _ h2
  rw [hi] at h4
  cases h4
  have hm := explains_ops hst _ _ h5
  rw [opsOf_append, opsOf_cons hi] at hm'
  simp only [Lev.spec, Res.saved.injEq] at h3 h6
  have hin : ∀ {l : List (Nat × Res)} {o : Op}, o ∈ opsOf calls l → o.NamesIn N ∧ o.Keeps st := by
    intro l o ho
    obtain ⟨c, hc, hco⟩ := mem_opsOf ho
    exact hg c hc o hco
  rw [opsOf_append, opsOf_append, opsOf_cons hi, opsOf_cons hj] at hb
  refine LD.C91_leveldb_one_winner z hz (c := c) (c' := c') (opsOf calls x) (opsOf calls y) st e ers ers' k k' ?_
    (hg _ (List.mem_of_getElem? hj) _ rfl).1 ?_ ?_ ?_ ?_
  · intro o ho
    rcases List.mem_append.mp ho with h | h
    · exact (hin h).1
    · rcases List.mem_cons.mp h with h | h
      · subst h
        exact (hg _ (List.mem_of_getElem? hi) _ rfl).1
      · exact (hin h).1
  · simp only [Call.op?, Option.toList_some, List.map_append, List.map_cons, List.map_nil, List.sum_append,
      List.sum_cons, List.sum_nil, Op.size] at hb ⊢
    omega
  · exact fun o ho => (hin ho).2
  · rw [hm] at h6
    exact h6.1
  · rw [hm'] at h3
    exact h3.1

/-- **C105**, LevelDB: as `C105_inmemory_one_winner`, for names without the separator of the keys and fewer than 2^64
events. -/
theorem C105_leveldb_one_winner (z : Serializer) {c c' : Option Nat} (hz : z.Lawful) (ls : List (Label Call))
    (s : State Call LD.State Res) (hs : exec (Lev.impl z) (init LD.init) ls = some s) (st : Str) (e : Nat)
    (hg : ∀ en ∈ s.calls, ∀ o, en.call.op? = some o → o.NamesIn N ∧ o.Keeps st)
    (hb : ((s.calls.filterMap (fun en => en.call.op?)).map Op.size).sum < 2 ^ 64)
    (i j k k' : Nat) (hij : i ≠ j) (ers ers' : List EventRecord) (b b' : List Record)
    (hi : s.calls[i]? = some ⟨.save st (some e) c ers, .returned (.saved (.ok k) b)⟩)
    (hj : s.calls[j]? = some ⟨.save st (some e) c' ers', .returned (.saved (.ok k') b')⟩) : False := by
  obtain ⟨order, x, hc, _⟩ := exec_inv (Lev.wf z) ls _ s (init_inv LD.init) hs
  have hexp := hc.expl
  rw [show (fun c => ((Lev.impl z).body c).run) = Lev.spec z from funext Lev.run_eq] at hexp
  have hbound := Nat.lt_of_le_of_lt (opsOf_bound hc) hb
  have hg' : ∀ c ∈ s.calls.map (·.call), ∀ o, c.op? = some o → o.NamesIn N ∧ o.Keeps st := by
    intro c hcm o ho
    obtain ⟨en, h1, rfl⟩ := List.mem_map.mp hcm
    exact hg en h1 o ho
  have hi' : (s.calls.map (·.call))[i]? = some (.save st (some e) c ers) := by rw [List.getElem?_map, hi]; rfl
  have hj' : (s.calls.map (·.call))[j]? = some (.save st (some e) c' ers') := by rw [List.getElem?_map, hj]; rfl
  rcases split_two order (i, Res.saved (.ok k) b) (j, Res.saved (.ok k') b') ((hc.mem _ _).2 ⟨_, hi, rfl⟩)
    ((hc.mem _ _).2 ⟨_, hj, rfl⟩) (fun h => hij (congrArg Prod.fst h)) with ⟨x1, y1, w1, rfl⟩ | ⟨x1, y1, w1, rfl⟩
  · exact no_second_leveldb hz hg' hi' hj' hbound hexp
  · exact no_second_leveldb hz hg' hj' hi' hbound hexp

/-- Records that an operation saved are read by a later read of the stream. -/
theorem read_own {z : Serializer} (hz : z.Lawful) (ops₁ ops₂ : List Op) (st : Str) (expected cancelAt : Option Nat)
    (ers : List EventRecord) (k : Nat)
    (hg : ∀ op ∈ ops₁ ++ Op.save st expected cancelAt ers :: ops₂, op.Guarded z) (hk : ∀ op ∈ ops₂, op.Keeps st)
    (h1 : (IM.saveEvents z (IM.run z ops₁) st expected cancelAt ers).out = .ok k) :
    (IM.saveEvents z (IM.run z ops₁) st expected cancelAt ers).broadcast <:+:
      (IM.eventsByStream z (IM.run z (ops₁ ++ Op.save st expected cancelAt ers :: ops₂)) none 0 st).recs := by
  have hg1 : ∀ op ∈ ops₁, op.Guarded z := fun op ho => hg op (List.mem_append_left _ ho)
  have hg3 : ∀ op ∈ ops₁ ++ [Op.save st expected cancelAt ers], op.Guarded z := by
    intro op ho
    apply hg
    simp only [List.mem_append, List.mem_cons, List.not_mem_nil, or_false] at ho ⊢
    rcases ho with h | h
    · exact .inl h
    · exact .inr (.inl h)
  obtain ⟨n, g, _, _, _, _, hev, hb⟩ := IM.C01_save_appends hz ops₁ st expected cancelAt ers k h1
  obtain ⟨new, hn1, hn2, _⟩ := IM.C01_save_appends_indexes hz ops₁ hg1 st expected cancelAt ers k
    (hg (.save st expected cancelAt ers) (List.mem_append_right _ List.mem_cons_self)) h1
  rw [hev] at hn1
  have hnew := List.append_cancel_left hn1
  have hrun : IM.run z (ops₁ ++ [Op.save st expected cancelAt ers]) =
      (IM.saveEvents z (IM.run z ops₁) st expected cancelAt ers).state := by
    simp [IM.run, List.foldl_append, IM.step]
  have s3 := (IM.run_sim hz (ops₁ ++ [Op.save st expected cancelAt ers]) hg3).2
  have s4 := (IM.run_sim hz (ops₁ ++ Op.save st expected cancelAt ers :: ops₂) hg).2
  obtain ⟨x, hx⟩ := specRun_grows z st ops₂ (specRun z (ops₁ ++ [Op.save st expected cancelAt ers])) hk
  have e1 : ops₂.foldl (specStep z) (specRun z (ops₁ ++ [Op.save st expected cancelAt ers])) =
      specRun z (ops₁ ++ Op.save st expected cancelAt ers :: ops₂) := by
    simp [specRun, List.foldl_append]
  rw [e1] at hx
  rw [IM.read_spec s4, hx, ← IM.read_spec s3, hrun, hn2, hb, hnew]
  exact ⟨_, x, rfl⟩

/-- **C105**, in memory: who reads a stream after somebody's save of it has returned, reads what was saved, in one
piece, whatever other goroutines do, as long as nobody deletes the stream. -/
theorem C105_inmemory_read_after_save (z : Serializer) (hz : z.Lawful) (ls : List (Label Call))
    (s : State Call IM.State Res) (hs : exec (InM.impl z) (init IM.init) ls = some s) (st : Str)
    (hg : ∀ en ∈ s.calls, ∀ o, en.call.op? = some o → o.Guarded z ∧ o.Keeps st)
    (i j k : Nat) (expected cancelAt : Option Nat) (ers : List EventRecord) (b : List Record) (it : Iter)
    (hi : (s.calls.map (·.call))[i]? = some (.save st expected cancelAt ers))
    (hj : (s.calls.map (·.call))[j]? = some (.stream none 0 st))
    (hp : Precedes s.hist (.res i (.saved (.ok k) b)) (.inv j))
    (hr : Event.res j (.read (.ok it)) ∈ s.hist) : b <:+: it.recs := by
  obtain ⟨y, ⟨order, _, h1, h2, h3⟩, _⟩ := C105_inmemory z ls s hs
  obtain ⟨o1, o2, o3, rfl⟩ := h3 i _ j _ hp (h1 j _ hr)
  have hst : ∀ c s, (InM.spec z c s).1 = c.op?.toList.foldl (IM.step z) s := fun c s => by cases c <;> rfl
  generalize hcalls : s.calls.map (·.call) = calls at *
  have hin : ∀ {l : List (Nat × Res)} {o : Op}, o ∈ opsOf calls l → o.Guarded z ∧ o.Keeps st := by
    intro l o ho
    obtain ⟨c, hc, hco⟩ := mem_opsOf ho
    rw [← hcalls] at hc
    obtain ⟨en, h4, rfl⟩ := List.mem_map.mp hc
    exact hg en h4 o hco
  obtain ⟨c, m, h4, h5, h6, h7⟩ := explains_split _ o1 _ h2
  rw [hi] at h4
  cases h4
  obtain ⟨c', m', h8, h9, h10, _⟩ := explains_split o3 o2 _ h7
  rw [hj] at h8
  cases h8
  have hm := explains_ops hst _ _ h5
  have hm' := explains_ops hst _ _ h9
  simp only [InM.spec, Res.saved.injEq, Res.read.injEq, Outcome.ok.injEq] at h6 h10
  rw [← h10, ← h6.2, hm', hm]
  have := read_own hz (opsOf calls o1) (opsOf calls o2) st expected cancelAt ers k ?_ (fun o ho => (hin ho).2)
    (by rw [hm] at h6; exact h6.1)
  · simpa [IM.run, List.foldl_append, IM.step, InM.spec] using this
  · intro o ho
    rcases List.mem_append.mp ho with h | h
    · exact (hin h).1
    · rcases List.mem_cons.mp h with h | h
      · subst h
        refine (hin (l := [(i, .deleted (.ok ()))]) ?_).1
        rw [opsOf_cons hi]
        exact List.mem_append_left _ (by simp [Call.op?])
      · exact (hin h).1

/-- Records that an operation saved are read by a later read of the stream. -/
theorem read_own_leveldb {z : Serializer} (hz : z.Lawful) (ops₁ ops₂ : List Op) (st : Str) (expected cancelAt : Option Nat)
    (ers : List EventRecord) (k : Nat) (hn : ∀ op ∈ ops₁ ++ Op.save st expected cancelAt ers :: ops₂, op.NamesIn N)
    (hb : ((ops₁ ++ Op.save st expected cancelAt ers :: ops₂).map Op.size).sum < 2 ^ 64) (hk : ∀ op ∈ ops₂, op.Keeps st)
    (h1 : (LD.saveEvents z (LD.run z ops₁) st expected cancelAt ers).out = .ok k) (it : Iter)
    (hr : LD.eventsByStream z (LD.run z (ops₁ ++ Op.save st expected cancelAt ers :: ops₂)) none 0 st = .ok it) :
    (LD.saveEvents z (LD.run z ops₁) st expected cancelAt ers).broadcast <:+: it.recs := by
  have hno := hn _ (List.mem_append_right _ List.mem_cons_self)
  have hb1 : (ops₁.map Op.size).sum + ers.length < 2 ^ 64 := by
    simp only [List.map_append, List.map_cons, List.sum_append, List.sum_cons, Op.size] at hb
    omega
  obtain ⟨hout, hbc⟩ := (LD.C11_calls hz ops₁ (fun op ho => hn op (List.mem_append_left _ ho))).1 st expected cancelAt ers hno hb1
  rw [h1] at hout
  have hout' := hout
  unfold aSaveOut at hout'
  split at hout'
  · simp at hout'
  · rename_i hne
    split at hout'
    · simp at hout'
    · rename_i hlk
      split at hout'
      · rename_i hp
        have e2 : (aRun z (ops₁ ++ [Op.save st expected cancelAt ers])).log = (aRun z ops₁).log.append z.view st ers := by
          have : aRun z (ops₁ ++ [Op.save st expected cancelAt ers]) = aStep z (aRun z ops₁) (.save st expected cancelAt ers) := by
            simp [aRun, List.foldl_append]
          rw [this]
          simp only [aStep, if_neg hne, if_neg hlk, hp]
        obtain ⟨x, hx⟩ := aRun_grows z st ops₂ (aRun z (ops₁ ++ [Op.save st expected cancelAt ers])) hk
        have e1 : ops₂.foldl (aStep z) (aRun z (ops₁ ++ [Op.save st expected cancelAt ers])) =
            aRun z (ops₁ ++ Op.save st expected cancelAt ers :: ops₂) := by
          simp [aRun, List.foldl_append]
        rw [e1, e2] at hx
        have hst : (aRun z (ops₁ ++ Op.save st expected cancelAt ers :: ops₂)).stuck = false := by
          cases hs : (aRun z (ops₁ ++ Op.save st expected cancelAt ers :: ops₂)).stuck with
          | false => rfl
          | true =>
            have hs' := (LD.run_simA hz _ hn hb).1
            simp [LD.eventsByStream, hs'.mux, hs] at hr
        have hrd := ((LD.C11_reads hz _ hn hb).1 hst).2.2.2 none 0 st hno.1
        rw [hr, Outcome.ok.injEq] at hrd
        have hpos : (aRun z (ops₁ ++ Op.save st expected cancelAt ers :: ops₂)).log.streamLen st ≠ 0 := by
          have := List.length_pos_iff.mpr hne
          have h3 := Log.streamLen_append_self hz (aRun z ops₁).log st ers
          unfold Log.streamLen at h3 ⊢
          rw [hx, List.length_append]
          omega
        rw [hbc, ← hout, if_pos hout', hrd, if_neg hpos]
        have hall : ((aRun z (ops₁ ++ Op.save st expected cancelAt ers :: ops₂)).log.stream st).filter
            (fun r => decide (r.seq ≥ 0)) = (aRun z (ops₁ ++ Op.save st expected cancelAt ers :: ops₂)).log.stream st :=
          List.filter_eq_self.mpr (by simp)
        simp only [cut]
        rw [hall, hx, Log.stream_append_self hz]
        exact ⟨_, x, rfl⟩
      · simp at hout'

/-- **C105**, LevelDB: as `C105_inmemory_read_after_save`. -/
theorem C105_leveldb_read_after_save (z : Serializer) (hz : z.Lawful) (ls : List (Label Call))
    (s : State Call LD.State Res) (hs : exec (Lev.impl z) (init LD.init) ls = some s) (st : Str)
    (hg : ∀ en ∈ s.calls, ∀ o, en.call.op? = some o → o.NamesIn N ∧ o.Keeps st)
    (hb : ((s.calls.filterMap (fun en => en.call.op?)).map Op.size).sum < 2 ^ 64)
    (i j k : Nat) (expected cancelAt : Option Nat) (ers : List EventRecord) (b : List Record) (it : Iter)
    (hi : (s.calls.map (·.call))[i]? = some (.save st expected cancelAt ers))
    (hj : (s.calls.map (·.call))[j]? = some (.stream none 0 st))
    (hp : Precedes s.hist (.res i (.saved (.ok k) b)) (.inv j))
    (hr : Event.res j (.read (.ok it)) ∈ s.hist) : b <:+: it.recs := by
  obtain ⟨order, y, hcore, _⟩ := exec_inv (Lev.wf z) ls _ s (init_inv LD.init) hs
  have h2 := hcore.expl
  rw [show (fun c => ((Lev.impl z).body c).run) = Lev.spec z from funext Lev.run_eq] at h2
  have hbound := Nat.lt_of_le_of_lt (opsOf_bound hcore) hb
  have hjm : (j, Res.read (.ok it)) ∈ order := by
    obtain ⟨c, hc⟩ := hcore.ended j _ hr
    exact (hcore.mem _ _).2 ⟨_, hc, rfl⟩
  obtain ⟨o1, o2, o3, rfl⟩ := hcore.time i _ j _ hp hjm
  have hst : ∀ c s, (Lev.spec z c s).1 = c.op?.toList.foldl (LD.step z) s := fun c s => by cases c <;> rfl
  generalize hcalls : s.calls.map (·.call) = calls at *
  have hin : ∀ {l : List (Nat × Res)} {o : Op}, o ∈ opsOf calls l → o.NamesIn N ∧ o.Keeps st := by
    intro l o ho
    obtain ⟨c, hc, hco⟩ := mem_opsOf ho
    rw [← hcalls] at hc
    obtain ⟨en, h4, rfl⟩ := List.mem_map.mp hc
    exact hg en h4 o hco
  obtain ⟨c, m, h4, h5, h6, h7⟩ := explains_split _ o1 _ h2
  rw [hi] at h4
  cases h4
  obtain ⟨c', m', h8, h9, h10, _⟩ := explains_split o3 o2 _ h7
  rw [hj] at h8
  cases h8
  have hm := explains_ops hst _ _ h5
  have hm' := explains_ops hst _ _ h9
  simp only [Lev.spec, Res.saved.injEq, Res.read.injEq] at h6 h10
  rw [opsOf_append, opsOf_cons hi, opsOf_append, opsOf_cons hj] at hbound
  rw [← h6.2, hm]
  refine read_own_leveldb (N := N) hz (opsOf calls o1) (opsOf calls o2) st expected cancelAt ers k ?_ ?_ (fun o ho => (hin ho).2)
    (by rw [hm] at h6; exact h6.1) it ?_
  · intro o ho
    rcases List.mem_append.mp ho with h | h
    · exact (hin h).1
    · rcases List.mem_cons.mp h with h | h
      · subst h
        refine (hin (l := [(i, .deleted (.ok ()))]) ?_).1
        rw [opsOf_cons hi]
        exact List.mem_append_left _ (by simp [Call.op?])
      · exact (hin h).1
  · simp only [Call.op?, Option.toList_some, Option.toList_none, List.map_append, List.map_cons, List.map_nil,
      List.sum_append, List.sum_cons, List.sum_nil, Op.size] at hbound ⊢
    omega
  · rw [hm', hm] at h10
    simpa [LD.run, List.foldl_append, LD.step, Lev.spec] using h10

/-! ## Cases -/

open Demo

/-- Two savers that expect an empty stream and a reader overlap: the second saver gets the lock first, and the reader
reads before the first saver does. -/
def demoSchedule : List (Label Call) :=
  [.invoke (.save sA (some 0) none [evA [1]]), .invoke (.save sA (some 0) none [evA [2], evA [3]]), .lock 1,
   .invoke (.stream none 0 sA), .step 1, .step 1, .step 1, .unlock 1, .lock 2, .step 2, .ret 1,
   .invoke (.total sA false), .lock 3, .step 2, .step 3, .unlock 3, .step 2, .unlock 2, .lock 0, .ret 2, .step 0,
   .step 0, .step 0, .unlock 0, .ret 0, .ret 3]

/-- The hypotheses of the theorems above hold of it. -/
example : ((exec (InM.impl demo) (init IM.init) demoSchedule).map (fun s => s.hist)) = some
    [.inv 0, .inv 1, .inv 2,
     .res 1 (.saved (.ok 2) [mkRecord sA 1 1 (evA [2]), mkRecord sA 2 2 (evA [3])]),
     .inv 3,
     .res 2 (.read (.ok ⟨[mkRecord sA 1 1 (evA [2]), mkRecord sA 2 2 (evA [3])], none⟩)),
     .res 0 (.saved (.err (.unexpected 0 2)) []),
     .res 3 (.total (.ok 2))] := by decide

/-- The same in LevelDB, where counting takes no lock: call 3 counts while call 1 has the lock and has not committed. -/
example : ((exec (Lev.impl demo) (init LD.init)
    [.invoke (.save sA (some 0) none [evA [1]]), .invoke (.save sA (some 0) none [evA [2], evA [3]]), .lock 1,
     .invoke (.stream none 0 sA), .step 1, .step 1, .invoke (.total sA false), .lock 3, .step 3, .step 1, .step 1,
     .unlock 3, .unlock 1, .lock 2, .step 2, .ret 1, .step 2, .ret 3, .step 2, .unlock 2, .lock 0, .ret 2, .step 0,
     .step 0, .unlock 0, .ret 0]).map (fun s => s.hist)) = some
    [.inv 0, .inv 1, .inv 2, .inv 3,
     .res 1 (.saved (.ok 2) [mkRecord sA 1 1 (evA [2]), mkRecord sA 2 2 (evA [3])]),
     .res 3 (.total (.ok 0)),
     .res 2 (.read (.ok ⟨[mkRecord sA 1 1 (evA [2]), mkRecord sA 2 2 (evA [3])], none⟩)),
     .res 0 (.saved (.err (.unexpected 0 2)) [])] := by decide +kernel

/-- A reader keeps the writers out until it is done, and the other way round: these steps are not possible. -/
example : (exec (InM.impl demo) (init IM.init)
      [.invoke (.save sA none none [evA [1]]), .invoke (.events none 0), .lock 1, .lock 0]).isNone ∧
    (exec (InM.impl demo) (init IM.init)
      [.invoke (.save sA none none [evA [1]]), .invoke (.events none 0), .lock 0, .lock 1]).isNone ∧
    (exec (Lev.impl demo) (init LD.init)
      [.invoke (.save sA none none [evA [1]]), .invoke (.events none 0), .lock 0, .step 0, .lock 1]).isNone ∧
    (exec (InM.impl demo) (init IM.init)
      [.invoke (.stream none 0 sA), .invoke (.events none 0), .lock 0, .lock 1]).isSome := by decide +kernel

end RangeDB.Lin

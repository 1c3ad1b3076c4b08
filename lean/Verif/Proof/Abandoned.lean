import Verif.Spec.Abandoned

/-! # Lemmas for `Thm/Abandoned.lean` -/

namespace RangeDB.Left

/-- How many turns a goroutine still needs when the context is done. -/
def Src.rank : Src → Nat
  | .at _ _ => 2
  | .giving => 1
  | .failing => 0
  | .over => 0

/-- No error of the store is to come. -/
def Src.sound : Src → Bool
  | .at _ f => !f
  | .failing => false
  | _ => true

theorem rank_turn (x : Src) (h : x.sound = true) : (x.turn true).rank ≤ x.rank - 1 ∧ (x.turn true).sound = true := by
  cases x with
  | «at» l f =>
    cases l <;> cases f <;> simp_all [Src.turn, Src.rank, Src.sound]
  | giving => simp [Src.turn, Src.rank, Src.sound]
  | failing => simp [Src.sound] at h
  | over => simp [Src.turn, Src.rank, Src.sound]

theorem rank_give (x y : Src) (o : Option Nat) (h : x.give = some (o, y)) :
    y.rank ≤ x.rank ∧ (x.sound = true → y.sound = true) ∧ (o = none → y = .over) := by
  cases x with
  | «at» l f =>
    cases l with
    | nil => simp [Src.give] at h
    | cons r l =>
      simp only [Src.give, Option.some.injEq, Prod.mk.injEq] at h
      obtain ⟨rfl, rfl⟩ := h
      exact ⟨Nat.le_refl _, fun h => h, by simp⟩
  | giving => simp only [Src.give, Option.some.injEq, Prod.mk.injEq] at h; obtain ⟨rfl, rfl⟩ := h; simp [Src.rank, Src.sound]
  | failing => simp only [Src.give, Option.some.injEq, Prod.mk.injEq] at h; obtain ⟨rfl, rfl⟩ := h; simp [Src.rank, Src.sound]
  | over => simp only [Src.give, Option.some.injEq, Prod.mk.injEq] at h; obtain ⟨rfl, rfl⟩ := h; simp [Src.rank, Src.sound]

theorem over_of_rank {x : Src} (h : x.rank = 0) (hs : x.sound = true) : x = .over := by
  cases x <;> simp_all [Src.rank, Src.sound]

/-- What an action does to the `k`-th goroutine: a turn, a receive, or nothing. -/
theorem step_src (s : State) (a : Act) (k : Nat) (x : Src) (hx : s.srcs[k]? = some x) :
    ∃ y, (step s a).srcs[k]? = some y ∧
      (a = .turn k → y = x.turn s.cancelled) ∧
      (a ≠ .turn k → y = x ∨ ∃ o, x.give = some (o, y)) := by
  have hset : ∀ (j : Nat) (z w : Src) (o : Option Nat), s.srcs[j]? = some z → z.give = some (o, w) →
      ∃ y, (s.srcs.set j w)[k]? = some y ∧ (y = x ∨ ∃ o, x.give = some (o, y)) := by
    intro j z w o hz hg
    by_cases hj : j = k
    · subst hj
      rw [hx] at hz
      obtain rfl := Option.some.inj hz
      exact ⟨w, by rw [List.getElem?_set_self', hx]; rfl, .inr ⟨o, hg⟩⟩
    · exact ⟨x, by rw [List.getElem?_set_ne hj]; exact hx, .inl rfl⟩
  have hfill : ∀ (t : State) (j : Nat), (t.filled j).srcs = t.srcs := by
    intro t j; unfold State.filled; split <;> rfl
  cases a with
  | cancel => exact ⟨x, hx, by simp, fun _ => .inl rfl⟩
  | turn j =>
    simp only [step]
    by_cases hj : j = k
    · subst hj
      rw [hx]
      exact ⟨_, by simp only []; rw [List.getElem?_set_self', hx]; rfl, fun _ => rfl, fun h => (h rfl).elim⟩
    · refine ⟨x, ?_, by simp [hj], fun _ => .inl rfl⟩
      split
      · simp only []; rw [List.getElem?_set_ne hj]; exact hx
      · exact hx
  | next =>
    refine ⟨x, ?_, by simp, fun _ => .inl rfl⟩
    simp only [step]
    split
    · split <;> exact hx
    · exact hx
  | pull =>
    suffices h : ∃ y, (step s .pull).srcs[k]? = some y ∧ (y = x ∨ ∃ o, x.give = some (o, y)) by
      obtain ⟨y, h1, h2⟩ := h
      exact ⟨y, h1, by simp, fun _ => h2⟩
    simp only [step]
    split
    · split
      · exact ⟨x, hx, .inl rfl⟩
      · rename_i z hz
        split
        · exact ⟨x, hx, .inl rfl⟩
        · rename_i r w hg
          rw [hfill]; exact hset _ z w _ hz hg
        · rename_i w hg
          rw [hfill]; exact hset _ z w _ hz hg
    · split
      · exact ⟨x, hx, .inl rfl⟩
      · rename_i p hp
        split
        · exact ⟨x, hx, .inl rfl⟩
        · rename_i r w hg
          obtain ⟨z, hz, hg⟩ := Option.bind_eq_some_iff.mp hg
          exact hset _ z w _ hz hg
        · rename_i w hg
          obtain ⟨z, hz, hg⟩ := Option.bind_eq_some_iff.mp hg
          exact hset _ z w _ hz hg
    · exact ⟨x, hx, .inl rfl⟩

theorem step_cancelled (s : State) (a : Act) (h : s.cancelled = true) : (step s a).cancelled = true := by
  cases a <;> simp only [step]
  · split <;> exact h
  · split
    · split
      · exact h
      · split
        · exact h
        · unfold State.filled; split <;> exact h
        · unfold State.filled; split <;> exact h
    · split
      · exact h
      · split <;> exact h
    · exact h
  · split
    · split <;> exact h
    · exact h

theorem turns_cons (k : Nat) (a : Act) (acts : List Act) : turns k (a :: acts) = turns k acts + if a = .turn k then 1 else 0 := by
  unfold turns
  rw [List.countP_cons]
  by_cases h : a = .turn k <;> simp [h]

/-- A goroutine without an error to come needs two turns after the context is done. -/
theorem run_src (acts : List Act) : ∀ (s : State) (k : Nat) (x : Src), s.cancelled = true → s.srcs[k]? = some x → x.sound = true →
    ∃ y, (run s acts).srcs[k]? = some y ∧ y.sound = true ∧ y.rank ≤ x.rank - turns k acts := by
  induction acts with
  | nil => intro s k x _ hx hs; exact ⟨x, hx, hs, by simp [turns]⟩
  | cons a acts ih =>
    intro s k x hc hx hs
    obtain ⟨y, h1, h2, h3⟩ := step_src s a k x hx
    have hy : y.sound = true ∧ y.rank ≤ x.rank - (if a = .turn k then 1 else 0) := by
      by_cases ha : a = .turn k
      · rw [h2 ha, hc, if_pos ha]
        exact ⟨(rank_turn x hs).2, (rank_turn x hs).1⟩
      · rw [if_neg ha]
        rcases h3 ha with rfl | ⟨o, ho⟩
        · exact ⟨hs, Nat.le_refl _⟩
        · have := rank_give x y o ho
          exact ⟨this.2.1 hs, this.1⟩
    obtain ⟨w, h4, h5, h6⟩ := ih (step s a) k y (step_cancelled s a hc) h1 hy.1
    refine ⟨w, h4, h5, ?_⟩
    rw [turns_cons]
    omega

/-- A goroutine that has no error to come has none later either. -/
theorem run_sound (acts : List Act) : ∀ (s : State) (k : Nat) (x : Src), s.srcs[k]? = some x → x.sound = true →
    ∃ y, (run s acts).srcs[k]? = some y ∧ y.sound = true := by
  induction acts with
  | nil => intro s k x hx hs; exact ⟨x, hx, hs⟩
  | cons a acts ih =>
    intro s k x hx hs
    obtain ⟨y, h1, h2, h3⟩ := step_src s a k x hx
    refine ih (step s a) k y h1 ?_
    by_cases ha : a = .turn k
    · rw [h2 ha]
      cases x with
      | «at» l f => cases l <;> cases f <;> cases s.cancelled <;> simp_all [Src.turn, Src.sound]
      | giving => rfl
      | failing => simp [Src.sound] at hs
      | over => rfl
    · rcases h3 ha with rfl | ⟨o, ho⟩
      · exact hs
      · exact (rank_give x y o ho).2.1 hs

theorem run_append (s : State) (a b : List Act) : run s (a ++ b) = run (run s a) b := by simp [run]

theorem run_srcs_length (acts : List Act) : ∀ s : State, (run s acts).srcs.length = s.srcs.length := by
  induction acts with
  | nil => intro s; rfl
  | cons a acts ih =>
    intro s
    have h : (step s a).srcs.length = s.srcs.length := by
      have hfill : ∀ (t : State) (j : Nat), (t.filled j).srcs = t.srcs := by
        intro t j; unfold State.filled; split <;> rfl
      cases a <;> simp only [step] <;> (repeat' split) <;> simp [hfill]
    exact (ih (step s a)).trans h

/-! ## The merging goroutine -/

/-- It holds a record for a consumer that does not come. -/
theorem step_held (s : State) (a : Act) (i : Nat) (p : Pipe) (ha : a ≠ .next) (h : s.merge = .send i) (hp : s.pipes[i]? = some p) :
    (step s a).merge = .send i ∧ (step s a).pipes[i]? = some p := by
  cases a with
  | cancel => exact ⟨h, hp⟩
  | turn k => simp only [step]; split <;> exact ⟨h, hp⟩
  | pull => simp only [step, h]; exact ⟨trivial, hp⟩
  | next => exact (ha rfl).elim

theorem run_held (acts : List Act) : ∀ (s : State) (i : Nat) (p : Pipe), Abandons acts → s.merge = .send i → s.pipes[i]? = some p →
    (run s acts).merge = .send i ∧ (run s acts).pipes[i]? = some p := by
  induction acts with
  | nil => intro s i p _ h hp; exact ⟨h, hp⟩
  | cons a acts ih =>
    intro s i p ha h hp
    have := step_held s a i p (fun e => ha (by simp [e])) h hp
    exact ih (step s a) i p (fun e => ha (by simp [e])) this.1 this.2

theorem smallest_lt (ps : List Pipe) : ∀ best min i, best < i + ps.length ∨ best < i → smallest best min i ps < i + ps.length ∨
    smallest best min i ps = best := by
  induction ps with
  | nil => intro best min i _; exact .inr rfl
  | cons p ps ih =>
    intro best min i h
    simp only [smallest, List.length_cons]
    split
    · rcases ih i p.2 (i + 1) (by omega) with h1 | h1
      · left; omega
      · left; omega
    · rcases ih best min (i + 1) (by simp at h; omega) with h1 | h1
      · left; omega
      · right; exact h1

theorem choose_cases (ps : List Pipe) : (ps = [] ∧ choose ps = .over) ∨ ∃ i, i < ps.length ∧ choose ps = .send i := by
  cases ps with
  | nil => exact .inl ⟨rfl, rfl⟩
  | cons p ps =>
    refine .inr ⟨_, ?_, rfl⟩
    rcases smallest_lt (p :: ps) 0 p.2 0 (by simp) with h | h
    · omega
    · rw [h]; simp

/-- The merging goroutine knows its pipes. -/
structure Good (s : State) : Prop where
  pc : match s.merge with
    | .fill k => k < s.srcs.length
    | .send i => i < s.pipes.length
    | .read i => i < s.pipes.length
    | .over => True
  pipes : ∀ p ∈ s.pipes, p.1 < s.srcs.length

theorem good_choose (s : State) (h : ∀ p ∈ s.pipes, p.1 < s.srcs.length) : Good { s with merge := choose s.pipes } := by
  refine ⟨?_, h⟩
  rcases choose_cases s.pipes with ⟨_, h1⟩ | ⟨i, hi, h1⟩
  · simp only [h1]
  · simp only [h1]; exact hi

theorem good_filled (s : State) (k : Nat) (h : ∀ p ∈ s.pipes, p.1 < s.srcs.length) : Good (s.filled k) := by
  unfold State.filled
  split
  · rename_i hk; exact ⟨hk, h⟩
  · exact good_choose s h

theorem mem_remove {ps : List Pipe} {i : Nat} {p : Pipe} (h : p ∈ remove ps i) : p ∈ ps := by
  unfold remove at h
  split at h
  · simp at h
  · rename_i l hl
    have h1 := List.dropLast_subset _ h
    rcases List.mem_or_eq_of_mem_set h1 with h2 | h2
    · exact h2
    · rw [h2]; exact List.mem_of_getLast? hl

theorem length_remove {ps : List Pipe} {i : Nat} (h : i < ps.length) : (remove ps i).length = ps.length - 1 := by
  unfold remove
  split
  · rename_i hl
    rw [List.getLast?_eq_none_iff.mp hl] at h
    simp at h
  · simp

theorem good_step (s : State) (a : Act) (h : Good s) : Good (step s a) := by
  cases a with
  | cancel => exact ⟨h.pc, h.pipes⟩
  | turn k =>
    simp only [step]
    split
    · refine ⟨?_, by simpa using h.pipes⟩
      have := h.pc
      revert this
      simp only []
      split <;> simp
    · exact h
  | next =>
    simp only [step]
    split
    · rename_i i hm
      split
      · have := h.pc
        rw [hm] at this
        exact ⟨this, h.pipes⟩
      · exact h
    · exact h
  | pull =>
    simp only [step]
    split
    · rename_i k hm
      have hk := h.pc
      rw [hm] at hk
      simp only [] at hk
      split
      · exact good_choose s h.pipes
      · split
        · exact h
        · rename_i r y hg
          refine good_filled _ k ?_
          intro p hp
          simp only [List.mem_append, List.mem_singleton] at hp
          rcases hp with hp | rfl
          · simpa using h.pipes p hp
          · simpa using hk
        · exact good_filled _ k (by simpa using h.pipes)
    · rename_i i hm
      have hi := h.pc
      rw [hm] at hi
      simp only [] at hi
      split
      · exact h
      · rename_i p hp
        have hps : ∀ r, ∀ q ∈ s.pipes.set i (p.1, r), q.1 < s.srcs.length := by
          intro r q hq
          rcases List.mem_or_eq_of_mem_set hq with h1 | h1
          · exact h.pipes q h1
          · rw [h1]; exact h.pipes p (List.mem_of_getElem? hp)
        split
        · exact h
        · rename_i r y hg
          split
          · exact ⟨by simpa using hi, by simpa using hps r⟩
          · exact good_choose { s with srcs := s.srcs.set p.1 y, pipes := s.pipes.set i (p.1, r) } (by simpa using hps r)
        · rename_i y hg
          exact good_choose { s with srcs := s.srcs.set p.1 y, pipes := remove s.pipes i }
            (fun q hq => by simpa using h.pipes q (mem_remove hq))
    · exact h

theorem good_run (acts : List Act) : ∀ s, Good s → Good (run s acts) := by
  induction acts with
  | nil => intro s h; exact h
  | cons a acts ih => intro s h; exact ih _ (good_step s a h)

theorem good_init (srcs : List (List Nat × Bool)) (h : srcs ≠ []) : Good (init srcs) :=
  ⟨by simpa [init] using List.length_pos_iff.mpr h, by simp [init]⟩

/-- All the goroutines that read have returned. -/
def Ended (s : State) : Prop := ∀ k, k < s.srcs.length → s.srcs[k]? = some .over

theorem ended_step (s : State) (a : Act) (h : Ended s) : Ended (step s a) := by
  intro k hk
  have hl : (step s a).srcs.length = s.srcs.length := run_srcs_length [a] s
  rw [hl] at hk
  obtain ⟨y, h1, h2, h3⟩ := step_src s a k .over (h k hk)
  rw [h1]
  by_cases ha : a = .turn k
  · rw [h2 ha]; rfl
  · rcases h3 ha with rfl | ⟨o, ho⟩
    · rfl
    · simp only [Src.give, Option.some.injEq, Prod.mk.injEq] at ho
      rw [← ho.2]

/-- What the merging goroutine has still to do, when the others have returned. -/
def todo (s : State) : Nat :=
  match s.merge with
  | .fill k => 2 * s.pipes.length + (s.srcs.length - k) + 1
  | .send _ => 2 * s.pipes.length
  | .read _ => 2 * s.pipes.length - 1
  | .over => 0

theorem todo_choose (s : State) : todo { s with merge := choose s.pipes } ≤ 2 * s.pipes.length := by
  rcases choose_cases s.pipes with ⟨_, h1⟩ | ⟨i, hi, h1⟩ <;> simp [todo, h1]

/-- Its next action: a receive of the consumer or its own. -/
def need (s : State) : Option Act :=
  match s.merge with
  | .fill _ => some .pull
  | .send _ => some .next
  | .read _ => some .pull
  | .over => none

theorem todo_step (s : State) (a : Act) (hg : Good s) (he : Ended s) :
    todo (step s a) ≤ todo s ∧ (need s = some a → todo (step s a) < todo s) ∧ (need s ≠ some a → need (step s a) = need s) := by
  have hpc := hg.pc
  cases a with
  | cancel =>
    refine ⟨Nat.le_refl _, ?_, fun _ => rfl⟩
    intro h; unfold need at h; split at h <;> simp at h
  | turn k =>
    have hm : ∀ t : State, (step t (.turn k)).merge = t.merge ∧ (step t (.turn k)).pipes = t.pipes ∧
        (step t (.turn k)).srcs.length = t.srcs.length := by
      intro t; simp only [step]; split <;> simp
    obtain ⟨h1, h2, h3⟩ := hm s
    refine ⟨by unfold todo; rw [h1, h2, h3]; exact Nat.le_refl _, ?_, fun _ => by unfold need; rw [h1]⟩
    intro h; unfold need at h; split at h <;> simp at h
  | next =>
    simp only [step]
    split
    · rename_i i hm
      rw [hm] at hpc
      simp only [] at hpc
      rw [List.getElem?_eq_getElem hpc]
      refine ⟨?_, ?_, ?_⟩
      · simp only [todo, hm]; omega
      · intro _; simp only [todo, hm]; omega
      · intro h; simp [need, hm] at h
    · rename_i hm
      refine ⟨Nat.le_refl _, ?_, fun _ => rfl⟩
      intro h
      unfold need at h
      split at h <;> simp at h
      rename_i i hi
      exact (hm i hi).elim
  | pull =>
    simp only [step]
    split
    · rename_i k hm
      rw [hm] at hpc
      simp only [] at hpc
      rw [he k hpc]
      simp only [Src.give]
      have : todo (State.filled { s with srcs := s.srcs.set k .over } k) < todo s := by
        unfold State.filled
        split
        · rename_i h1
          simp only [todo, hm, List.length_set] at h1 ⊢
          omega
        · have := todo_choose { s with srcs := s.srcs.set k .over }
          have e : todo s = 2 * s.pipes.length + (s.srcs.length - k) + 1 := by simp [todo, hm]
          simp only [] at this
          refine Nat.lt_of_le_of_lt this ?_
          omega
      exact ⟨by omega, fun _ => this, fun h => by simp [need, hm] at h⟩
    · rename_i i hm
      rw [hm] at hpc
      simp only [] at hpc
      rw [List.getElem?_eq_getElem hpc]
      have hk := hg.pipes _ (List.getElem_mem hpc)
      simp only [he _ hk, Option.bind_some, Src.give]
      have hl := length_remove hpc
      have := todo_choose { s with srcs := s.srcs.set s.pipes[i].1 .over, pipes := remove s.pipes i }
      have e : todo s = 2 * s.pipes.length - 1 := by simp [todo, hm]
      simp only [] at this
      have h2 : todo { s with srcs := s.srcs.set s.pipes[i].1 .over, pipes := remove s.pipes i, merge := choose (remove s.pipes i) }
          < todo s := by
        refine Nat.lt_of_le_of_lt this ?_
        omega
      exact ⟨by omega, fun _ => h2, fun h => by simp [need, hm] at h⟩
    · rename_i h1 h2
      refine ⟨Nat.le_refl _, ?_, fun _ => rfl⟩
      intro h
      unfold need at h
      split at h
      · rename_i k hk; exact (h1 k hk).elim
      · simp at h
      · rename_i k hk; exact (h2 k hk).elim
      · simp at h

theorem todo_run (acts : List Act) : ∀ s, Good s → Ended s → Good (run s acts) ∧ Ended (run s acts) ∧ todo (run s acts) ≤ todo s ∧
    (∀ a, need s = some a → a ∈ acts → todo (run s acts) < todo s) := by
  induction acts with
  | nil => intro s hg he; exact ⟨hg, he, Nat.le_refl _, by simp⟩
  | cons a acts ih =>
    intro s hg he
    obtain ⟨h1, h2, h3⟩ := todo_step s a hg he
    obtain ⟨i1, i2, i3, i4⟩ := ih (step s a) (good_step s a hg) (ended_step s a he)
    refine ⟨i1, i2, Nat.le_trans i3 h1, ?_⟩
    intro b hb hm
    by_cases hab : a = b
    · subst hab
      exact Nat.lt_of_le_of_lt i3 (h2 hb)
    · have hne : need s ≠ some a := by rw [hb]; intro e; exact hab (Option.some.inj e).symm
      rcases List.mem_cons.mp hm with e | e
      · exact (hab e.symm).elim
      · exact Nat.lt_of_lt_of_le (i4 b (by rw [h3 hne]; exact hb) e) h1

theorem over_of_need {s : State} (h : need s = none) : s.merge = .over := by
  unfold need at h; split at h <;> simp_all

theorem rounds_run (rounds : List (List Act)) : ∀ s, Good s → Ended s → (∀ r ∈ rounds, Round r) → todo s ≤ rounds.length →
    (run s rounds.flatten).merge = .over := by
  induction rounds with
  | nil =>
    intro s hg he _ h
    have h0 : todo s = 0 := by simpa using h
    have hpc := hg.pc
    show s.merge = .over
    cases hm : s.merge with
    | over => rfl
    | fill k => simp [todo, hm] at h0
    | send i => rw [hm] at hpc; simp only [] at hpc; simp [todo, hm] at h0; omega
    | read i => rw [hm] at hpc; simp only [] at hpc; simp [todo, hm] at h0; omega
  | cons r rounds ih =>
    intro s hg he hr h
    obtain ⟨i1, i2, i3, i4⟩ := todo_run r s hg he
    rw [List.flatten_cons, run_append]
    by_cases hn : need s = none
    · have hm := over_of_need hn
      have h0 : todo s = 0 := by simp [todo, hm]
      exact ih (run s r) i1 i2 (fun x hx => hr x (by simp [hx])) (by omega)
    · obtain ⟨a, ha⟩ := Option.ne_none_iff_exists'.mp hn
      have hmem : a ∈ r := by
        have := hr r (by simp)
        unfold need at ha
        split at ha <;> simp at ha <;> subst ha
        · exact this.2
        · exact this.1
        · exact this.2
      have := i4 a ha hmem
      exact ih (run s r) i1 i2 (fun x hx => hr x (by simp [hx])) (by simp at h; omega)

/-- There are no more pipes than iterators. -/
def Few (s : State) : Prop :=
  match s.merge with
  | .fill k => s.pipes.length ≤ k
  | _ => s.pipes.length ≤ s.srcs.length

theorem few_choose (s : State) (h : s.pipes.length ≤ s.srcs.length) : Few { s with merge := choose s.pipes } := by
  unfold Few
  rcases choose_cases s.pipes with ⟨_, h1⟩ | ⟨i, hi, h1⟩ <;> simp only [h1] <;> exact h

theorem few_filled (s : State) (k : Nat) (h : s.pipes.length ≤ k + 1) (hk : k < s.srcs.length) : Few (s.filled k) := by
  unfold State.filled
  split
  · exact h
  · exact few_choose s (by omega)

theorem few_step (s : State) (a : Act) (hg : Good s) (h : Few s) : Few (step s a) := by
  have hpc := hg.pc
  cases a with
  | cancel => exact h
  | turn k =>
    simp only [step]
    split
    · unfold Few at h ⊢
      revert h
      simp only []
      split <;> simp
    · exact h
  | next =>
    simp only [step]
    split
    · rename_i i hm
      split
      · unfold Few at h ⊢
        rw [hm] at h
        exact h
      · exact h
    · exact h
  | pull =>
    simp only [step]
    split
    · rename_i k hm
      rw [hm] at hpc
      simp only [] at hpc
      have hl : s.pipes.length ≤ k := by unfold Few at h; rw [hm] at h; exact h
      split
      · exact few_choose s (by omega)
      · split
        · exact h
        · exact few_filled _ k (by simp; omega) (by simpa using hpc)
        · exact few_filled _ k (by simp; omega) (by simpa using hpc)
    · rename_i i hm
      rw [hm] at hpc
      simp only [] at hpc
      have hl : s.pipes.length ≤ s.srcs.length := by unfold Few at h; rw [hm] at h; exact h
      split
      · exact h
      · rename_i p hp
        split
        · exact h
        · rename_i r y hy
          split
          · unfold Few; simpa using hl
          · exact few_choose { s with srcs := s.srcs.set p.1 y, pipes := s.pipes.set i (p.1, r) } (by simpa using hl)
        · rename_i y hy
          refine few_choose { s with srcs := s.srcs.set p.1 y, pipes := remove s.pipes i } ?_
          have := length_remove hpc
          simp only [List.length_set]
          omega
    · exact h

theorem few_run (acts : List Act) : ∀ s, Good s → Few s → Few (run s acts) := by
  induction acts with
  | nil => intro s _ h; exact h
  | cons a acts ih => intro s hg h; exact ih _ (good_step s a hg) (few_step s a hg h)

theorem todo_few {s : State} (hg : Good s) (h : Few s) : todo s ≤ 2 * s.srcs.length + 1 := by
  have hpc := hg.pc
  unfold Few at h
  unfold todo
  split <;> rename_i hm <;> rw [hm] at h hpc <;> simp only [] at h hpc <;> omega

/-! ## One goroutine -/

theorem one_run (acts : List Act) : ∀ s : One, s.cancelled = true → s.src.sound = true →
    (One.run s acts).src.sound = true ∧ (One.run s acts).src.rank ≤ s.src.rank - turns 0 acts := by
  induction acts with
  | nil => intro s _ hs; exact ⟨hs, by simp [turns, One.run]⟩
  | cons a acts ih =>
    intro s hc hs
    have h : (s.step a).cancelled = true ∧ (s.step a).src.sound = true ∧
        (s.step a).src.rank ≤ s.src.rank - (if a = .turn 0 then 1 else 0) := by
      cases a with
      | cancel => exact ⟨rfl, hs, Nat.le_refl _⟩
      | pull => exact ⟨hc, hs, Nat.le_refl _⟩
      | turn k =>
        have := rank_turn s.src hs
        simp only [One.step, hc]
        refine ⟨trivial, this.2, ?_⟩
        split <;> omega
      | next =>
        simp only [One.step]
        split
        · rename_i r y hy
          have := rank_give _ _ _ hy
          exact ⟨hc, this.2.1 hs, this.1⟩
        · rename_i y hy
          have := rank_give _ _ _ hy
          exact ⟨hc, this.2.1 hs, this.1⟩
        · exact ⟨hc, hs, Nat.le_refl _⟩
    have := ih (s.step a) h.1 h.2.1
    rw [turns_cons]
    exact ⟨this.1, Nat.le_trans this.2 (by omega)⟩

theorem one_sound (acts : List Act) : ∀ s : One, s.src.sound = true → (One.run s acts).src.sound = true := by
  induction acts with
  | nil => intro s hs; exact hs
  | cons a acts ih =>
    intro s hs
    refine ih (s.step a) ?_
    cases a with
    | cancel => exact hs
    | pull => exact hs
    | turn k =>
      simp only [One.step]
      cases hx : s.src with
      | «at» l f => rw [hx] at hs; cases l <;> cases f <;> cases s.cancelled <;> simp_all [Src.turn, Src.sound]
      | giving => rfl
      | failing => rw [hx] at hs; simp [Src.sound] at hs
      | over => rfl
    | next =>
      simp only [One.step]
      split
      · rename_i r y hy; exact (rank_give _ _ _ hy).2.1 hs
      · rename_i y hy; exact (rank_give _ _ _ hy).2.1 hs
      · exact hs

theorem one_failing (acts : List Act) : ∀ s : One, Abandons acts → s.src = .failing → (One.run s acts).src = .failing := by
  induction acts with
  | nil => intro s _ h; exact h
  | cons a acts ih =>
    intro s ha h
    refine ih (s.step a) (fun e => ha (by simp [e])) ?_
    cases a with
    | next => exact (ha (by simp)).elim
    | turn k => simp [One.step, h, Src.turn]
    | cancel => exact h
    | pull => exact h

end RangeDB.Left

import Verif.Spec.StatsLock
import Verif.Proof.Projection

/-! # Lemmas for `Thm/StatsLock.lean` -/

namespace RangeDB.Prj

/-- What the writer has done to the statistics. -/
def half (d : Stats) (r : Record) : Nat → Stats
  | 0 => d
  | 1 => d.bumped r
  | 2 => { d.bumped r with latest := r.gsn }
  | _ => { d.bumped r with latest := r.gsn, total := d.total + 1 }

/-- The lock is held by those who are in a method, and the statistics are those of the log, except for what the writer has written. -/
structure Held (s : Shared) : Prop where
  writer : ∀ i, s.writer = some i ↔ ∃ r k, (s.gors i).pos = .writing r k
  readers : ∀ i, i ∈ s.readers ↔ ∃ l, (s.gors i).pos = .reading l
  alone : s.writer ≠ none → s.readers = []
  data : ∃ d, Stats.new.acceptAll s.log = .ok d ∧ (s.writer = none → s.data = d) ∧
    ∀ i r k, (s.gors i).pos = .writing r k → k ≤ 3 ∧ s.data = half d r k

theorem held_init (calls : Nat → List Call) : Held (Shared.init calls) :=
  ⟨by simp [Shared.init], by simp [Shared.init], by simp [Shared.init], ⟨.new, rfl, fun _ => rfl, by simp [Shared.init]⟩⟩

/-- A goroutine that stays where it is with respect to the lock. -/
theorem put_pos (s : Shared) (i j : Nat) (g : Gor) : (s.put i g j).pos = if j = i then g.pos else (s.gors j).pos := by
  unfold Shared.put
  split <;> rfl

theorem accept_half {d : Stats} {log : List Record} (h : Stats.new.acceptAll log = .ok d) (r : Record) :
    Stats.new.acceptAll (log ++ [r]) = .ok (half d r 3) := by
  obtain ⟨d', e, hi⟩ := acceptAll_inv .new [] log inv_new
  rw [h] at e
  obtain rfl := Outcome.ok.inj e
  obtain ⟨m, hm, _⟩ := hi.map
  have key : ∀ (l : List Record) (s : Stats), s.acceptAll l = .ok d → s.acceptAll (l ++ [r]) = d.accept r := by
    intro l
    induction l with
    | nil =>
      intro s hs
      simp only [Stats.acceptAll] at hs
      obtain rfl := Outcome.ok.inj hs
      simp only [List.nil_append, Stats.acceptAll]
      cases s.accept r <;> rfl
    | cons x xs ih =>
      intro s hs
      simp only [List.cons_append, Stats.acceptAll] at hs ⊢
      cases hx : s.accept x with
      | ok s1 => rw [hx] at hs; exact ih s1 hs
      | _ => rw [hx] at hs; cases hs
  rw [key log .new h]
  simp [Stats.accept, hm, half, Stats.bumped]

theorem held_writing {s : Shared} (h : Held s) {i : Nat} {r : Record} {k : Nat} (hp : (s.gors i).pos = .writing r k) (x : Stats) (cs : List Call)
    (hk : k + 1 ≤ 3) (hx : ∀ d, s.data = half d r k → x = half d r (k + 1)) :
    Held { s with data := x, gors := s.put i ⟨.writing r (k + 1), cs⟩ } := by
  have hw : s.writer = some i := (h.writer i).2 ⟨r, k, hp⟩
  obtain ⟨d, h1, h2, h3⟩ := h.data
  refine ⟨fun j => ?_, fun j => ?_, h.alone, ⟨d, h1, fun e => ?_, fun j r' k' hj => ?_⟩⟩
  · show s.writer = some j ↔ _
    simp only [put_pos]
    by_cases e : j = i
    · subst e; simp [hw]
    · rw [if_neg e]; exact h.writer j
  · show j ∈ s.readers ↔ _
    simp only [put_pos]
    by_cases e : j = i
    · subst e
      rw [if_pos rfl, h.readers, hp]
      simp
    · rw [if_neg e]; exact h.readers j
  · exact absurd (show s.writer = none from e) (by rw [hw]; simp)
  · simp only [put_pos] at hj
    by_cases e : j = i
    · rw [if_pos e] at hj
      simp only [Pos.writing.injEq] at hj
      obtain ⟨rfl, rfl⟩ := hj
      exact ⟨hk, hx d (h3 i r k hp).2⟩
    · rw [if_neg e] at hj
      have := (h.writer j).2 ⟨r', k', hj⟩
      rw [hw] at this
      exact absurd (Option.some.inj this).symm e

/-- A step that does not touch lock or data, of a goroutine that stays outside or stays a reader. -/
theorem held_quiet {s : Shared} (h : Held s) {i : Nat} (g : Gor)
    (hg : ((s.gors i).pos = .out ∧ g.pos = .out) ∨ ∃ l l', (s.gors i).pos = .reading l ∧ g.pos = .reading l') :
    Held { s with gors := s.put i g } := by
  obtain ⟨d, h1, h2, h3⟩ := h.data
  refine ⟨fun j => ?_, fun j => ?_, h.alone, ⟨d, h1, h2, fun j r k hj => ?_⟩⟩
  · show s.writer = some j ↔ _
    simp only [put_pos]
    by_cases e : j = i
    · subst e
      rw [if_pos rfl, h.writer]
      rcases hg with ⟨a, b⟩ | ⟨l, l', a, b⟩ <;> simp [a, b]
    · rw [if_neg e]; exact h.writer j
  · show j ∈ s.readers ↔ _
    simp only [put_pos]
    by_cases e : j = i
    · subst e
      rw [if_pos rfl, h.readers]
      rcases hg with ⟨a, b⟩ | ⟨l, l', a, b⟩ <;> simp [a, b]
    · rw [if_neg e]; exact h.readers j
  · simp only [put_pos] at hj
    by_cases e : j = i
    · rw [if_pos e] at hj
      rcases hg with ⟨_, b⟩ | ⟨_, _, _, b⟩ <;> rw [b] at hj <;> cases hj
    · rw [if_neg e] at hj; exact h3 j r k hj

theorem held_rlock {s : Shared} (h : Held s) {i : Nat} (hp : (s.gors i).pos = .out) (hw : s.writer = none) (l : List Field) (cs : List Call) :
    Held { s with readers := i :: s.readers, gors := s.put i ⟨.reading l, cs⟩ } := by
  obtain ⟨d, h1, h2, h3⟩ := h.data
  refine ⟨fun j => ?_, fun j => ?_, fun e => absurd hw e, ⟨d, h1, h2, fun j r k hj => ?_⟩⟩
  · show s.writer = some j ↔ _
    simp only [put_pos]
    by_cases e : j = i
    · subst e; simp [hw]
    · rw [if_neg e]; exact h.writer j
  · show j ∈ i :: s.readers ↔ _
    simp only [put_pos]
    by_cases e : j = i
    · subst e; simp
    · rw [if_neg e, List.mem_cons]
      simp only [e, false_or]
      exact h.readers j
  · simp only [put_pos] at hj
    by_cases e : j = i
    · rw [if_pos e] at hj; cases hj
    · rw [if_neg e] at hj; exact h3 j r k hj

theorem held_lock {s : Shared} (h : Held s) {i : Nat} (hp : (s.gors i).pos = .out) (hw : s.writer = none) (he : s.readers = [])
    (r : Record) (cs : List Call) : Held { s with writer := some i, gors := s.put i ⟨.writing r 0, cs⟩ } := by
  obtain ⟨d, h1, h2, h3⟩ := h.data
  refine ⟨fun j => ?_, fun j => ?_, fun _ => he, ⟨d, h1, fun e => absurd e (by simp), fun j r' k hj => ?_⟩⟩
  · show some i = some j ↔ _
    simp only [put_pos]
    by_cases e : j = i
    · subst e; simp
    · rw [if_neg e]
      constructor
      · intro e'; exact absurd (Option.some.inj e').symm e
      · intro e'
        have := (h.writer j).2 e'
        rw [hw] at this; cases this
  · show j ∈ s.readers ↔ _
    simp only [put_pos]
    by_cases e : j = i
    · subst e; rw [if_pos rfl, h.readers, hp]; simp
    · rw [if_neg e]; exact h.readers j
  · simp only [put_pos] at hj
    by_cases e : j = i
    · rw [if_pos e] at hj
      simp only [Pos.writing.injEq] at hj
      obtain ⟨rfl, rfl⟩ := hj
      exact ⟨by omega, h2 hw⟩
    · rw [if_neg e] at hj
      have := (h.writer j).2 ⟨r', k, hj⟩
      rw [hw] at this; cases this

theorem held_unlock {s : Shared} (h : Held s) {i : Nat} {r : Record} {n : Nat} (hp : (s.gors i).pos = .writing r (n + 3)) (cs : List Call) :
    Held { s with writer := none, gors := s.put i ⟨.out, cs⟩, log := s.log ++ [r] } := by
  have hw : s.writer = some i := (h.writer i).2 ⟨r, _, hp⟩
  obtain ⟨d, h1, h2, h3⟩ := h.data
  have hn : n = 0 := by
    have := (h3 i r _ hp).1
    omega
  subst hn
  refine ⟨fun j => ?_, fun j => ?_, fun e => absurd rfl e, ⟨half d r 3, accept_half h1 r, fun _ => (h3 i r 3 hp).2, fun j r' k' hj => ?_⟩⟩
  · show none = some j ↔ _
    simp only [put_pos]
    by_cases e : j = i
    · subst e; simp
    · rw [if_neg e]
      constructor
      · intro e'; cases e'
      · intro e'
        have := (h.writer j).2 e'
        rw [hw] at this
        exact absurd (Option.some.inj this).symm e
  · show j ∈ s.readers ↔ _
    simp only [put_pos]
    by_cases e : j = i
    · subst e; rw [if_pos rfl, h.readers, hp]; simp
    · rw [if_neg e]; exact h.readers j
  · simp only [put_pos] at hj
    by_cases e : j = i
    · rw [if_pos e] at hj; cases hj
    · rw [if_neg e] at hj
      have := (h.writer j).2 ⟨r', k', hj⟩
      rw [hw] at this
      exact absurd (Option.some.inj this).symm e

theorem held_runlock {s : Shared} (h : Held s) {i : Nat} {l : List Field} (hp : (s.gors i).pos = .reading l) (cs : List Call) :
    Held { s with readers := s.readers.filter (fun j => decide (j ≠ i)), gors := s.put i ⟨.out, cs⟩ } := by
  obtain ⟨d, h1, h2, h3⟩ := h.data
  refine ⟨fun j => ?_, fun j => ?_, fun e => ?_, ⟨d, h1, h2, fun j r k hj => ?_⟩⟩
  · show s.writer = some j ↔ _
    simp only [put_pos]
    by_cases e : j = i
    · subst e; rw [if_pos rfl, h.writer, hp]; simp
    · rw [if_neg e]; exact h.writer j
  · show j ∈ s.readers.filter (fun j => decide (j ≠ i)) ↔ _
    simp only [put_pos]
    by_cases e : j = i
    · subst e; simp
    · rw [if_neg e, ← h.readers]
      simp [e]
  · show s.readers.filter (fun j => decide (j ≠ i)) = []
    rw [h.alone e]; rfl
  · simp only [put_pos] at hj
    by_cases e : j = i
    · rw [if_pos e] at hj; cases hj
    · rw [if_neg e] at hj; exact h3 j r k hj

theorem held_step (s : Shared) (i : Nat) (h : Held s) : Held (s.step i) := by
  unfold Shared.step
  split
  · rename_i hp; exact held_writing h hp _ _ (by omega) (fun d e => by rw [e]; rfl)
  · rename_i hp; exact held_writing h hp _ _ (by omega) (fun d e => by rw [e]; rfl)
  · rename_i hp; exact held_writing h hp _ _ (by omega) (fun d e => by rw [e]; rfl)
  · rename_i hp; exact held_unlock h hp _
  · rename_i hp; exact held_quiet h _ (.inr ⟨_, _, hp, rfl⟩)
  · rename_i hp; exact held_runlock h hp _
  · rename_i hp
    split
    · exact h
    · split
      · rename_i hf; exact held_lock h hp hf.1 hf.2 _ _
      · exact h
    · exact held_quiet h _ (.inl ⟨hp, rfl⟩)
    · split
      · rename_i hw; exact held_rlock h hp hw _ _
      · exact h

theorem held_run (sched : List Nat) : ∀ (s : Shared), Held s → Held (s.run sched) := by
  induction sched with
  | nil => intro s h; exact h
  | cons i sched ih => intro s h; exact ih _ (held_step s i h)

/-- Calls are made as they come. -/
theorem todo_step (s : Shared) (i j : Nat) : ∃ p, (s.gors j).todo = p ++ ((s.step i).gors j).todo := by
  have key : ∀ (g : Gor), (∃ p, (s.gors i).todo = p ++ g.todo) → ∃ p, (s.gors j).todo = p ++ (s.put i g j).todo := by
    intro g hg
    unfold Shared.put
    split
    · rename_i e; rw [e]; exact hg
    · exact ⟨[], rfl⟩
  unfold Shared.step
  split
  · exact key _ ⟨[], rfl⟩
  · exact key _ ⟨[], rfl⟩
  · exact key _ ⟨[], rfl⟩
  · exact key _ ⟨[], rfl⟩
  · exact key _ ⟨[], rfl⟩
  · exact key _ ⟨[], rfl⟩
  · split
    · exact ⟨[], rfl⟩
    · rename_i r cs ht
      split
      · exact key _ ⟨[_], ht⟩
      · exact ⟨[], rfl⟩
    · rename_i cs ht; exact key _ ⟨[_], ht⟩
    · rename_i c cs _ _ ht
      split
      · exact key _ ⟨[_], ht⟩
      · exact ⟨[], rfl⟩

theorem todo_run (sched : List Nat) (c : Call) : ∀ (s : Shared), (∀ j, c ∉ (s.gors j).todo) → ∀ j, c ∉ ((s.run sched).gors j).todo := by
  induction sched with
  | nil => intro s h; exact h
  | cons i sched ih =>
    intro s h
    refine ih (s.step i) (fun j hj => ?_)
    obtain ⟨p, hp⟩ := todo_step s i j
    exact h j (by rw [hp]; simp [hj])

/-- Nobody but a reader's own steps while it reads. -/
theorem reading_step (s : Shared) (i j : Nat) (hij : j ≠ i) (h : Held s) (l : List Field) (hp : (s.gors i).pos = .reading l) :
    (s.step j).data = s.data ∧ (s.step j).log = s.log ∧ ((s.step j).gors i) = s.gors i := by
  have hr : s.readers ≠ [] := List.ne_nil_of_mem ((h.readers i).2 ⟨l, hp⟩)
  have hw : s.writer = none := by
    cases e : s.writer with
    | none => rfl
    | some k => exact absurd (h.alone (by rw [e]; simp)) hr
  have nowrite : ∀ r k, (s.gors j).pos ≠ .writing r k := by
    intro r k e
    have := (h.writer j).2 ⟨r, k, e⟩
    rw [hw] at this; cases this
  have hput : ∀ g, s.put j g i = s.gors i := by
    intro g; unfold Shared.put; rw [if_neg (fun e => hij e.symm)]
  unfold Shared.step
  split
  · rename_i e; exact absurd e (nowrite _ _)
  · rename_i e; exact absurd e (nowrite _ _)
  · rename_i e; exact absurd e (nowrite _ _)
  · rename_i e; exact absurd e (nowrite _ _)
  · exact ⟨rfl, rfl, hput _⟩
  · exact ⟨rfl, rfl, hput _⟩
  · split
    · exact ⟨rfl, rfl, rfl⟩
    · split
      · rename_i hf; exact absurd hf.2 hr
      · exact ⟨rfl, rfl, rfl⟩
    · exact ⟨rfl, rfl, hput _⟩
    · rw [if_pos hw]
      exact ⟨rfl, rfl, hput _⟩

theorem reading_run (sched : List Nat) (i : Nat) (hi : i ∉ sched) : ∀ (s : Shared), Held s → (l : List Field) → (s.gors i).pos = .reading l →
    (s.run sched).data = s.data ∧ (s.run sched).log = s.log := by
  induction sched with
  | nil => intro s _ _ _; exact ⟨rfl, rfl⟩
  | cons j sched ih =>
    intro s h l hp
    simp only [List.mem_cons, not_or] at hi
    obtain ⟨h1, h2, h3⟩ := reading_step s i j (fun e => hi.1 e.symm) h l hp
    obtain ⟨g1, g2⟩ := ih hi.2 (s.step j) (held_step s j h) l (by rw [h3]; exact hp)
    exact ⟨g1.trans h1, g2.trans h2⟩

end RangeDB.Prj

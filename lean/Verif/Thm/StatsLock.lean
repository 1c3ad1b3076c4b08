import Verif.Proof.StatsLock
import Verif.Thm.Projection

/-!
# C175: The statistics may be read while events arrive
-/

namespace RangeDB.Prj

open Demo

/-- **C175**, partial: any number of goroutines that call the methods of the statistics as they like, but not `TotalEvents`, have no data
race. -/
theorem C175_partial (calls : Nat → List Call) (hc : ∀ i, Call.total ∉ calls i) (sched : List Nat) :
    ¬ ((Shared.init calls).run sched).Race := by
  have h := held_run sched _ (held_init calls)
  have ht := todo_run sched .total (Shared.init calls) hc
  generalize (Shared.init calls).run sched = s at *
  rintro ⟨i, j, f, w, hij, h1, h2⟩
  have hi : s.writer = some i := by
    rw [h.writer]
    unfold Gor.access at h1
    split at h1 <;> (try cases h1) <;> exact ⟨_, _, by assumption⟩
  have hj : (∃ r k, (s.gors j).pos = .writing r k) ∨ ∃ l, (s.gors j).pos = .reading l := by
    unfold Gor.access at h2
    split at h2
    · rename_i e; exact .inl ⟨_, _, e⟩
    · rename_i e; exact .inl ⟨_, _, e⟩
    · rename_i e; exact .inl ⟨_, _, e⟩
    · rename_i e; exact .inr ⟨_, e⟩
    · rename_i e; exact absurd (by rw [e]; simp) (ht j)
    · cases h2
  rcases hj with e | e
  · rw [← h.writer, hi] at e
    exact hij (Option.some.inj e)
  · rw [← h.readers, h.alone (by rw [hi]; simp)] at e
    cases e

/-- **C175**: whoever reads under the lock sees the statistics of a number of whole events: those whose `Accept` is over. -/
theorem C175_consistent (calls : Nat → List Call) (sched : List Nat) (i : Nat) (l : List Field)
    (hp : (((Shared.init calls).run sched).gors i).pos = .reading l) :
    ∃ s, Stats.new.acceptAll ((Shared.init calls).run sched).log = .ok s ∧ ((Shared.init calls).run sched).data = s ∧
      Counts s ((Shared.init calls).run sched).log := by
  have h := held_run sched _ (held_init calls)
  generalize (Shared.init calls).run sched = s at *
  have hw : s.writer = none := by
    cases e : s.writer with
    | none => rfl
    | some k =>
      have := (h.readers i).2 ⟨l, hp⟩
      rw [h.alone (by rw [e]; simp)] at this
      cases this
  obtain ⟨d, h1, h2, _⟩ := h.data
  obtain ⟨d', h3, h4⟩ := C33_counts s.log
  rw [h1] at h3
  obtain rfl := Outcome.ok.inj h3
  exact ⟨d, h1, h2 hw, h4⟩

/-- **C175**: they do not change while it reads, so that a snapshot is of one moment. -/
theorem C175_stable (calls : Nat → List Call) (sched others : List Nat) (i : Nat) (hi : i ∉ others) (l : List Field)
    (hp : (((Shared.init calls).run sched).gors i).pos = .reading l) :
    (((Shared.init calls).run sched).run others).data = ((Shared.init calls).run sched).data ∧
    (((Shared.init calls).run sched).run others).log = ((Shared.init calls).run sched).log :=
  reading_run others i hi _ (held_run sched _ (held_init calls)) l hp

/-- **C175**: each method accesses what it is about, and comes to an end when it gets the lock. -/
theorem C175_accesses (s : Shared) (i : Nat) (c : Call) (cs : List Call) (hg : s.gors i = ⟨.out, c :: cs⟩) (hw : s.writer = none)
    (hr : s.readers = []) : s.accesses i (touches c).2 = (touches c).1 ∧
    (s.run (List.replicate (touches c).2 i)).gors i = ⟨.out, cs⟩ ∧ (s.run (List.replicate (touches c).2 i)).writer = none ∧
    (s.run (List.replicate (touches c).2 i)).readers = [] := by
  cases c <;>
    simp [touches, Shared.accesses, Shared.run, List.replicate, Shared.step, Shared.put, hg, hw, hr, Gor.access, Call.fields]

/-- If the race does no harm, `TotalEvents` gives the number of the events that were accepted, or one more while an `Accept` goes on. -/
theorem C175_total (calls : Nat → List Call) (sched : List Nat) :
    ((Shared.init calls).run sched).data.total = ((Shared.init calls).run sched).log.length ∨
    (((Shared.init calls).run sched).data.total = ((Shared.init calls).run sched).log.length + 1 ∧
      ∃ i r, (((Shared.init calls).run sched).gors i).pos = .writing r 3) := by
  have h := held_run sched _ (held_init calls)
  generalize (Shared.init calls).run sched = s at *
  obtain ⟨d, h1, h2, h3⟩ := h.data
  obtain ⟨d', h4, h5⟩ := C33_counts s.log
  rw [h1] at h4
  obtain rfl := Outcome.ok.inj h4
  have ht := h5.total
  cases e : s.writer with
  | none => exact .inl (by rw [h2 e, ht])
  | some i =>
    obtain ⟨r, k, hp⟩ := (h.writer i).1 e
    obtain ⟨hk, hd⟩ := h3 i r k hp
    match k, hk, hp, hd with
    | 0, _, _, hd => exact .inl (by rw [hd]; exact ht)
    | 1, _, _, hd => exact .inl (by rw [hd]; exact ht)
    | 2, _, _, hd => exact .inl (by rw [hd]; exact ht)
    | 3, _, hp, hd => exact .inr ⟨by rw [hd]; simp [half, ht], i, r, hp⟩

/-- An `Accept`, and a page that asks for the total. -/
def demoCalls : Nat → List Call
  | 0 => [.accept (mkRecord sA 1 1 (evA [1]))]
  | 1 => [.total]
  | 2 => [.save, .counts]
  | _ => []

/-- **C175**, false in full: `TotalEvents` reads without the lock. -/
theorem C175_refuted : ¬ C175_full := by
  intro h
  exact h demoCalls [0, 0, 0] ⟨0, 1, .total, false, by decide, by decide, by decide⟩

/-! The hypotheses are met. -/

def quietCalls : Nat → List Call := fun i => (demoCalls i).filter (fun c => decide (c ≠ .total))

example : ∀ i, Call.total ∉ quietCalls i := by
  intro i
  simp [quietCalls]

example : (((Shared.init quietCalls).run [2, 0, 2]).gors 2).pos = .reading [.latest, .total] ∧
    (((Shared.init quietCalls).run [0, 2, 0, 0, 0, 0, 2]).gors 2).pos = .reading [.counts, .latest, .total] ∧
    ((Shared.init quietCalls).run [0, 2, 0, 0, 0, 0, 2]).log.length = 1 := by decide

example : (Shared.init quietCalls).accesses 2 5 = [(.counts, false), (.latest, false), (.total, false)] :=
  (C175_accesses _ 2 .save [.counts] rfl rfl rfl).1

end RangeDB.Prj

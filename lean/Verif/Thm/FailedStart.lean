import Verif.Proof.FailedStart

/-!
# C172: A `StartFrom` that has returned lets go of the store
-/

namespace RangeDB.Left

/-- **C172**, partial: a `StartFrom` that returned nil holds nothing. -/
theorem C172_started_partial (bad : Nat → Bool) (n : Nat) (l : List Nat) (f : Bool) (later : List Nat × Bool) (acts : List StartAct)
    (h : ((Start.init n l f).run bad later acts).phase = .started) : ¬ ((Start.init n l f).run bad later acts).Locked :=
  fun hl => hl (started_run bad later acts _ (by simp [Start.init]) h)

/-- **C172**, partial: a `StartFrom` whose callback failed lets go of the store, without errors of the store, when the context that the
subscription was made with is cancelled, before or after its return. -/
theorem C172_cancelled_partial (bad : Nat → Bool) (n : Nat) (l : List Nat) (later : List Nat × Bool) (hl : later.2 = false)
    (acts after : List StartAct) (h : ((Start.init n l false).run bad later acts).Returned) (hc : .cancel ∈ acts)
    (ht : 2 ≤ after.count .turn) : ¬ ((Start.init n l false).run bad later (acts ++ after)).Locked := by
  intro hk
  apply hk
  have hs := start_sound bad later hl acts (Start.init n l false) rfl
  have hc' := cancelled_run bad later acts (Start.init n l false) (.inr hc)
  rw [start_run_append]
  generalize (Start.init n l false).run bad later acts = s at *
  obtain ⟨h1, h2⟩ := freed_run bad later after s h hc' hs
  have hrank : s.one.src.rank ≤ 2 := by
    generalize s.one.src = x
    cases x <;> simp [Src.rank]
  exact over_of_rank (Nat.le_zero.1 (by omega)) h1

/-- **C172**, partial: it lets go of the store also if the callback failed at the last record of the read. -/
theorem C172_last_partial (bad : Nat → Bool) (n : Nat) (l : List Nat) (f : Bool) (later : List Nat × Bool) (acts after : List StartAct)
    (h : ((Start.init n l f).run bad later acts).Returned) (hs : ((Start.init n l f).run bad later acts).one.src = .at [] false)
    (ht : .turn ∈ after) : ¬ ((Start.init n l f).run bad later (acts ++ after)).Locked := by
  rw [start_run_append]
  exact fun hk => hk (start_last_run bad later after _ h hs ht)

/-- Otherwise it does not: once the callback has failed before the last record, the store stays locked, whatever happens, `Stop` included,
until the context that the subscription was made with is cancelled. -/
theorem C172_wedged (bad : Nat → Bool) (n : Nat) (l : List Nat) (f : Bool) (later : List Nat × Bool) (acts after : List StartAct)
    (r : Nat) (rs : List Nat) (g : Bool) (h : ((Start.init n l f).run bad later acts).phase = .failed)
    (hs : ((Start.init n l f).run bad later acts).one.src = .at (r :: rs) g)
    (hc : ((Start.init n l f).run bad later acts).one.cancelled = false) (ha : .cancel ∉ after) :
    ((Start.init n l f).run bad later (acts ++ after)).Locked := by
  rw [start_run_append]
  unfold Start.Locked
  rw [wedged_run bad later after _ r rs g (.inl h) hs hc ha]
  simp

/-- It comes to that whenever the callback fails at the first of several events of the past. -/
theorem C172_first_event (bad : Nat → Bool) (n e e' : Nat) (l : List Nat) (f : Bool) (later : List Nat × Bool) (hb : bad e = true)
    (after : List StartAct) (ha : .cancel ∉ after) :
    ((Start.init n (e :: e' :: l) f).run bad later ([.call] ++ after)).Locked :=
  C172_wedged bad n _ f later [.call] after e' l f (by simp [Start.run, Start.step, Start.init, Src.give, Start.take, hb])
    (by simp [Start.run, Start.step, Start.init, Src.give, Start.take]) (by simp [Start.run, Start.step, Start.init, Src.give, Start.take]) ha

/-- **C172**, false in full. -/
theorem C172_refuted : ¬ C172_full := by
  intro h
  refine h (fun x => x == 1) 0 [1, 2] false ([1, 2], false) [.call] [.stop, .turn, .turn] (.inl (by decide)) (by decide) (by decide) ?_
  exact C172_first_event (fun x => x == 1) 0 1 2 [] false ([1, 2], false) rfl [.stop, .turn, .turn] (by decide)

/-! The hypotheses are met. -/

def demoStart : Start := (Start.init 0 [1, 2] false).run (fun _ => false) ([1, 2, 3], false) [.call, .turn, .call, .turn, .call, .call, .turn, .call]

example : demoStart.phase = .started ∧ demoStart.got = [1, 2, 3] := by decide

example : ((Start.init 0 [1, 2, 3] false).run (fun x => x == 2) ([1, 2, 3], false) [.call, .call]).phase = .failed ∧
    ((Start.init 0 [1, 2, 3] false).run (fun x => x == 2) ([1, 2, 3], false) [.call, .call]).one.src = .at [3] false := by decide

example : ¬ ((Start.init 0 [1, 2, 3] false).run (fun x => x == 2) ([1, 2, 3], false) ([.call, .call, .cancel] ++ [.turn, .stop, .turn])).Locked :=
  C172_cancelled_partial _ _ _ _ rfl _ _ (.inl (by decide)) (by decide) (by decide)

example : ((Start.init 0 [1, 2] false).run (fun x => x == 3) ([1, 2, 3], false) [.call, .call, .turn, .call, .call]).phase = .failed ∧
    ((Start.init 0 [1, 2] false).run (fun x => x == 3) ([1, 2, 3], false) [.call, .call, .turn, .call, .call]).one.src = .at [] false := by decide

example : ¬ ((Start.init 0 [1, 2] false).run (fun x => x == 3) ([1, 2, 3], false) ([.call, .call, .turn, .call, .call] ++ [.stop, .turn])).Locked :=
  C172_last_partial _ _ _ _ _ _ _ (.inl (by decide)) (by decide) (by decide)

end RangeDB.Left

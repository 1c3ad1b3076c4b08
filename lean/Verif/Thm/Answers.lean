import Verif.Proof.Answers

/-!
# C171: A read that looks complete is complete
-/

namespace RangeDB.Left

/-- **C171**, partial, reads with one goroutine: if `Next` returns false and `Err` has no error, then the store had no error and every
record was handed over; for all interleavings, also if the read is cancelled, provided that the consumer takes the error of the context
within the second for which it is offered. -/
theorem C171_one_partial (l : List Nat) (f : Bool) (acts : List Act) (hp : Prompt ⟨.at l f, false, []⟩ acts)
    (h : LooksComplete (One.answers ⟨.at l f, false, []⟩ acts)) :
    f = false ∧ (One.run ⟨.at l f, false, []⟩ acts).out = l := by
  simpa [Told] using told_run acts _ hp h

/-- **C171**, partial: in particular if the read is not cancelled, however slow the consumer is. -/
theorem C171_uncancelled_partial (l : List Nat) (f : Bool) (acts : List Act) (hc : .cancel ∉ acts)
    (h : LooksComplete (One.answers ⟨.at l f, false, []⟩ acts)) :
    f = false ∧ (One.run ⟨.at l f, false, []⟩ acts).out = l :=
  C171_one_partial l f acts (prompt_of acts _ rfl (by simp) hc) h

/-- **C171**, partial, reads of several types: every record was handed over if the read was not cancelled, and no type has more records
than those before an error of the store. -/
theorem C171_merged_partial (srcs : List (List Nat × Bool)) (hs : Sorted srcs) (acts : List Act) (hc : .cancel ∉ acts)
    (h : LooksComplete (State.answers (init srcs) acts)) :
    ∀ p ∈ srcs, ∀ x ∈ p.1, x ∈ (run (init srcs) acts).out := by
  obtain ⟨rs, rest, e⟩ := h
  exact C169_complete srcs hs acts hc (closed_over acts _ (by rw [e]; simp))

/-- A read of several types never tells of an error, neither of the store nor of the context. -/
theorem C171_merged_silent (srcs : List (List Nat × Bool)) (acts : List Act) : .error ∉ State.answers (init srcs) acts :=
  answers_no_error acts _

/-- A consumer that is away for more than a second when the read is cancelled sees an empty store. -/
theorem C171_late (r : Nat) (l : List Nat) (f : Bool) :
    One.answers ⟨.at (r :: l) f, false, []⟩ [.cancel, .turn 0, .turn 0, .next] = [.closed] := rfl

/-- **C171**, false in full. -/
theorem C171_refuted : ¬ C171_full := by
  intro h
  have := h.1 [1] false [.cancel, .turn 0, .turn 0, .next] ⟨[], [], rfl⟩
  revert this
  decide

/-- It is false for reads of several types even if they are not cancelled: an error of the store in one of them is lost. -/
theorem C171_merged_refuted :
    ∃ (srcs : List (List Nat × Bool)) (acts : List Act), .cancel ∉ acts ∧ LooksComplete (State.answers (init srcs) acts) ∧
      ∃ p ∈ srcs, p.2 = true :=
  ⟨[([1], true), ([2], false)], [.pull, .pull, .next, .turn 0, .pull, .next, .turn 1, .pull, .next], by decide,
    ⟨[1, 2], [], by decide⟩, ([1], true), by simp, rfl⟩

/-! The hypotheses are met. -/

example : One.answers ⟨.at [1, 2] false, false, []⟩ [.next, .turn 0, .next, .next, .turn 0, .next] = [.record 1, .record 2, .closed] := by
  decide
example : One.answers ⟨.at [1, 2] false, false, []⟩ [.next, .cancel, .turn 0, .next, .next] = [.record 1, .error, .closed] := by decide
example : One.answers ⟨.at [1] true, false, []⟩ [.next, .turn 0, .turn 0, .next] = [.record 1, .error] := by decide
example : LooksComplete (One.answers ⟨.at [1, 2] false, false, []⟩ [.next, .turn 0, .next, .next, .turn 0, .next]) := ⟨[1, 2], [], by decide⟩
example : Prompt ⟨.at [1, 2] false, false, []⟩ [.next, .next, .turn 0, .cancel, .turn 0, .next] := by simp [Prompt, One.step, Src.give, Src.turn]
example : LooksComplete (One.answers ⟨.at [1, 2] false, false, []⟩ [.next, .next, .turn 0, .cancel, .turn 0, .next]) := ⟨[1, 2], [], by decide⟩
example : LooksComplete (State.answers (init demoRead) (demoActs ++ [.next])) := ⟨[1, 2, 3, 4, 5, 7], [], by decide⟩
example : State.answers (init [([1, 2], false), ([3], false)]) (demoGap ++ [.turn 1, .pull, .next]) = [.record 1, .record 3, .closed] := by
  decide

end RangeDB.Left

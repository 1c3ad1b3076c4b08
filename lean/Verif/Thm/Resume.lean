import Verif.Proof.Resume

/-!
# C170: A consumer that reads on after its last event misses none
-/

namespace RangeDB.Left

/-- **C170**, partial: a consumer that reads, stops at any moment, and reads on from the number after its last one, has at any time a
beginning of the store: in strictly increasing order, so none twice, and without a gap. The reads with one goroutine may be cancelled at
any moment, and all reads may be abandoned; reads of several types must not be cancelled. -/
theorem C170_partial (as : List Attempt) (a : Attempt) (h : OneStore (as ++ [a]))
    (hc : ∀ x ∈ as ++ [a], x.srcs.length = 1 ∨ .cancel ∉ x.acts) :
    (resume [] (as ++ [a])).Pairwise (· < ·) ∧
    (∀ x ∈ resume [] (as ++ [a]), x ∈ recs a.srcs) ∧
    (∀ x ∈ recs a.srcs, ∀ y ∈ resume [] (as ++ [a]), x < y → x ∈ resume [] (as ++ [a])) := by
  obtain ⟨hs, hp⟩ := h
  rw [List.pairwise_append] at hp
  have hb := beginning_resume as a.srcs [] (fun c hc => hs c (by simp [hc])) hp.1 (fun c hc => hp.2.2 c hc a (by simp))
    (fun c h => hc c (by simp [h])) (fun _ _ => beginning_nil _) (beginning_nil _)
  have := beginning_attempt hb (hs a (by simp)) a.acts (hc a (by simp))
  rw [resume_append]
  exact ⟨this.inc, this.sub, this.gap⟩

/-- **C170**, partial: and when its last read comes to its end without being cancelled, it has every record. -/
theorem C170_complete_partial (as : List Attempt) (a : Attempt) (h : OneStore (as ++ [a]))
    (hc : ∀ x ∈ as, x.srcs.length = 1 ∨ .cancel ∉ x.acts) (hca : .cancel ∉ a.acts)
    (hf : Finished (cut (startOf (resume [] as)) a.srcs) a.acts) :
    ∀ x ∈ recs a.srcs, x ∈ resume [] (as ++ [a]) := by
  obtain ⟨hs, hp⟩ := h
  rw [List.pairwise_append] at hp
  have hb := beginning_resume as a.srcs [] (fun c hc => hs c (by simp [hc])) hp.1 (fun c hc => hp.2.2 c hc a (by simp))
    hc (fun _ _ => beginning_nil _) (beginning_nil _)
  intro x hx
  rw [resume_append]
  simp only [resume, List.mem_append]
  rcases Nat.lt_or_ge x (startOf (resume [] as)) with hlt | hge
  · exact .inl (before_start hb x hx hlt)
  · exact .inr (handed_all _ (sorted_cut (hs a (by simp))) a.acts hca hf x (mem_cut.2 ⟨hx, hge⟩))

/-- Two types; the first read is cancelled. -/
def demoCancelled : Attempt := ⟨[([1, 2], false), ([3], false)], demoGap⟩

/-- The same types, after one more event; the read comes to its end. -/
def demoRest : Attempt := ⟨[([1, 2, 4], false), ([3], false)], [.pull, .turn 1, .pull, .next, .turn 0, .pull]⟩

theorem demo_store : OneStore [demoCancelled, demoRest] := by
  refine ⟨?_, ?_⟩
  · intro a ha
    simp only [List.mem_cons, List.not_mem_nil, or_false] at ha
    rcases ha with rfl | rfl <;> constructor <;> simp [demoCancelled, demoRest]
  · refine List.pairwise_pair.2 ?_
    unfold Grows
    decide

/-- **C170**, false in full: the consumer of two types whose first read was cancelled goes on from 4 and never gets 2. -/
theorem C170_refuted : ¬ C170_full := by
  intro h
  have := h [demoCancelled] demoRest demo_store (by decide) (by show _ = _; decide) 2 (by decide)
  revert this
  decide

example : resume [] [demoCancelled, demoRest] = [1, 3, 4] := by decide

/-! The hypotheses are met: a read of one type that is cancelled, one that is abandoned, and, when there are more events, one that comes
to its end. -/

def demoAttempts : List Attempt :=
  [⟨[([1, 2, 3], false)], [.next, .cancel, .turn 0, .turn 0, .next]⟩, ⟨[([1, 2, 3], false)], [.next]⟩]

def demoLast : Attempt := ⟨[([1, 2, 3, 5], false)], [.next, .next, .turn 0, .next]⟩

example : OneStore (demoAttempts ++ [demoLast]) := by
  refine ⟨?_, ?_⟩
  · intro a ha
    simp only [demoAttempts, List.mem_append, List.mem_cons, List.not_mem_nil, or_false] at ha
    rcases ha with (rfl | rfl) | rfl <;> constructor <;> simp [demoLast]
  · simp [demoAttempts, demoLast, Grows, recs]

example : ∀ x ∈ demoAttempts ++ [demoLast], x.srcs.length = 1 ∨ .cancel ∉ x.acts := by decide
example : .cancel ∉ demoLast.acts := by decide
example : Finished (cut (startOf (resume [] demoAttempts)) demoLast.srcs) demoLast.acts := by show _ = _; decide
example : resume [] demoAttempts = [1, 2] ∧ resume [] (demoAttempts ++ [demoLast]) = [1, 2, 3, 5] := by decide

/-- Two types, abandoned and read on. -/
example : resume [] [⟨[([1, 4], false), ([2], false)], [.pull, .pull, .next]⟩,
    ⟨[([1, 4], false), ([2, 6], false)], [.pull, .pull, .next, .pull, .next, .turn 0, .pull, .next, .turn 1, .pull]⟩] = [1, 2, 4, 6] := by
  decide

end RangeDB.Left

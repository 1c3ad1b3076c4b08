import Verif.Proof.ReadOrder
import Verif.Proof.ReadEnds

/-!
# C169: A consumer of several types is handed over the events in order, without a gap
-/

namespace RangeDB.Left

/-- **C169**, the order: whatever the goroutines of a read of several types do, whenever the read is cancelled, and whatever errors the
store has, the consumer is handed over records in strictly increasing order, each of them of a type that was asked for, and of each type
the first ones without a gap. -/
theorem C169_order (srcs : List (List Nat × Bool)) (h : Sorted srcs) (acts : List Act) :
    (run (init srcs) acts).out.Pairwise (· < ·) ∧
    (∀ x ∈ (run (init srcs) acts).out, ∃ p ∈ srcs, x ∈ p.1) ∧
    (∀ p ∈ srcs, ofType p.1 (run (init srcs) acts).out <+: p.1) := by
  have hi := inv_run (orig_of h) acts (inv_init srcs)
  generalize run (init srcs) acts = s at *
  refine ⟨hi.inc, fun x hx => ?_, fun p hp => ?_⟩
  · obtain ⟨o, ho, hxo⟩ := hi.known x hx
    obtain ⟨p, hp, rfl⟩ := List.mem_map.1 ho
    exact ⟨p, hp, hxo⟩
  · obtain ⟨k, hk, rfl⟩ := List.mem_iff_getElem.1 hp
    have hks : k < s.srcs.length := by rw [hi.len]; simpa using hk
    obtain ⟨rest, hpart⟩ := hi.each k srcs[k].1 s.srcs[k] (by simp [hk]) (List.getElem?_eq_getElem hks)
    by_cases hw : ∃ c, Waits s (k, c)
    · obtain ⟨c, hc⟩ := hw
      exact ⟨c :: rest, (hpart.held c hc).symm⟩
    · exact ⟨rest, (hpart.free (fun c hc => hw ⟨c, hc⟩)).symm⟩

/-- **C169**, partial, no gap: as long as the read is not cancelled, no record is left out between those that were handed over. -/
theorem C169_no_gap_partial (srcs : List (List Nat × Bool)) (h : Sorted srcs) (acts : List Act) (hc : .cancel ∉ acts) :
    NoGap srcs (run (init srcs) acts).out := by
  have hi := inv_run (orig_of h) acts (inv_init srcs)
  have hcan := run_cancelled acts (init srcs) rfl hc
  generalize run (init srcs) acts = s at *
  intro p hp x hx y hy hxy
  obtain ⟨k, hk, rfl⟩ := List.mem_iff_getElem.1 hp
  have hks : k < s.srcs.length := by rw [hi.len]; simpa using hk
  have ho : (srcs.map (·.1))[k]? = some srcs[k].1 := by simp [hk]
  have hsort := h.1 _ (List.getElem_mem hk)
  have hsk : s.srcs[k]? = some s.srcs[k] := List.getElem?_eq_getElem hks
  obtain ⟨rest, hpart⟩ := hi.each k srcs[k].1 s.srcs[k] ho hsk
  have hgiven : x ∈ ofType srcs[k].1 s.out → x ∈ s.out := fun hm => (List.mem_filter.1 hm).1
  by_cases hw : ∃ c, Waits s (k, c)
  · obtain ⟨c, hcw⟩ := hw
    have e := hpart.held c hcw
    have hyc : y < c := hi.above _ hcw y hy
    have hx2 := hx
    rw [e] at hx2 hsort
    simp only [List.mem_append, List.mem_cons] at hx2
    rcases hx2 with hx2 | rfl | hx2
    · exact hgiven hx2
    · omega
    · rw [List.pairwise_append, List.pairwise_cons] at hsort
      have := hsort.2.1.1 x hx2
      omega
  · have e := hpart.free (fun c hcw => hw ⟨c, hcw⟩)
    have hx2 := hx
    rw [e] at hx2 hsort
    simp only [List.mem_append] at hx2
    rcases hx2 with hx2 | hx2
    · exact hgiven hx2
    · rcases hi.after k _ hsk with ⟨c, hcp⟩ | hov | ⟨j, hf, _⟩
      · -- the record of this pipe was sent last
        have : ∃ i, s.merge = .read i ∧ s.pipes[i]? = some (k, c) := by
          apply Classical.byContradiction
          intro hn
          exact hw ⟨c, hcp, fun i hm hpi => hn ⟨i, hm, hpi⟩⟩
        obtain ⟨i, hm, hpi⟩ := this
        obtain ⟨q, hq, hpos, hin, hmax⟩ := hi.read i hm
        rw [hpi] at hq
        obtain rfl := Option.some.inj hq
        obtain ⟨o, hoo, hco⟩ := hi.ofPipe _ hcp
        rw [ho] at hoo
        obtain rfl := Option.some.inj hoo
        rw [List.pairwise_append] at hsort
        have hlt := hsort.2.2 s.pos (List.mem_filter.2 ⟨hin, by rw [← hpos]; simpa using hco⟩) x hx2
        have := hmax y hy
        omega
      · rw [hpart.done hcan (by rw [hov]; simp)] at hx2
        simp at hx2
      · rw [(hi.fill j hf).1] at hy
        simp at hy

/-- **C169**, the end: a read that was not cancelled and has come to its end has handed over every record. -/
theorem C169_complete (srcs : List (List Nat × Bool)) (h : Sorted srcs) (acts : List Act) (hc : .cancel ∉ acts)
    (hend : (run (init srcs) acts).merge = .over) :
    ∀ p ∈ srcs, ∀ x ∈ p.1, x ∈ (run (init srcs) acts).out := by
  have hi := inv_run (orig_of h) acts (inv_init srcs)
  have hcan := run_cancelled acts (init srcs) rfl hc
  generalize run (init srcs) acts = s at *
  intro p hp x hx
  obtain ⟨k, hk, rfl⟩ := List.mem_iff_getElem.1 hp
  have hks : k < s.srcs.length := by rw [hi.len]; simpa using hk
  have hsk : s.srcs[k]? = some s.srcs[k] := List.getElem?_eq_getElem hks
  obtain ⟨rest, hpart⟩ := hi.each k srcs[k].1 s.srcs[k] (by simp [hk]) hsk
  have hnil := hi.stop hend
  have e := hpart.free (fun c hcw => by have := hcw.1; rw [hnil] at this; simp at this)
  have hover : s.srcs[k] = .over := by
    rcases hi.after k _ hsk with ⟨c, hcp⟩ | hov | ⟨j, hf, _⟩
    · rw [hnil] at hcp; simp at hcp
    · exact hov
    · rw [hend] at hf; cases hf
  rw [hpart.done hcan (by rw [hover]; simp), List.append_nil] at e
  rw [e] at hx
  exact (List.mem_filter.1 hx).1

/-- **C169**, progress: a consumer that goes on comes to the end, whatever happened before, and also if the read is cancelled or the store
has errors: it takes three rounds for each record, two for each type and three more. -/
theorem C169_ends (srcs : List (List Nat × Bool)) (hne : srcs ≠ []) (before : List Act) (rounds : List (List Act))
    (hr : ∀ r ∈ rounds, Fair srcs.length r) (hn : 3 * total srcs + 2 * srcs.length + 3 ≤ rounds.length) :
    (run (init srcs) (before ++ rounds.flatten)).merge = .over := by
  have hg := good_init srcs hne
  have hlen : (run (init srcs) before).srcs.length = srcs.length := by rw [run_srcs_length]; simp [init]
  have h1 : work (run (init srcs) before) ≤ work (init srcs) := by
    rcases work_run before _ hg with h | ⟨h, _⟩ <;> omega
  rw [work_init] at h1
  rw [run_append]
  rcases work_rounds rounds _ (good_run before _ hg) (by rw [hlen]; exact hr) with h | h
  · exact h
  · omega

/-- So a read that is not cancelled gives every record to a consumer that goes on. -/
theorem C169_delivered (srcs : List (List Nat × Bool)) (hne : srcs ≠ []) (h : Sorted srcs) (before : List Act) (rounds : List (List Act))
    (hr : ∀ r ∈ rounds, Fair srcs.length r) (hn : 3 * total srcs + 2 * srcs.length + 3 ≤ rounds.length)
    (hc : .cancel ∉ before ++ rounds.flatten) :
    ∀ p ∈ srcs, ∀ x ∈ p.1, x ∈ (run (init srcs) (before ++ rounds.flatten)).out :=
  C169_complete srcs h _ hc (C169_ends srcs hne before rounds hr hn)

/-- **C169**, reads with one goroutine: `Events`, `EventsByStream` and the read of one type hand over the first records without a gap,
also if they are cancelled or the store has errors, and all records if they come to their end without having been cancelled. -/
theorem C169_one (l : List Nat) (f : Bool) (acts : List Act) :
    (One.run ⟨.at l f, false, []⟩ acts).out <+: l ∧
    (.cancel ∉ acts → (One.run ⟨.at l f, false, []⟩ acts).src = .over → (One.run ⟨.at l f, false, []⟩ acts).out = l) := by
  obtain ⟨rest, h⟩ := oneInv_run l acts ⟨.at l f, false, []⟩ l
    ⟨rfl, fun t g e => by cases e; rfl, fun _ hne => absurd rfl (hne l f)⟩
  refine ⟨⟨rest, h.all.symm⟩, fun hc ho => ?_⟩
  have e := h.done (one_cancelled acts _ rfl hc) (by rw [ho]; simp)
  have := h.all
  rw [e, List.append_nil] at this
  exact this.symm

example : (One.run ⟨.at [1, 2, 3] false, false, []⟩ [.next, .turn 0, .next, .cancel, .turn 0, .next, .turn 0]).out = [1, 2] := by decide
example : (One.run ⟨.at [1, 2, 3] true, false, []⟩ [.next, .turn 0, .next, .next, .turn 0, .next]).src = .over := by decide

/-- A read of two types that is cancelled after the first records have been fetched. -/
def demoGap : List Act := [.pull, .pull, .next, .cancel, .turn 0, .pull, .next]

/-- **C169**, false in full: a read that is cancelled may hand over an event although it left out one before it, and then ends like a
read that was complete: the goroutine of one type sees that the context is done, and the merge goes on with what it has of the others. -/
theorem C169_refuted : ¬ C169_full := by
  intro h
  have hs : Sorted [([1, 2], false), ([3], false)] := by constructor <;> simp
  have := h [([1, 2], false), ([3], false)] demoGap hs ([1, 2], false) (by simp) 2 (by simp) 3 (by decide) (by decide)
  revert this
  decide

example : (run (init [([1, 2], false), ([3], false)]) demoGap).out = [1, 3] := by decide

/-! The hypotheses are met: a read of three types, one of which has nothing, and one of which ends with an error of the store, with the
goroutines in an order of their own, from its start to its end. -/

def demoRead : List (List Nat × Bool) := [([1, 4, 5], false), ([], false), ([2, 3, 7], true)]

def demoActs : List Act :=
  [.turn 1, .pull, .pull, .pull, .next, .pull, .next, .pull, .next, .pull, .next, .turn 2, .pull, .next, .turn 0, .pull, .next, .turn 2, .pull]

example : Sorted demoRead := by constructor <;> simp [demoRead]
example : .cancel ∉ demoActs := by decide
example : (run (init demoRead) demoActs).merge = .over := by decide
example : (run (init demoRead) demoActs).out = [1, 2, 3, 4, 5, 7] := by decide
example : (run (init demoRead) (demoActs.take 11)).out = [1, 2, 3, 4] := by decide

def demoRound : List Act := [.turn 2, .turn 0, .turn 1, .next, .pull]

example : Fair demoRead.length demoRound :=
  ⟨[.turn 2, .turn 0, .turn 1], [.next, .pull], rfl, by decide, by decide, by decide⟩

example : ∃ rounds : List (List Act), (∀ r ∈ rounds, Fair demoRead.length r) ∧
    3 * total demoRead + 2 * demoRead.length + 3 ≤ rounds.length ∧ .cancel ∉ [.pull] ++ rounds.flatten := by
  refine ⟨List.replicate 30 demoRound, fun r hr => ?_, by decide, by decide⟩
  rw [(List.mem_replicate.1 hr).2]
  exact ⟨[.turn 2, .turn 0, .turn 1], [.next, .pull], rfl, by decide, by decide, by decide⟩

end RangeDB.Left

import Verif.Proof.StartAgain

/-!
# C165: a subscription that is started more than once
-/

namespace RangeDB.Again

/-- **C165**, partial: a subscription on which `Start` and `StartFrom` are called at most once, whatever they return, never crashes the
process, however often, from wherever and whenever it is stopped or its context cancelled. -/
theorem C165_once_partial (size : Nat) (acts : List Act) (h : starts acts ≤ 1) : (run size acts).panicked = false := by
  have := run_load acts (init size) rfl (by simpa [load, init] using h)
  exact this.1

/-- **C165**, partial: nor does a subscription that is started any number of times, as long as it is started again only when the last
start has failed, at once or later, or when it was stopped, where `Start` refuses; and it never has two goroutines at work. -/
theorem C165_again_partial (size : Nat) (acts : List Act) (h : OneByOne (init size) acts) :
    (run size acts).panicked = false ∧ (run size acts).workers.countP (· != .gone) ≤ 1 := by
  have := run_oneByOne acts (init size) rfl (by simp [load, init]) h
  refine ⟨this.1, ?_⟩
  have e : (run size acts).workers.countP (· != .gone) = (run size acts).workers.countP Worker.alive := by
    congr 1
    funext w
    cases w <;> rfl
  rw [e]
  have h2 := this.2
  unfold load at h2
  exact Nat.le_trans (by unfold run; omega) h2

/-- **C165**, partial: such a subscription, started with `Start` alone, gives the subscriber what is sent to it, in order and once each; when
nothing is under way, all of it. -/
theorem C165_order_partial (size : Nat) (acts : List Act) (h : OneByOne (init size) acts) (hp : ∀ a ∈ acts, a.Plain)
    (hr : Rising (run size acts).fed) :
    (run size acts).out <+: (run size acts).fed ∧
    ((run size acts).buffer = [] → (∀ w ∈ (run size acts).workers, w = .idle) → (run size acts).out = (run size acts).fed) := by
  have ht : Tidy (run size acts) := run_tidy acts (init size) rfl (by simp [load, init]) h hp hr (by simp [init])
    ⟨rfl, .inl ⟨rfl, rfl, rfl, rfl, rfl, rfl⟩⟩
  rcases ht.one with ⟨_, h2, h3, _⟩ | ⟨w, h1, h2, _⟩
  · rw [h2, h3]
    exact ⟨List.prefix_refl _, fun _ _ => rfl⟩
  · refine ⟨?_, ?_⟩
    · rw [h2, List.append_assoc]
      exact List.prefix_append _ _
    · intro hb hi
      rw [h1] at hi
      rw [h2, hb, hi w (by simp)]
      simp [Worker.held]

/-- **C165** is false for two starts: whenever two goroutines of one subscription wait for events, a `Stop` can end the process, with
a panic in the goroutine that comes second. -/
theorem C165_crash (size : Nat) (acts : List Act) (i j : Nat) (hij : i ≠ j) (hp : (run size acts).panicked = false)
    (hi : (run size acts).workers[i]? = some .idle) (hj : (run size acts).workers[j]? = some .idle) :
    (run size (acts ++ [.stop, .quit i, .quit j, .close i, .close j])).panicked = true := by
  have e : ∀ l, run size (acts ++ l) = l.foldl step (run size acts) := by intro l; simp [run]
  rw [e]
  generalize run size acts = s at hp hi hj
  simp only [List.foldl_cons, List.foldl_nil]
  have h1 : step s .stop = { s with cancelled := true } := by simp [step, hp]
  have h2 := quit_idle (s := step s .stop) (i := i) (by rw [h1]; exact hp) (by rw [h1]) (by rw [h1]; exact hi)
  have h3 := quit_idle (s := step (step s .stop) (.quit i)) (i := j) h2.1 h2.2.1
    (by rw [h2.2.2, List.getElem?_set_ne hij, h1]; exact hj)
  have h4 : (step (step (step s .stop) (.quit i)) (.quit j)).workers[i]? = some .leaving := by
    rw [h3.2.2, List.getElem?_set_ne (fun h => hij h.symm), h2.2.2, h1]
    simp only [List.getElem?_set_self' , hi, Option.map_some]
    rfl
  have h5 : (step (step (step s .stop) (.quit i)) (.quit j)).workers[j]? = some .leaving := by
    rw [h3.2.2, List.getElem?_set_self', h2.2.2, List.getElem?_set_ne hij, h1, hj]
    rfl
  exact close_two h3.1 hij h4 h5

/-- Two starts, two events, and the second goroutine is faster: the first event is never given to the subscriber. -/
theorem C165_lost (size r q : Nat) (hs : 2 ≤ size) (hr : 0 < r) (hq : r < q) :
    let s := run size [.start, .start, .feed r, .feed q, .take 0, .take 1, .check 1, .give 1, .check 0]
    Rising s.fed ∧ s.fed = [r, q] ∧ s.out = [q] ∧ s.buffer = [] ∧ s.workers = [.idle, .idle] := by
  have h0 : 0 < size := by omega
  have h1 : 1 < size := by omega
  have h2 : ¬ q ≤ 0 := by omega
  have h3 : r ≤ q := by omega
  have h4 : q ≠ 0 := by omega
  simp [run, init, step, Rising, h0, h1, h3, h4, hr, hq]
  omega

/-- The same, a moment later: the events are given in the wrong order. -/
theorem C165_disorder (size r q : Nat) (hs : 2 ≤ size) (hr : 0 < r) (hq : r < q) :
    (run size [.start, .start, .feed r, .feed q, .take 0, .take 1, .check 0, .check 1, .give 1, .give 0]).out = [q, r] := by
  have h0 : 0 < size := by omega
  have h1 : 1 < size := by omega
  have h3 : r ≠ 0 := by omega
  have h4 : q ≠ 0 := by omega
  simp [run, init, step, h0, h1, h3, h4]

/-- So the full property does not hold. -/
theorem C165_refuted : ¬ C165_full := by
  intro h
  have := (h 0 [.start, .start, .stop, .quit 0, .quit 1, .close 0, .close 1]).1
  revert this
  decide

/-! ### The hypotheses are met -/

/-- One start, three stops, two events, the second of which comes after the first stop. -/
def demoRun : List Act :=
  [.feed 3, .start, .feed 4, .take 0, .stop, .check 0, .feed 7, .give 0, .stop, .take 0, .check 0, .give 0, .quit 0, .stop, .close 0]

example : starts demoRun = 1 ∧ OneByOne (init 1) demoRun ∧ (∀ a ∈ demoRun, a.Plain) ∧ (run 1 demoRun).fed = [4, 7] ∧ (run 1 demoRun).out = [4, 7] ∧
    (run 1 demoRun).finished = true ∧ (run 1 demoRun).panicked = false := by
  refine ⟨by decide, by simp [demoRun, OneByOne, Act.begins, Over, step, init], ?_, by decide⟩
  intro a ha
  simp only [demoRun, List.mem_cons, List.not_mem_nil, or_false] at ha
  rcases ha with rfl | rfl | rfl | rfl | rfl | rfl | rfl | rfl | rfl | rfl | rfl | rfl | rfl | rfl | rfl <;> trivial

/-- `StartFrom` with a past, and a stop. -/
example : (run 5 [.startFrom 2, .past 0 2, .past 0 3, .next 0, .feed 4, .past 0 4, .next 0, .take 0, .check 0, .feed 5, .take 0,
    .check 0, .give 0]).out = [2, 3, 4, 5] := by decide

/-- Five starts: the first fails in the first read, the second when the subscriber refuses an event, the third is stopped, and the
other two are refused. -/
def demoAgain : List Act :=
  [.startFrom 1, .past 0 1, .fail 0, .start, .feed 2, .take 0, .check 0, .refuse 0, .startFrom 2, .past 1 2, .next 1, .next 1,
    .feed 3, .take 1, .check 1, .give 1, .stop, .start, .quit 1, .close 1, .start]

example : OneByOne (init 4) demoAgain ∧ starts demoAgain = 5 ∧ (run 4 demoAgain).out = [1, 2, 3] ∧ (run 4 demoAgain).finished = true := by
  refine ⟨?_, by decide, by decide, by decide⟩
  simp [demoAgain, OneByOne, Act.begins, Over, step, init]

/-- Two waiting goroutines are reached. -/
example : (run 1 [.start, .start]).workers = [.idle, .idle] ∧ (run 1 [.start, .start]).panicked = false := by decide

end RangeDB.Again

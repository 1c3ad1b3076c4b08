import Verif.Thm.Lock

/-! # C54: a cancelled read lets the writers proceed -/

namespace RangeDB.Lock

variable {σ ρ : Type}

/-- The goroutine has ended, or has only to end: it has handed out everything and no error follows. -/
def It.Ends (x : σ) (it : It σ ρ) : Prop := it.isOpen = false ∨ ((it.query x).1.length ≤ it.pos ∧ (it.query x).2 = false)

/-- Call `c` has returned and all its goroutines have ended or have only to end. -/
def Leaving (c : Nat) (s : State σ ρ) : Prop :=
  ∃ call, s.calls[c]? = some call ∧ call.todo = [] ∧ ∀ it ∈ call.its, it.Ends s.content

theorem It.Ends.stop {x : σ} {it : It σ ρ} (h : it.Ends x) : (it.stop x).Ends x := by
  unfold It.stop
  split
  · exact Or.inl rfl
  · exact h

theorem leaving_step {c : Nat} {s s' : State σ ρ} (hx : (∃ ops, s.phase = .active ops) → s.held = false) (h : Leaving c s)
    (l : Label σ ρ) (hs : step s l = some s') : Leaving c s' := by
  obtain ⟨call, hc, ht, hi⟩ := h
  have hlt : c < s.calls.length := (List.getElem?_eq_some_iff.mp hc).1
  have hset : ∀ (ci : Nat) (x : Call σ ρ), (ci = c → x.todo = [] ∧ ∀ it ∈ x.its, it.Ends s.content) →
      Leaving c (s.setCall ci x) := by
    intro ci x hx
    by_cases hci : ci = c
    · subst hci
      exact ⟨x, by simp [State.setCall, hlt], hx rfl⟩
    · exact ⟨call, by simp only [State.setCall]; rw [List.getElem?_set_ne hci]; exact hc, ht, hi⟩
  cases l with
  | newWriter ops =>
    obtain rfl := Option.some.inj hs
    exact ⟨call, hc, ht, hi⟩
  | newCall qs =>
    obtain rfl := Option.some.inj hs
    exact ⟨call, by simp only; rw [List.getElem?_append_left hlt]; exact hc, ht, hi⟩
  | announce i =>
    simp only [step] at hs
    split at hs
    · obtain rfl := Option.some.inj hs
      exact ⟨call, hc, ht, hi⟩
    · simp at hs
  | activate =>
    simp only [step] at hs
    split at hs
    · split at hs
      · simp at hs
      · obtain rfl := Option.some.inj hs
        exact ⟨call, hc, ht, hi⟩
    · simp at hs
  | write =>
    simp only [step] at hs
    split at hs
    · rename_i f ops hp
      obtain rfl := Option.some.inj hs
      have := held_false.mp (hx ⟨_, hp⟩) c call hc
      exact ⟨call, hc, ht, fun it hit => Or.inl (this it hit)⟩
    · simp at hs
  | unlock =>
    simp only [step] at hs
    split at hs
    · obtain rfl := Option.some.inj hs
      refine ⟨call.wake s.content, by simp [hc], ?_, ?_⟩
      · simp only [Call.wake, Call.acquire, ht]; split <;> exact ht
      · simp only [Call.wake, Call.acquire, ht]; split <;> exact hi
    · simp at hs
  | rlock ci =>
    simp only [step] at hs
    split at hs
    · simp at hs
    · rename_i call0 h0
      split at hs
      · simp at hs
      · rename_i hn
        have hne : ci ≠ c := by
          rintro rfl
          rw [hc] at h0
          obtain rfl := Option.some.inj h0
          exact hn (Or.inl (by simp [ht]))
        split at hs <;> obtain rfl := Option.some.inj hs <;> exact hset ci _ (fun h => absurd h hne)
  | emit ci i =>
    simp only [step] at hs
    split at hs
    · simp at hs
    · rename_i call0 h0
      split at hs
      · simp at hs
      · rename_i it0 hi0
        split at hs
        · rename_i hop
          split at hs
          · simp at hs
          · rename_i r hr
            obtain rfl := Option.some.inj hs
            refine hset ci _ ?_
            rintro rfl
            rw [hc] at h0
            obtain rfl := Option.some.inj h0
            have hm := hi it0 (List.mem_of_getElem? hi0)
            exfalso
            rcases hm with hm | ⟨hm, _⟩
            · rw [hm] at hop; simp at hop
            · have := (List.getElem?_eq_some_iff.mp hr).1
              omega
        · simp at hs
  | close ci i =>
    simp only [step] at hs
    split at hs
    · simp at hs
    · rename_i call0 h0
      split at hs
      · simp at hs
      · rename_i it0 hi0
        split at hs
        · obtain rfl := Option.some.inj hs
          refine hset ci _ ?_
          rintro rfl
          rw [hc] at h0
          obtain rfl := Option.some.inj h0
          refine ⟨ht, fun it hit => ?_⟩
          rcases mem_set_cases hit with rfl | hit
          · exact Or.inl rfl
          · exact hi it hit
        · simp at hs
  | cancel ci =>
    simp only [step] at hs
    split at hs
    · simp at hs
    · rename_i call0 h0
      obtain rfl := Option.some.inj hs
      refine hset ci _ ?_
      rintro rfl
      rw [hc] at h0
      obtain rfl := Option.some.inj h0
      refine ⟨ht, fun it hit => ?_⟩
      obtain ⟨it0, h1, rfl⟩ := List.mem_map.mp hit
      exact (hi it0 h1).stop

theorem leaving_exec {c : Nat} (ls : List (Label σ ρ)) : ∀ {V : Nat → σ → Prop} {s s' : State σ ρ}, Good V s → Leaving c s →
    exec s ls = some s' → Leaving c s' := by
  induction ls with
  | nil => intro V s s' _ h hs; simp only [exec] at hs; obtain rfl := Option.some.inj hs; exact h
  | cons l ls ih =>
    intro V s s' hg h hs
    simp only [exec] at hs
    split at hs
    · simp at hs
    · rename_i s1 h1
      exact ih (good_step l hg h1) (leaving_step hg.excl h l h1) hs

theorem init_good (x : σ) : Good (fun _ _ => False) (init x : State σ ρ) :=
  ⟨by rintro ⟨ops, ho⟩; simp [init] at ho, by intro c call hc; simp [init] at hc⟩

theorem cancel_leaving {c : Nat} {s s' : State σ ρ} {call : Call σ ρ} (hc : s.calls[c]? = some call) (ht : call.todo = [])
    (herr : ∀ it ∈ call.its, it.isOpen = true → (it.query s.content).2 = false) (hs : step s (.cancel c) = some s') :
    Leaving c s' ∧ s'.content = s.content ∧ s'.phase = s.phase ∧
      ∀ c', c' ≠ c → s'.calls[c']? = s.calls[c']? := by
  simp only [step, hc, Option.some.injEq] at hs
  subst hs
  have hlt : c < s.calls.length := (List.getElem?_eq_some_iff.mp hc).1
  refine ⟨⟨{ call with its := call.its.map (It.stop s.content) }, by simp [State.setCall, hlt], ht, fun it hit => ?_⟩, rfl, rfl,
    fun c' h => by simp only [State.setCall]; rw [List.getElem?_set_ne (Ne.symm h)]⟩
  obtain ⟨it0, h1, rfl⟩ := List.mem_map.mp hit
  have herr := herr it0 h1
  unfold It.stop
  split
  · exact Or.inl rfl
  · rename_i hp
    cases ho : it0.isOpen with
    | false => exact Or.inl ho
    | true => exact Or.inr ⟨Nat.le_of_not_lt hp, herr ho⟩

/-- A call that leaves can close its iterators one after the other. -/
theorem closes {c : Nat} : ∀ (n : Nat) {s : State σ ρ} {call : Call σ ρ}, s.calls[c]? = some call → call.todo = [] →
    (∀ it ∈ call.its, it.Ends s.content) → (call.its.filter (fun it => it.isOpen)).length = n →
    ∃ cs s', (∀ l ∈ cs, ∃ i, l = .close c i) ∧ cs.length = n ∧ exec s cs = some s' ∧ s'.content = s.content ∧ s'.phase = s.phase ∧
      s'.queue = s.queue ∧ (∀ c', c' ≠ c → s'.calls[c']? = s.calls[c']?) ∧
      ∃ call', s'.calls[c]? = some call' ∧ ∀ it ∈ call'.its, it.isOpen = false
  | 0, s, call, hc, ht, hi, hn => by
    refine ⟨[], s, by simp, rfl, rfl, rfl, rfl, rfl, fun _ _ => rfl, call, hc, fun it hit => ?_⟩
    cases ho : it.isOpen with
    | false => rfl
    | true =>
      have := List.length_eq_zero_iff.mp hn
      have hm : it ∈ call.its.filter (fun it => it.isOpen) := List.mem_filter.mpr ⟨hit, ho⟩
      rw [this] at hm
      simp at hm
  | n + 1, s, call, hc, ht, hi, hn => by
    have hlt : c < s.calls.length := (List.getElem?_eq_some_iff.mp hc).1
    have hne : call.its.filter (fun it => it.isOpen) ≠ [] := by intro h; rw [h] at hn; simp at hn
    obtain ⟨it, hit⟩ := List.exists_mem_of_ne_nil _ hne
    obtain ⟨hit, ho⟩ := List.mem_filter.mp hit
    obtain ⟨i, hget⟩ := List.getElem?_of_mem hit
    have hil : i < call.its.length := (List.getElem?_eq_some_iff.mp hget).1
    rcases hi it hit with h | ⟨h1, h2⟩
    · rw [ho] at h; simp at h
    let it' : It σ ρ := { it with isOpen := false, complete := true }
    have hstep : step s (.close c i) = some (s.setCall c (call.setIt i it')) := by
      simp only [step, hc, hget]
      rw [if_pos ⟨ho, h1, fun h => by rw [h2] at h; simp at h⟩]
    have hcount : ((call.setIt i it').its.filter (fun it => it.isOpen)).length = n := by
      have hc1 : (call.its.filter (fun it => it.isOpen)).length = call.its.countP (fun it => it.isOpen) :=
        (List.countP_eq_length_filter ..).symm
      have hc2 : ((call.setIt i it').its.filter (fun it => it.isOpen)).length = (call.its.set i it').countP (fun it => it.isOpen) :=
        (List.countP_eq_length_filter ..).symm
      rw [hc2, List.countP_set hil]
      have : call.its[i] = it := by
        have := List.getElem?_eq_some_iff.mp hget
        exact this.2
      rw [this, ho]
      simp only [if_true, it', Bool.false_eq_true, if_false]
      omega
    obtain ⟨cs, s', e1, e2, e3, e4, e5, e6, e7, e8⟩ := closes (c := c) n (s := s.setCall c (call.setIt i it')) (call := call.setIt i it')
      (by simp [State.setCall, hlt]) ht
      (fun x hx => by
        rcases mem_set_cases hx with rfl | hx
        · exact Or.inl rfl
        · exact hi x hx) hcount
    refine ⟨.close c i :: cs, s', ?_, by simp [e2], by simp [exec, hstep, e3], e4, e5, e6, fun c' h => ?_, e8⟩
    · intro l hl
      rcases List.mem_cons.mp hl with rfl | hl
      · exact ⟨i, rfl⟩
      · exact e1 l hl
    · rw [e7 c' h]
      simp only [State.setCall]
      rw [List.getElem?_set_ne (Ne.symm h)]

/-- **C54**, what holds, in every execution: once the context of a read call that has returned and whose open iterators do not end in an error
is cancelled, then at every later moment, whatever anybody has done since, none of its goroutines waits for its consumer: each has ended or can
end at once; and the consumer gets nothing more. Missing: reads that end in an error (`C54_false`). -/
theorem C54_never_waits_partial (x : σ) (before after : List (Label σ ρ)) (s s' : State σ ρ) (c : Nat) (call : Call σ ρ)
    (hx : exec (init x) before = some s) (hc : s.calls[c]? = some call) (ht : call.todo = [])
    (herr : ∀ it ∈ call.its, it.isOpen = true → (it.query s.content).2 = false)
    (hs : exec s (.cancel c :: after) = some s') :
    ∃ call', s'.calls[c]? = some call' ∧ ∀ (i : Nat) (it : It σ ρ), call'.its[i]? = some it →
      (it.isOpen = false ∨ (step s' (.close c i)).isSome) ∧ step s' (.emit c i) = none := by
  simp only [exec] at hs
  split at hs
  · simp at hs
  · rename_i s1 h1
    have hg := good_exec before (init_good x) hx
    obtain ⟨call', e1, e2, e3⟩ := leaving_exec after (good_step _ hg h1) (cancel_leaving hc ht herr h1).1 hs
    refine ⟨call', e1, fun i it hit => ?_⟩
    have hm := e3 it (List.mem_of_getElem? hit)
    constructor
    · rcases hm with hm | ⟨hm, hm2⟩
      · exact Or.inl hm
      · cases ho : it.isOpen with
        | false => exact Or.inl rfl
        | true =>
          right
          simp only [step, e1, hit]
          rw [if_pos ⟨ho, hm, fun h => by rw [hm2] at h; simp at h⟩]
          rfl
    · simp only [step, e1, hit]
      split
      · rename_i hop
        rcases hm with hm | ⟨hm, _⟩
        · rw [hm] at hop; simp at hop
        · rw [List.getElem?_eq_none hm]
      · rfl

/-- **C54**, what holds, for the writers: if the cancelled call is the only one whose goroutines hold the lock, an announced writer gets it after
each of these goroutines has taken its last step, and nobody else has to do anything. -/
theorem C54_writer_partial (x : σ) (before : List (Label σ ρ)) (s : State σ ρ) (c : Nat) (call : Call σ ρ)
    (hx : exec (init x) before = some s) (hc : s.calls[c]? = some call) (ht : call.todo = [])
    (herr : ∀ it ∈ call.its, it.isOpen = true → (it.query s.content).2 = false)
    (honly : ∀ c' call', c' ≠ c → s.calls[c']? = some call' → ∀ it ∈ call'.its, it.isOpen = false)
    (ops : Writes σ) (hp : s.phase = .announced ops) :
    ∃ cs s', (∀ l ∈ cs, ∃ i, l = .close c i) ∧ cs.length ≤ call.its.length ∧
      exec s (.cancel c :: cs ++ [.activate]) = some s' ∧ s'.phase = .active ops ∧ s'.content = s.content := by
  obtain ⟨s1, h1⟩ : ∃ s1, step s (.cancel c) = some s1 := ⟨s.setCall c { call with its := call.its.map (It.stop s.content) },
    by simp only [step, hc]⟩
  obtain ⟨⟨call1, c1, c2, c3⟩, d1, d2, d3⟩ := cancel_leaving hc ht herr h1
  obtain ⟨cs, s2, e1, e2, e3, e4, e5, _, e7, call2, e8, e9⟩ := closes _ c1 c2 c3 rfl
  have hlen : call1.its.length = call.its.length := by
    simp only [step, hc, Option.some.injEq] at h1
    subst h1
    have hlt : c < s.calls.length := (List.getElem?_eq_some_iff.mp hc).1
    simp only [State.setCall, List.getElem?_set_self hlt, Option.some.injEq] at c1
    subst c1
    simp
  have hfree : s2.held = false := by
    rw [held_false]
    intro c' call' hcc it hit
    by_cases hcc' : c' = c
    · subst hcc'
      rw [e8] at hcc
      obtain rfl := Option.some.inj hcc
      exact e9 it hit
    · rw [e7 c' hcc', d3 c' hcc'] at hcc
      exact honly c' call' hcc' hcc it hit
  refine ⟨cs, { s2 with phase := .active ops }, e1, ?_, ?_, rfl, by rw [← d1, ← e4]⟩
  · rw [e2, ← hlen]; exact List.length_filter_le ..
  · refine exec_append (.cancel c :: cs) [.activate] (s1 := s2) (by simp [exec, h1, e3]) ?_
    have : s2.phase = .announced ops := by rw [e5, d2, hp]
    simp [exec, step, this, hfree]

/-- A read of two records is cancelled after the first, while a writer waits: the writer gets the lock at once. -/
example : ∃ s call, exec (init 0) [.newCall [fun (_ : Nat) => ([7, 8], false)], .rlock 0, .emit 0 0, .newWriter [(· + 1)], .announce 0] = some s ∧
    s.calls[0]? = some call ∧ call.todo = [] ∧ (∀ it ∈ call.its, it.isOpen = true) ∧ call.its.length = 1 ∧
    (∀ it ∈ call.its, (it.query s.content).2 = false) ∧ ∃ ops, s.phase = .announced ops := by
  refine ⟨_, _, rfl, rfl, rfl, ?_, rfl, ?_, _, rfl⟩ <;> simp [Call.setIt, Call.acquire, init, State.setCall]

end RangeDB.Lock

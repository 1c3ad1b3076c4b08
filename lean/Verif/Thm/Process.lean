import Verif.Model.Process

/-!
# How the `rangedb` command ends: C97
-/

namespace RangeDB.Proc

/-- A clean end: status 0, the store closed, every request that came answered or turned into a WebSocket. -/
structure Clean (s : State) : Prop where
  status : s.exit = some 0
  closed : s.storeOpen = false
  answered : s.answered + s.sockets = s.came

/-- The full claim of **C97**: after an interrupt, whenever the process ends, it ends cleanly. -/
def C97_full : Prop := ∀ (ls : List Label) (s : State), exec start ls = some s → s.exit ≠ none → Clean s

/-- What holds in every reachable state. -/
structure Inv (s : State) : Prop where
  sum : s.active + s.answered + s.sockets = s.came
  order : match s.pc with
    | .waiting | .stopServer | .stopGrpc | .stopWs | .shutdown => s.listening = true ∧ s.storeOpen = true
    | .drain => s.listening = false ∧ s.storeOpen = true
    | .closeStore => s.listening = false ∧ s.storeOpen = true ∧ s.active = 0
    | .ret => s.listening = false ∧ s.storeOpen = false ∧ s.active = 0
  exit0 : s.exit = some 0 → s.pc = .ret
  exit1 : ∀ c, s.exit = some c → c = 0 ∨ c = 1 ∧ s.listening = false

theorem inv_start : Inv start := ⟨rfl, ⟨rfl, rfl⟩, by simp [start], by simp [start]⟩

theorem inv_step {s s' : State} {l : Label} (h : Inv s) (hs : step s l = some s') : Inv s' := by
  obtain ⟨h1, h2, h3, h4⟩ := h
  unfold step at hs
  by_cases he : s.exit.isSome = true
  · rw [if_pos he] at hs; cases hs
  · rw [if_neg he] at hs
    have hn : s.exit = none := by simpa using he
    cases l with
    | interrupt =>
      simp only at hs
      split at hs
      · rename_i hp
        simp only [Option.some.injEq] at hs
        subst hs
        rw [hp] at h2
        exact ⟨h1, h2, by simp [hn], by simp [hn]⟩
      · simp only [Option.some.injEq] at hs
        subst hs
        exact ⟨h1, h2, h3, h4⟩
    | main =>
      simp only [mainStep] at hs
      cases hp : s.pc with
      | waiting => rw [hp] at hs; cases hs
      | drain =>
        rw [hp] at hs h2
        simp only at hs
        split at hs
        · rename_i ha
          simp only [Option.some.injEq] at hs
          subst hs
          exact ⟨h1, ⟨h2.1, h2.2, ha⟩, by simp [hn], by simp [hn]⟩
        · cases hs
      | ret =>
        rw [hp] at hs h2
        simp only [Option.some.injEq] at hs
        subst hs
        exact ⟨h1, by simpa [hp] using h2, by simp [hp], by simp⟩
      | closeStore =>
        rw [hp] at hs h2
        simp only [Option.some.injEq] at hs
        subst hs
        exact ⟨h1, ⟨h2.1, rfl, h2.2.2⟩, by simp [hn], by simp [hn]⟩
      | shutdown =>
        rw [hp] at hs h2
        simp only [Option.some.injEq] at hs
        subst hs
        exact ⟨h1, ⟨rfl, h2.2⟩, by simp [hn], by simp [hn]⟩
      | _ =>
        rw [hp] at hs h2
        simp only [Option.some.injEq] at hs
        subst hs
        exact ⟨h1, h2, by simp [hn], by simp [hn]⟩
    | http =>
      simp only at hs
      split at hs
      · cases hs
      · rename_i hl
        simp only [Option.some.injEq] at hs
        subst hs
        exact ⟨h1, h2, by simp, by simpa using hl⟩
    | grpc =>
      simp only at hs
      split at hs
      · simp only [Option.some.injEq] at hs
        subst hs
        exact ⟨h1, h2, by simp [hn], by simp [hn]⟩
      · cases hs
    | arrive =>
      simp only at hs
      split at hs
      · rename_i hl
        simp only [Option.some.injEq] at hs
        subst hs
        refine ⟨by simp only; omega, ?_, by simp [hn], by simp [hn]⟩
        cases hp : s.pc <;> rw [hp] at h2 <;> simp_all
      · cases hs
    | answer =>
      simp only at hs
      split at hs
      · cases hs
      · rename_i hl
        simp only [Option.some.injEq] at hs
        subst hs
        refine ⟨by simp only; omega, ?_, by simp [hn], by simp [hn]⟩
        cases hp : s.pc <;> rw [hp] at h2 <;> simp_all
    | upgrade =>
      simp only at hs
      split at hs
      · cases hs
      · rename_i hl
        simp only [Option.some.injEq] at hs
        subst hs
        refine ⟨by simp only; omega, ?_, by simp [hn], by simp [hn]⟩
        cases hp : s.pc <;> rw [hp] at h2 <;> simp_all

theorem inv_exec (ls : List Label) : ∀ {s s' : State}, Inv s → exec s ls = some s' → Inv s' := by
  induction ls with
  | nil =>
    intro s s' h hx
    simp only [exec, Option.some.injEq] at hx
    subst hx; exact h
  | cons l ls ih =>
    intro s s' h hx
    simp only [exec] at hx
    cases hs : step s l with
    | none => rw [hs] at hx; cases hx
    | some s1 => rw [hs] at hx; exact ih (inv_step h hs) hx

/-- **C97 (partial).** Under every schedule: the process ends with status 0 or 1; if it ends with status 0 the
end is clean; while the store is closed no request is being handled, except on WebSockets; and it does not
end before `Shutdown` was called. Missing: that it does not end with status 1 (`C97_false`). -/
theorem C97_partial (ls : List Label) (s : State) (hx : exec start ls = some s) :
    (∀ c, s.exit = some c → c = 0 ∨ c = 1) ∧ (s.exit = some 0 → Clean s) ∧
    (s.storeOpen = false → s.active = 0 ∧ s.listening = false) ∧
    (s.exit ≠ none → s.listening = false) := by
  have h := inv_exec ls inv_start hx
  have hcl : s.storeOpen = false → s.active = 0 ∧ s.listening = false := by
    intro hc
    have := h.order
    cases hp : s.pc <;> rw [hp] at this <;> simp_all
  have h0 : s.exit = some 0 → s.listening = false ∧ s.storeOpen = false ∧ s.active = 0 := by
    intro he
    have hp := h.exit0 he
    have := h.order
    rw [hp] at this
    exact this
  refine ⟨fun c hc => (h.exit1 c hc).imp id (·.1), ?_, hcl, ?_⟩
  · intro he
    obtain ⟨_, hc, ha⟩ := h0 he
    have := h.sum
    exact ⟨he, hc, by omega⟩
  · intro he
    cases hc : s.exit with
    | none => exact absurd hc he
    | some c =>
      rcases h.exit1 c hc with rfl | ⟨_, h'⟩
      · exact (h0 hc).1
      · exact h'

/-- A schedule in which the process ends well: one request is answered before and one after the interrupt. -/
def goodEnd : List Label := [.arrive, .answer, .arrive, .interrupt, .main, .main, .grpc, .main, .main, .answer,
  .main, .main, .main]

example : (exec start goodEnd).map (fun s => (s.exit, s.storeOpen, s.came, s.answered)) =
    some (some 0, false, 2, 2) := by decide

/-- A schedule in which the goroutine of `serveHTTP` runs after `Shutdown` has begun. -/
def badEnd : List Label := [.arrive, .interrupt, .main, .main, .main, .main, .http]

/-- **C97 is false in full**: the process ends with status 1 while a request is being handled and before the
store is closed. -/
theorem C97_false : ¬ C97_full ∧ (exec start badEnd).map (fun s => (s.exit, s.storeOpen, s.active)) =
    some (some 1, true, 1) := by
  refine ⟨?_, by decide⟩
  intro h
  have := (h badEnd _ rfl (by decide)).status
  revert this
  decide

/-- **C97, when.** From the moment `Shutdown` is called until the process has ended, the goroutine of
`serveHTTP` can end the process with status 1 at any time, however many requests are being handled. -/
theorem C97_any_time (ls : List Label) (s : State) (hx : exec start ls = some s)
    (hp : s.pc = .drain ∨ s.pc = .closeStore ∨ s.pc = .ret) (he : s.exit = none) :
    ∃ s', step s .http = some s' ∧ s'.exit = some 1 ∧ s'.active = s.active ∧ s'.storeOpen = s.storeOpen := by
  have h := (inv_exec ls inv_start hx).order
  have hl : s.listening = false := by
    rcases hp with hp | hp | hp <;> rw [hp] at h
    · exact h.1
    · exact h.1
    · exact h.1
  refine ⟨{ s with exit := some 1 }, ?_, rfl, rfl, rfl⟩
  simp [step, he, hl]

example : (exec start [.interrupt, .main, .main, .main, .main]).map (fun s => (s.pc, s.exit)) =
    some (.drain, none) := by decide

theorem exec_append (l1 l2 : List Label) : ∀ (s : State),
    exec s (l1 ++ l2) = (exec s l1).bind (fun s' => exec s' l2) := by
  induction l1 with
  | nil => intro s; rfl
  | cons l l1 ih =>
    intro s
    simp only [List.cons_append, exec]
    cases step s l with
    | none => rfl
    | some s' => exact ih s'

/-- **C97, if the goroutine stays behind.** From every state in which the program runs and has been interrupted,
once the requests at hand are answered the steps of `main` alone end it cleanly: nothing else can hold it
up. -/
theorem C97_progress (ls : List Label) (s : State) (hx : exec start ls = some s) (he : s.exit = none)
    (hp : s.pc ≠ .waiting) :
    ∃ k s', exec s (List.replicate s.active .answer ++ List.replicate k .main) = some s' ∧ Clean s' := by
  have hI := inv_exec ls inv_start hx
  -- answer the requests
  have hans : ∀ (n : Nat) (t : State), t.active = n → t.exit = none → t.pc ≠ .waiting → Inv t →
      ∃ t', exec t (List.replicate n .answer) = some t' ∧ t'.active = 0 ∧ t'.exit = none ∧
        t'.pc ≠ .waiting ∧ Inv t' := by
    intro n
    induction n with
    | zero => intro t h1 h2 h3 h4; exact ⟨t, rfl, h1, h2, h3, h4⟩
    | succ n ih =>
      intro t h1 h2 h3 h4
      have hs : step t .answer = some { t with active := t.active - 1, answered := t.answered + 1 } := by
        simp [step, h2, h1]
      obtain ⟨t', g1, g2⟩ := ih { t with active := t.active - 1, answered := t.answered + 1 }
        (by simp only; omega) h2 h3 (inv_step h4 hs)
      refine ⟨t', ?_, g2⟩
      simp only [List.replicate_succ, exec, hs]
      exact g1
  obtain ⟨t, h1, h2, h3, h4, h5⟩ := hans s.active s rfl he hp hI
  -- then let `main` run
  have hmain : ∀ (n : Nat) (t : State), t.active = 0 → t.exit = none → Inv t →
      (match t.pc with
        | .waiting => False | .stopServer => n = 7 | .stopGrpc => n = 6 | .stopWs => n = 5 | .shutdown => n = 4
        | .drain => n = 3 | .closeStore => n = 2 | .ret => n = 1) →
      ∃ t', exec t (List.replicate n .main) = some t' ∧ t'.exit = some 0 ∧ Inv t' := by
    intro n
    induction n with
    | zero => intro t _ _ _ hm; cases hp : t.pc <;> rw [hp] at hm <;> simp_all
    | succ n ih =>
      intro t h1 h2 h4 hm
      have hstep : ∃ t1, step t .main = some t1 ∧ t1.active = 0 ∧
          (n = 0 ∧ t1.exit = some 0 ∨ t1.exit = none ∧
          (match t1.pc with
            | .waiting => False | .stopServer => n = 7 | .stopGrpc => n = 6 | .stopWs => n = 5
            | .shutdown => n = 4 | .drain => n = 3 | .closeStore => n = 2 | .ret => n = 1)) := by
        cases hp : t.pc <;> rw [hp] at hm <;> simp only [step, h2, mainStep, hp] <;> simp_all
      obtain ⟨t1, hs, ha, hc⟩ := hstep
      rcases hc with ⟨rfl, hc⟩ | ⟨hc, hm1⟩
      · refine ⟨t1, ?_, hc, inv_step h4 hs⟩
        simp only [List.replicate_succ, exec, hs, List.replicate_zero]
      · obtain ⟨t', g1, g2⟩ := ih t1 ha hc (inv_step h4 hs) hm1
        refine ⟨t', ?_, g2⟩
        simp only [List.replicate_succ, exec, hs]
        exact g1
  have hk : ∃ k, (match t.pc with
        | .waiting => False | .stopServer => k = 7 | .stopGrpc => k = 6 | .stopWs => k = 5 | .shutdown => k = 4
        | .drain => k = 3 | .closeStore => k = 2 | .ret => k = 1) := by
    cases hp : t.pc <;> simp_all
  obtain ⟨k, hk⟩ := hk
  obtain ⟨t', g1, g2, g3⟩ := hmain k t h2 h3 h5 hk
  refine ⟨k, t', by rw [exec_append, h1]; exact g1, g2, ?_, ?_⟩
  · have := g3.order
    rw [g3.exit0 g2] at this
    exact this.2.1
  · have h6 := g3.order
    rw [g3.exit0 g2] at h6
    have h7 := g3.sum
    have := h6.2.2
    omega

end RangeDB.Proc

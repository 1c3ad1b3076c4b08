import Verif.Model.PageEnd
import Verif.Thm.Pages

/-!
# A live statistics page ends when its browser has gone (C118)
-/

namespace RangeDB.Web

open Demo Prj

/-- The steps of the handler alone, with failing writes. -/
def alone (ls : List CLabel) : Prop := ∀ l ∈ ls, (∃ _ : l = .base .page, True) ∨ (∃ _ : l = .fail, True)

/-- The full statement of **C118**: in every state in which the browser has gone, the handler's own steps lead to its
end. -/
def C118_full : Prop :=
  ∀ (log : List Record) (ls : List CLabel) (c : Conn), cexec (opened .new log) ls = some c → c.gone = true →
    c.s.busy = false → ∃ own c', alone own ∧ cexec c own = some c' ∧ c'.ended = true

/-- Nothing has come since the handler looked last. -/
def Unmoved (c : Conn) : Prop := c.s.pc = .head ∧ c.s.busy = false ∧ c.s.stats.latest ≤ c.s.latest ∧ c.ended = false

theorem unmoved_step {c c' : Conn} (h : Unmoved c) {l : CLabel} (hl : l = .base .page ∨ l = .leave ∨ l = .fail)
    (hs : cstep c l = some c') : Unmoved c' ∧ c'.s = c.s := by
  obtain ⟨h1, h2, h3, h4⟩ := h
  rcases hl with rfl | rfl | rfl
  · simp only [cstep, h4, Bool.false_eq_true, if_false, step, pageStep, h1, h2, if_pos h3, Option.map_some,
      Option.some.injEq] at hs
    subst hs
    exact ⟨⟨h1, h2, h3, rfl⟩, rfl⟩
  · simp only [cstep, Option.some.injEq] at hs
    subst hs
    exact ⟨⟨h1, h2, h3, h4⟩, rfl⟩
  · simp [cstep, writing, h1] at hs

/-- **C118**, as long as no event arrives, a page whose handler waits for news never ends, whatever the handler does and
for however long the browser has been gone. -/
theorem C118_stays (c : Conn) (h : Unmoved c) (ls : List CLabel)
    (hl : ∀ l ∈ ls, l = .base .page ∨ l = .leave ∨ l = .fail) (c' : Conn) (hx : cexec c ls = some c') :
    c'.ended = false := by
  induction ls generalizing c with
  | nil => simp only [cexec, Option.some.injEq] at hx; subst hx; exact h.2.2.2
  | cons l ls ih =>
    simp only [cexec] at hx
    split at hx
    · rename_i c1 h1
      exact ih c1 (unmoved_step h (hl l (by simp)) h1).1 (fun x hm => hl x (List.mem_cons_of_mem _ hm)) hx
    · simp at hx

/-- **C118** is false: the page of an empty store, opened and closed. -/
theorem C118_false : ¬ C118_full := by
  intro h
  obtain ⟨own, c', h1, h2, h3⟩ := h [] [.leave] ⟨connect .new [], true, false⟩ rfl rfl rfl
  have := C118_stays ⟨connect .new [], true, false⟩ ⟨rfl, rfl, Nat.le_refl _, rfl⟩ own
    (fun l hl => by
      rcases h1 l hl with ⟨e, _⟩ | ⟨e, _⟩
      · exact Or.inl e
      · exact Or.inr (Or.inr e)) c' h2
  rw [this] at h3
  cases h3

theorem own_step {c : Conn} {s : State} {ls : List CLabel} (he : c.ended = false) (h : step true c.s .page = some s) :
    cexec c (.base .page :: ls) = cexec { c with s := s } ls := by
  simp [cexec, cstep, he, h]

theorem count_ends (todo : List Str) : ∀ (rows : List (Str × Nat)) (c : Conn), c.s.pc = .count todo rows →
    c.s.busy = false → c.gone = true → c.ended = false →
    ∃ c', cexec c (List.replicate todo.length (.base .page) ++ [.fail]) = some c' ∧ c'.ended = true := by
  induction todo with
  | nil =>
    intro rows c hp hb hg he
    refine ⟨{ c with ended := true }, ?_, rfl⟩
    simp [cexec, cstep, hg, he, writing, hp]
  | cons t ts ih =>
    intro rows c hp hb hg he
    obtain ⟨c', h1, h2⟩ := ih (rows ++ [(t, c.s.stats.totalByType t)])
      { c with s := { c.s with pc := .count ts (rows ++ [(t, c.s.stats.totalByType t)]) } } rfl hb hg he
    refine ⟨c', ?_, h2⟩
    rw [List.length_cons, List.replicate_succ, List.cons_append, own_step
      (s := { c.s with pc := .count ts (rows ++ [(t, c.s.stats.totalByType t)]) }) he (by simp [step, pageStep, hp, hb])]
    exact h1

theorem alone_replicate (k : Nat) : alone (List.replicate k (.base .page) ++ [.fail]) := by
  intro l hl
  rw [List.mem_append, List.mem_singleton] at hl
  rcases hl with hl | hl
  · exact Or.inl ⟨List.eq_of_mem_replicate hl, trivial⟩
  · exact Or.inr ⟨hl, trivial⟩

theorem alone_cons {ls : List CLabel} (h : alone ls) : alone (.base .page :: ls) := by
  intro l hl
  rcases List.mem_cons.mp hl with rfl | hl
  · exact Or.inl ⟨rfl, trivial⟩
  · exact h l hl

theorem cexec_pc_ne_done (ls : List CLabel) : ∀ (c c' : Conn), c.s.pc ≠ .done → cexec c ls = some c' → c'.s.pc ≠ .done := by
  induction ls with
  | nil => intro c c' h hx; simp only [cexec, Option.some.injEq] at hx; subst hx; exact h
  | cons l ls ih =>
    intro c c' h hx
    simp only [cexec] at hx
    split at hx
    · rename_i c1 h1
      refine ih c1 c' ?_ hx
      cases l with
      | base l =>
        cases l with
        | page =>
          simp only [cstep] at h1
          split at h1
          · cases h1
          · obtain ⟨s, hs, rfl⟩ := Option.map_eq_some_iff.mp h1
            simp only [step] at hs
            unfold pageStep at hs
            repeat' split at hs
            all_goals first
              | (cases hs; done)
              | (obtain rfl := Option.some.inj hs; first | assumption | simp_all)
        | accept =>
          obtain ⟨s, hs, rfl⟩ := Option.map_eq_some_iff.mp h1
          simp only [step] at hs
          repeat' split at hs
          all_goals first
            | (cases hs; done)
            | (obtain rfl := Option.some.inj hs; exact h)
        | finish =>
          obtain ⟨s, hs, rfl⟩ := Option.map_eq_some_iff.mp h1
          simp only [step] at hs
          repeat' split at hs
          all_goals first
            | (cases hs; done)
            | (obtain rfl := Option.some.inj hs; exact h)
      | leave => obtain rfl := Option.some.inj h1; exact h
      | fail =>
        simp only [cstep] at h1
        split at h1
        · obtain rfl := Option.some.inj h1; exact h
        · cases h1
    · cases hx

/-- **C118**, partial: the handler ends by its own steps if it is not waiting, or if a record with a larger number has been
accepted since it looked last. Missing: `C118_stays`. -/
theorem C118_partial (log : List Record) (ls : List CLabel) (c : Conn) (hx : cexec (opened .new log) ls = some c)
    (hg : c.gone = true) (hb : c.s.busy = false) (hnews : c.s.pc = .head → c.s.latest < c.s.stats.latest) :
    ∃ own c', alone own ∧ cexec c own = some c' ∧ c'.ended = true := by
  have hd := cexec_pc_ne_done ls (opened .new log) c (by simp [opened, connect]) hx
  by_cases he : c.ended = true
  · exact ⟨[], c, by intro l hl; simp at hl, rfl, he⟩
  have he : c.ended = false := by simpa using he
  have fromKeys : ∀ c : Conn, c.s.pc = .keys → c.s.busy = false → c.gone = true → c.ended = false →
      ∃ own c', alone own ∧ cexec c own = some c' ∧ c'.ended = true := by
    intro c hp hb hg he
    obtain ⟨c', h1, h2⟩ := count_ends c.s.stats.sortedTypes []
      { c with s := { c.s with pc := .count c.s.stats.sortedTypes [] } } rfl hb hg he
    refine ⟨_, c', alone_cons (alone_replicate c.s.stats.sortedTypes.length), ?_, h2⟩
    rw [own_step (s := { c.s with pc := .count c.s.stats.sortedTypes [] }) he (by simp [step, pageStep, hp, hb])]
    exact h1
  have fromSet : ∀ c : Conn, c.s.pc = .set → c.s.busy = false → c.gone = true → c.ended = false →
      ∃ own c', alone own ∧ cexec c own = some c' ∧ c'.ended = true := by
    intro c hp hb hg he
    obtain ⟨own, c', h0, h1, h2⟩ := fromKeys { c with s := { c.s with latest := c.s.stats.latest, pc := .keys } } rfl hb hg he
    refine ⟨_, c', alone_cons h0, ?_, h2⟩
    rw [own_step (s := { c.s with latest := c.s.stats.latest, pc := .keys }) he (by simp [step, pageStep, hp, hb])]
    exact h1
  cases hp : c.s.pc with
  | head =>
    obtain ⟨own, c', h0, h1, h2⟩ := fromSet { c with s := { c.s with pc := .set } } rfl hb hg he
    refine ⟨_, c', alone_cons h0, ?_, h2⟩
    have := hnews hp
    rw [own_step (s := { c.s with pc := .set }) he (by simp [step, pageStep, hp, hb, this])]
    exact h1
  | set => exact fromSet c hp hb hg he
  | keys => exact fromKeys c hp hb hg he
  | count todo rows =>
    obtain ⟨c', h1, h2⟩ := count_ends todo rows c hp hb hg he
    exact ⟨_, c', alone_replicate _, h1, h2⟩
  | done => exact absurd hp hd

/-- A handler never ends while its browser is there. -/
theorem C118_served (log : List Record) (ls : List CLabel) (c : Conn) (hx : cexec (opened .new log) ls = some c)
    (hg : c.gone = false) : c.ended = false := by
  have key : ∀ (ls : List CLabel) (c c' : Conn), (c.gone = false → c.ended = false) → cexec c ls = some c' →
      (c'.gone = false → c'.ended = false) := by
    intro ls
    induction ls with
    | nil => intro c c' h hx; simp only [cexec, Option.some.injEq] at hx; subst hx; exact h
    | cons l ls ih =>
      intro c c' h hx
      simp only [cexec] at hx
      split at hx
      · rename_i c1 h1
        refine ih c1 c' ?_ hx
        cases l with
        | base l =>
          cases l with
          | page =>
            simp only [cstep] at h1
            split at h1
            · cases h1
            · obtain ⟨s, hs, rfl⟩ := Option.map_eq_some_iff.mp h1
              exact h
          | accept => obtain ⟨s, hs, rfl⟩ := Option.map_eq_some_iff.mp h1; exact h
          | finish => obtain ⟨s, hs, rfl⟩ := Option.map_eq_some_iff.mp h1; exact h
        | leave => obtain rfl := Option.some.inj h1; intro h'; simp at h'
        | fail =>
          simp only [cstep] at h1
          split at h1
          · rename_i hc
            obtain rfl := Option.some.inj h1
            simp only [Bool.and_eq_true] at hc
            intro h'
            simp only [hc.1.1] at h'
            cases h'
          · cases h1
      · cases hx
  exact key ls _ c (fun _ => rfl) hx hg

/-- One event, a browser that has left: the handler ends with its first write. -/
example : (cexec (opened .new [mkRecord sA 1 1 (evA [1])])
      [.leave, .base .page, .base .accept, .base .finish, .base .page, .base .page, .base .page, .base .page, .fail]).map
    (·.ended) = some true := by decide

end RangeDB.Web

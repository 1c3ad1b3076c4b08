import Verif.Thm.Postgres

/-!
# C132: a PostgreSQL call that returned an error
-/

namespace RangeDB.PG

open RangeDB.Json

/-- Between the states after `a` and after `a ++ b` process `p` carries out the call `c`, which returns `out`. -/
structure Carries (cfg : Config) (a b : Schedule) (p : Nat) (c : Call) (out : Outcome Nat) : Prop where
  begun : (run cfg a).procs p = .begun c
  noCall : ∀ m ∈ b, m.1 = p → ∀ c', m.2 ≠ .call c'
  returned : (run cfg (a ++ b)).procs p = .returned c out

/-- No step of process `p` within `b` changes the stored events or what subscribers are told. -/
def NoEffect (cfg : Config) (a b : Schedule) (p : Nat) : Prop :=
  ∀ b1 m b2, b = b1 ++ (p, m) :: b2 →
    (run cfg (a ++ b1 ++ [(p, m)])).table = (run cfg (a ++ b1)).table ∧
    (run cfg (a ++ b1 ++ [(p, m)])).live = (run cfg (a ++ b1)).live ∧
    (run cfg (a ++ b1 ++ [(p, m)])).notified = (run cfg (a ++ b1)).notified

/-- The full statement of **C132**. -/
def C132_full : Prop :=
  ∀ (cfg : Config) (a b : Schedule) (p : Nat) (c : Call) (e : Err), Carries cfg a b p c (.err e) → NoEffect cfg a b p

/-- Process `p` has committed. -/
def Done (x : Proc) : Prop :=
  (∃ st e ers rows, x = .committed st e ers rows) ∨ (∃ c n, x = .returned c (.ok n)) ∨ (∃ c, x = .returned c (.err .deserialize))

/-- A step of `p`, not a new call, that changes something, is the commit. -/
theorem step_commit (cfg : Config) (s : State) (p : Nat) (m : Move) (hm : ∀ c, m ≠ .call c) (hl : m ≠ .lost) :
    ((step cfg s p m).table = s.table ∧ (step cfg s p m).live = s.live ∧ (step cfg s p m).notified = s.notified) ∨
      Done ((step cfg s p m).procs p) := by
  cases m with
  | call c => exact absurd rfl (hm c)
  | lost => exact absurd rfl hl
  | go =>
    unfold step
    cases hp : s.procs p with
    | idle => exact .inl ⟨rfl, rfl, rfl⟩
    | begun c =>
      cases c with
      | save st e ers =>
        left
        simp only
        split
        · exact ⟨rfl, rfl, rfl⟩
        · split <;> exact ⟨rfl, rfl, rfl⟩
      | delete st n =>
        left
        simp only
        split
        · exact ⟨rfl, rfl, rfl⟩
        · split <;> exact ⟨rfl, rfl, rfl⟩
    | locked st e ers =>
      left
      simp only
      split
      · exact ⟨rfl, rfl, rfl⟩
      · split <;> exact ⟨rfl, rfl, rfl⟩
    | inserting st e ers todo rows =>
      cases todo with
      | nil => right; simp only [setProc_same]; exact .inl ⟨_, _, _, _, rfl⟩
      | cons r todo => exact .inl ⟨rfl, rfl, rfl⟩
    | committed st e ers rows =>
      right
      simp only
      split
      · simp only [setProc_same]; exact .inr (.inl ⟨_, _, rfl⟩)
      · simp only [setProc_same]
        split
        · exact .inr (.inl ⟨_, _, rfl⟩)
        · exact .inr (.inr ⟨_, rfl⟩)
    | delCounted st n => exact .inl ⟨rfl, rfl, rfl⟩
    | delExecuted st n gsns => right; simp only [setProc_same]; exact .inr (.inl ⟨_, _, rfl⟩)
    | returned c out => left; cases out <;> exact ⟨rfl, rfl, rfl⟩
  | fail =>
    left
    unfold step
    cases hp : s.procs p with
    | begun c => cases c <;> exact ⟨rfl, rfl, rfl⟩
    | inserting st e ers todo rows => cases todo <;> exact ⟨rfl, rfl, rfl⟩
    | returned c out => cases out <;> exact ⟨rfl, rfl, rfl⟩
    | _ => exact ⟨rfl, rfl, rfl⟩

theorem step_done (cfg : Config) (s : State) (p : Nat) (m : Move) (hm : ∀ c, m ≠ .call c) (h : Done (s.procs p)) :
    Done ((step cfg s p m).procs p) := by
  rcases h with ⟨st, e, ers, rows, h⟩ | ⟨c, n, h⟩ | ⟨c, h⟩
  · cases m with
    | call c => exact absurd rfl (hm c)
    | go =>
      simp only [step, h]
      split
      · simp only [setProc_same]; exact .inr (.inl ⟨_, _, rfl⟩)
      · simp only [setProc_same]
        split
        · exact .inr (.inl ⟨_, _, rfl⟩)
        · exact .inr (.inr ⟨_, rfl⟩)
    | fail => simp only [step, h]; exact .inl ⟨_, _, _, _, rfl⟩
    | lost => simp only [step, h]; exact .inl ⟨_, _, _, _, rfl⟩
  · cases m with
    | call c => exact absurd rfl (hm c)
    | _ => simp only [step, h]; exact .inr (.inl ⟨_, _, rfl⟩)
  · cases m with
    | call c => exact absurd rfl (hm c)
    | _ => simp only [step, h]; exact .inr (.inr ⟨_, rfl⟩)

theorem runFrom_done (cfg : Config) (p : Nat) (b : Schedule) : ∀ s, (∀ m ∈ b, m.1 = p → ∀ c', m.2 ≠ .call c') → Done (s.procs p) →
    Done ((runFrom cfg s b).procs p) := by
  induction b with
  | nil => intro s _ h; exact h
  | cons x b ih =>
    intro s hb h
    rw [runFrom_cons]
    apply ih _ (fun m hm => hb m (by simp [hm]))
    obtain ⟨q, m⟩ := x
    by_cases hq : q = p
    · subst hq
      exact step_done cfg s q m (hb (q, m) (by simp) rfl) h
    · simp only
      rw [step_other cfg s m (fun e => hq e.symm)]
      exact h

/-- **C132**, what holds, in every schedule of any number of processes with any statements failing: a save or delete that
returns an error has stored and deleted nothing and nobody is told anything, unless the reply to its commit was lost, or the
error is that of decoding its own events after the commit. Missing: these two cases, for which it is false. -/
theorem C132_partial (cfg : Config) (a b : Schedule) (p : Nat) (c : Call) (e : Err) (h : Carries cfg a b p c (.err e))
    (hl : (p, Move.lost) ∉ b) (he : e ≠ .deserialize) : NoEffect cfg a b p := by
  intro b1 m b2 hb
  have hrun : ∀ x y, run cfg (x ++ y) = runFrom cfg (run cfg x) y := fun x y => runFrom_append cfg init x y
  have hstep : run cfg (a ++ b1 ++ [(p, m)]) = step cfg (run cfg (a ++ b1)) p m := by rw [hrun]; rfl
  have hmc : ∀ c', m ≠ .call c' := h.noCall (p, m) (by rw [hb]; simp) rfl
  have hml : m ≠ .lost := by rintro rfl; exact hl (by rw [hb]; simp)
  rw [hstep]
  rcases step_commit cfg (run cfg (a ++ b1)) p m hmc hml with h1 | h1
  · exact h1
  · exfalso
    rw [← hstep] at h1
    have h2 := runFrom_done cfg p b2 _ (fun x hx => h.noCall x (by rw [hb]; simp [hx])) h1
    rw [← hrun, show a ++ b1 ++ [(p, m)] ++ b2 = a ++ b by rw [hb]; simp, h.returned] at h2
    rcases h2 with ⟨_, _, _, _, h2⟩ | ⟨_, _, h2⟩ | ⟨_, h2⟩
    · cases h2
    · cases h2
    · exact he (by injection h2 with _ h3; injection h3)

/-- Two saves and a delete in which statements fail: the third statement of the first save fails while another save runs. -/
example : Carries demoCfg [(0, .call (.save pA none [demoEr goodData]))]
      ([(0, .go)] ++ fullSave 1 pB none demoEr2 ++ [(0, .go), (0, .fail)]) 0 (.save pA none [demoEr goodData]) (.err .db) ∧
    (run demoCfg ([(0, .call (.save pA none [demoEr goodData]))] ++
      ([(0, .go)] ++ fullSave 1 pB none demoEr2 ++ [(0, .go), (0, .fail)]))).rows.map (·.streamName) = [pB] := by
  refine ⟨⟨rfl, ?_, rfl⟩, by decide +kernel⟩
  intro m hm h0 c'
  simp only [fullSave, List.cons_append, List.nil_append, List.mem_cons, List.not_mem_nil, or_false] at hm
  rcases hm with rfl | rfl | rfl | rfl | rfl | rfl | rfl | rfl | rfl <;> simp_all

/-- **C132 is false** if the reply to the commit is lost. -/
theorem C132_false : ¬ C132_full := by
  intro h
  have := h demoCfg [(0, .call (.save pA none [demoEr goodData]))] [(0, .go), (0, .go), (0, .go), (0, .lost)] 0
    (.save pA none [demoEr goodData]) .db ⟨rfl, by simp, rfl⟩ [(0, .go), (0, .go), (0, .go)] .lost [] rfl
  have h1 := congrFun this.1 1
  have h2 : ((run demoCfg ([(0, .call (.save pA none [demoEr goodData]))] ++ [(0, .go), (0, .go), (0, .go)] ++
      [(0, .lost)])).table 1).isSome = true := by decide +kernel
  have h3 : ((run demoCfg ([(0, .call (.save pA none [demoEr goodData]))] ++ [(0, .go), (0, .go), (0, .go)])).table 1).isSome
      = false := by decide +kernel
  rw [h1, h3] at h2
  cases h2

/-- It is false, too, without any fault, of an event with metadata, or an event whose type the store cannot decode: the
error comes after the commit. -/
theorem C132_false_decode :
    Carries demoCfg [(0, .call (.save pA none [metaEr]))] [(0, .go), (0, .go), (0, .go), (0, .go), (0, .go)] 0
      (.save pA none [metaEr]) (.err .deserialize) ∧
    ¬ NoEffect demoCfg [(0, .call (.save pA none [metaEr]))] [(0, .go), (0, .go), (0, .go), (0, .go), (0, .go)] 0 := by
  refine ⟨⟨rfl, by simp, rfl⟩, fun h => ?_⟩
  have := h [(0, .go), (0, .go), (0, .go)] .go [(0, .go)] rfl
  have h1 := congrFun this.1 1
  have h2 : ((run demoCfg ([(0, .call (.save pA none [metaEr]))] ++ [(0, .go), (0, .go), (0, .go)] ++
      [(0, .go)])).table 1).isSome = true := by decide +kernel
  have h3 : ((run demoCfg ([(0, .call (.save pA none [metaEr]))] ++ [(0, .go), (0, .go), (0, .go)])).table 1).isSome
      = false := by decide +kernel
  rw [h1, h3] at h2
  cases h2

end RangeDB.PG

import Verif.Model.PostgresContext
import Verif.Thm.PostgresSequential

/-!
# Theorems: calls of the PostgreSQL store whose contexts are cancelled (C158)
-/

namespace RangeDB.PG

open RangeDB.Json

/-! ## Lemmas -/

theorem crunFrom_append (cfg : Config) (t : CState) (a b : CSchedule) :
    crunFrom cfg t (a ++ b) = crunFrom cfg (crunFrom cfg t a) b := List.foldl_append

theorem step_begun_delete (cfg : Config) (s : State) (p : Nat) (m : Move) {st : Str} {n : Nat}
    (hp : s.procs p = .begun (.delete st n)) :
    step cfg s p m = s ∨ (∃ e, step cfg s p m = setProc s p (.returned (.delete st n) (.err e))) ∨
      step cfg s p m = setProc s p (.delCounted st n) := by
  cases m with
  | go =>
    simp only [step, hp]
    by_cases h0 : lastSeq s st = 0
    · rw [if_pos h0]; exact Or.inr (Or.inl ⟨_, rfl⟩)
    · rw [if_neg h0]
      by_cases h1 : lastSeq s st ≠ n
      · rw [if_pos h1]; exact Or.inr (Or.inl ⟨_, rfl⟩)
      · rw [if_neg h1]; exact Or.inr (Or.inr rfl)
  | fail => simp only [step, hp]; exact Or.inr (Or.inl ⟨_, rfl⟩)
  | call c => simp only [step, hp]; exact Or.inl trivial
  | lost => simp only [step, hp]; exact Or.inl trivial

/-- Every connection that is taken belongs to a call that runs, or was left behind; and so does every lock. -/
structure Books (t : CState) : Prop where
  list : ∃ l k : List Nat, l.Nodup ∧ t.s.conns = l.length + k.length ∧ (∀ p, p ∈ l ↔ Active t.s p) ∧
    ∀ p, t.left p = k.count p
  locks : ∀ j p, t.s.locks j = some p → (t.s.procs p).holds ≠ none ∨ (panicked t.s p = true ∧ t.left p ≠ 0)

theorem books_init : Books ⟨init, fun _ => 0⟩ :=
  ⟨⟨[], [], by simp, rfl, by simp [Active, init, Proc.inTx], by simp⟩, by simp [init]⟩

theorem holds_not_panicked {s : State} {p : Nat} (h : (s.procs p).holds ≠ none) : panicked s p = false := by
  unfold panicked
  cases hp : s.procs p <;> simp_all [Proc.holds]

/-- A move that neither begins nor ends a transaction. -/
theorem Books.stays {t : CState} {s' : State} (p : Nat) (h : Books t) (hc : s'.conns = t.s.conns)
    (hq : ∀ q, q ≠ p → s'.procs q = t.s.procs q) (hp : Active s' p ↔ Active t.s p)
    (hl : ∀ j q, s'.locks j = some q → t.s.locks j = some q ∨ (q = p ∧ (s'.procs p).holds ≠ none))
    (hh : (t.s.procs p).holds ≠ none → (s'.procs p).holds ≠ none) (hn : panicked t.s p = false) : Books ⟨s', t.left⟩ := by
  obtain ⟨⟨l, k, h1, h2, h3, h4⟩, h5⟩ := h
  refine ⟨⟨l, k, h1, by rw [← h2]; exact hc, ?_, h4⟩, ?_⟩
  · intro q
    by_cases e : q = p
    · rw [e, h3 p]; exact hp.symm
    · rw [h3 q]; exact (Active.congr (hq q e)).symm
  · intro j q hj
    rcases hl j q hj with hj | ⟨rfl, hj⟩
    · by_cases e : q = p
      · subst e
        rcases h5 j q hj with h | ⟨h, _⟩
        · exact Or.inl (hh h)
        · rw [hn] at h; cases h
      · have : panicked s' q = panicked t.s q := by unfold panicked; rw [hq q e]
        show (s'.procs q).holds ≠ none ∨ (panicked s' q = true ∧ t.left q ≠ 0)
        rw [hq q e, this]
        exact h5 j q hj
    · exact Or.inl hj

/-- A move that ends the transaction. -/
theorem Books.ends {t : CState} (s1 : State) (x : Proc) (p : Nat) (h : Books t) (h1 : s1.locks = t.s.locks)
    (h2 : s1.procs = t.s.procs) (h3 : s1.conns = t.s.conns) (ha : Active t.s p) (hx : x.inTx = false) :
    Books ⟨PG.setProc (endTx s1 p) p x, t.left⟩ := by
  obtain ⟨⟨l, k, g1, g2, g3, g4⟩, g5⟩ := h
  have hmem := (g3 p).mpr ha
  have hpos : 0 < l.length := List.length_pos_of_mem hmem
  refine ⟨⟨l.erase p, k, g1.erase p, ?_, ?_, g4⟩, ?_⟩
  · show s1.conns - 1 = _
    rw [h3, g2, List.length_erase_of_mem hmem]
    omega
  · intro q
    rw [g1.mem_erase_iff]
    by_cases e : q = p
    · subst e
      simp [Active, hx]
    · have : Active (PG.setProc (endTx s1 p) p x) q ↔ Active t.s q := by
        unfold Active
        rw [setProc_other _ _ e]
        show (s1.procs q).inTx = true ↔ _
        rw [h2]
      rw [this, ← g3 q]
      simp [e]
  · intro j q hj
    have hj' : (if s1.locks j = some p then none else s1.locks j) = some q := hj
    by_cases hl : s1.locks j = some p
    · rw [if_pos hl] at hj'; cases hj'
    · rw [if_neg hl] at hj'
      have hq : q ≠ p := fun e => hl (by rw [hj', e])
      have hproc : (PG.setProc (endTx s1 p) p x).procs q = t.s.procs q := by
        rw [setProc_other _ _ hq]; show s1.procs q = _; rw [h2]
      have hpan : panicked (PG.setProc (endTx s1 p) p x) q = panicked t.s q := by unfold panicked; rw [hproc]
      show ((PG.setProc (endTx s1 p) p x).procs q).holds ≠ none ∨ _
      rw [hproc, hpan]
      exact g5 j q (by rw [← h1]; exact hj')

theorem leaves_not {cfg : Config} {s : State} {p : Nat} {m : Move} {x y : Proc} (hx : s.procs p = x)
    (hy : (step cfg s p m).procs p = y) (h : ∀ st n, x ≠ .begun (.delete st n)) (hp : ∀ c, y ≠ .returned c .panic) :
    leaves cfg s p m = false := by
  unfold leaves
  rw [hx, hy]
  split
  · exact absurd rfl (h _ _)
  · exact absurd rfl (hp _)
  · rfl

/-- The call returns and leaves its transaction open. -/
theorem Books.left {t : CState} {p : Nat} (x : Proc) (h : Books t) (ha : Active t.s p) (hx : x.inTx = false)
    (hh : (t.s.procs p).holds = none ∨ ∃ c, x = .returned c .panic) :
    Books ⟨PG.setProc t.s p x, fun q => if q = p then t.left p + 1 else t.left q⟩ := by
  obtain ⟨⟨l, k, g1, g2, g3, g4⟩, g5⟩ := h
  have hmem := (g3 p).mpr ha
  have hpos : 0 < l.length := List.length_pos_of_mem hmem
  have hnp : panicked t.s p = false := by
    unfold panicked
    unfold Active at ha
    cases hp : t.s.procs p <;> simp_all [Proc.inTx]
  refine ⟨⟨l.erase p, p :: k, g1.erase p, ?_, ?_, ?_⟩, ?_⟩
  · show t.s.conns = _
    rw [g2, List.length_erase_of_mem hmem, List.length_cons]
    omega
  · intro q
    rw [g1.mem_erase_iff]
    by_cases e : q = p
    · subst e
      simp [Active, hx]
    · rw [show Active (PG.setProc t.s p x) q ↔ Active t.s q from Active.congr (setProc_other _ _ e), ← g3 q]
      simp [e]
  · intro q
    by_cases e : q = p
    · subst e; simp [g4]
    · have : ¬ p = q := fun h => e h.symm
      simp [e, g4, List.count_cons, this]
  · intro j q hj
    have hj' : t.s.locks j = some q := hj
    by_cases e : q = p
    · subst e
      rcases hh with hh | ⟨c, rfl⟩
      · rcases g5 j q hj' with g | ⟨g, _⟩
        · exact absurd hh g
        · rw [hnp] at g; cases g
      · right
        simp [panicked]
    · have hproc : (PG.setProc t.s p x).procs q = t.s.procs q := setProc_other _ _ e
      have hpan : panicked (PG.setProc t.s p x) q = panicked t.s q := by unfold panicked; rw [hproc]
      show ((PG.setProc t.s p x).procs q).holds ≠ none ∨
        (panicked (PG.setProc t.s p x) q = true ∧ (if q = p then t.left p + 1 else t.left q) ≠ 0)
      rw [hproc, hpan, if_neg e]
      exact g5 j q hj'

theorem Books.move {cfg : Config} {t : CState} (h : Books t) (p : Nat) (m : Move) : Books (cstep cfg t p (.move m)) := by
  have same : Books ⟨t.s, t.left⟩ := h
  show Books ⟨step cfg t.s p m, if leaves cfg t.s p m then _ else t.left⟩
  by_cases hd : ∃ st n, t.s.procs p = .begun (.delete st n)
  · obtain ⟨st, n, hp⟩ := hd
    rcases step_begun_delete cfg t.s p m hp with hs | ⟨e, hs⟩ | hs
    · have : leaves cfg t.s p m = false := by unfold leaves; rw [hs, hp]
      rw [this, hs]; exact same
    · have : leaves cfg t.s p m = true := by unfold leaves; rw [hs, hp, setProc_same]
      rw [this, hs]
      exact h.left _ (by simp [Active, hp, Proc.inTx]) rfl (Or.inl (by simp [hp, Proc.holds]))
    · have : leaves cfg t.s p m = false := by unfold leaves; rw [hs, hp, setProc_same]
      rw [this, hs]
      exact h.stays p rfl (fun q hq => setProc_other _ _ hq) (by simp [Active, hp, Proc.inTx]) (fun j q hj => Or.inl hj)
        (by simp [hp, Proc.holds]) (by simp [panicked, hp])
  · have hnd : ∀ st n, t.s.procs p ≠ .begun (.delete st n) := fun st n hp => hd ⟨st, n, hp⟩
    have he := step_eff cfg t.s p m
    have no : ∀ {y : Proc}, (step cfg t.s p m).procs p = y → (∀ c, y ≠ .returned c .panic) →
        leaves cfg t.s p m = false := fun hy hyp => leaves_not rfl hy hnd hyp
    generalize hs' : step cfg t.s p m = s' at he
    cases he with
    | stay =>
      have : leaves cfg t.s p m = false := by
        unfold leaves
        rw [hs']
        cases hp : t.s.procs p with
        | begun c => cases c with
          | save _ _ _ => rfl
          | delete st n => exact absurd hp (hnd st n)
        | _ => rfl
      rw [this]; exact same
    | begin c hmc hf hc =>
      rw [no (by rw [hs']) (by simp)]
      obtain ⟨⟨l, k, h1, h2, h3, h4⟩, h5⟩ := h
      have hna : p ∉ l := by
        rw [h3 p]
        unfold Active
        rcases hf with hf | ⟨c', o, hf, _⟩ <;> rw [hf] <;> simp [Proc.inTx]
      refine ⟨⟨p :: l, k, by simp [hna, h1], ?_, ?_, h4⟩, ?_⟩
      · show t.s.conns + 1 = _
        rw [h2, List.length_cons]; omega
      · intro q
        by_cases e : q = p
        · subst e
          simp [Active, Proc.inTx]
        · have : Active (PG.setProc { t.s with conns := t.s.conns + 1 } p (.begun c)) q ↔ Active t.s q :=
            Active.congr (setProc_other _ _ e)
          rw [List.mem_cons, this, h3 q]
          simp [e]
      · intro j q hj
        have hj' : t.s.locks j = some q := hj
        by_cases e : q = p
        · subst e
          rcases h5 j q hj' with g | ⟨g, _⟩
          · rcases hf with hf | ⟨_, _, hf, _⟩ <;> rw [hf] at g <;> simp [Proc.holds] at g
          · rcases hf with hf | ⟨_, o, hf, ho⟩
            · simp [panicked, hf] at g
            · cases o <;> simp_all [panicked]
        · have hproc : (PG.setProc { t.s with conns := t.s.conns + 1 } p (.begun c)).procs q = t.s.procs q :=
            setProc_other _ _ e
          have hpan : panicked (PG.setProc { t.s with conns := t.s.conns + 1 } p (.begun c)) q = panicked t.s q := by
            unfold panicked; rw [hproc]
          show ((PG.setProc { t.s with conns := t.s.conns + 1 } p (.begun c)).procs q).holds ≠ none ∨ _
          rw [hproc, hpan]
          exact h5 j q hj'
    | rollback c e ha =>
      rw [no (by rw [hs']) (by simp [PG.rollback])]
      exact h.ends t.s _ p rfl rfl rfl ha rfl
    | lock st e ers hp hl hne =>
      rw [no (by rw [hs']) (by simp)]
      refine h.stays p rfl (fun q hq => setProc_other _ _ hq) (by simp [Active, hp, Proc.inTx]) ?_
        (by simp [Proc.holds]) (by simp [panicked, hp])
      intro j q hj
      have hj' : (if j = fnv32a st then some p else t.s.locks j) = some q := hj
      by_cases hjk : j = fnv32a st
      · rw [if_pos hjk] at hj'
        exact Or.inr ⟨(Option.some.inj hj').symm, by simp [Proc.holds]⟩
      · rw [if_neg hjk] at hj'; exact Or.inl hj'
    | prepare st e ers rs hp hx hb =>
      rw [no (by rw [hs']) (by simp)]
      exact h.stays p rfl (fun q hq => setProc_other _ _ hq) (by simp [Active, hp, Proc.inTx]) (fun j q hj => Or.inl hj)
        (by simp [Proc.holds]) (by simp [panicked, hp])
    | panic st e ers hp hb =>
      have : leaves cfg t.s p m = true := by unfold leaves; rw [hs', hp, setProc_same]
      rw [this]
      exact h.left _ (by simp [Active, hp, Proc.inTx]) rfl (Or.inr ⟨_, rfl⟩)
    | alloc st e ers r todo rows hp =>
      rw [no (by rw [hs']) (by simp)]
      exact h.stays p rfl (fun q hq => setProc_other _ _ hq) (by simp [Active, hp, Proc.inTx]) (fun j q hj => Or.inl hj)
        (by simp [Proc.holds]) (by simp [panicked, hp])
    | commit st e ers rows x hp hx =>
      rw [no (y := x) (by rw [hs']; exact setProc_same _ _ _) (by rcases hx with rfl | rfl <;> simp)]
      exact h.ends { t.s with
        table := insertRows t.s.table rows, hist := t.s.hist ++ [(st, e, rows)],
        notified := t.s.notified ++ (if cfg.notify then rows else []) } x p rfl rfl rfl (by simp [Active, hp, Proc.inTx])
        (by rcases hx with rfl | rfl <;> rfl)
    | done st e ers rows live o hp ho _ =>
      rw [no (by rw [hs']) (by rcases ho with rfl | rfl <;> simp)]
      exact h.stays p rfl (fun q hq => setProc_other _ _ hq) (by simp [Active, hp, Proc.inTx]) (fun j q hj => Or.inl hj)
        (by simp [hp, Proc.holds]) (by simp [panicked, hp])
    | refuse st n e hp => exact absurd hp (hnd st n)
    | count st n hp hn h0 => exact absurd hp (hnd st n)
    | execute st n hp =>
      rw [no (by rw [hs']) (by simp)]
      exact h.stays p rfl (fun q hq => setProc_other _ _ hq) (by simp [Active, hp, Proc.inTx]) (fun j q hj => Or.inl hj)
        (by simp [hp, Proc.holds]) (by simp [panicked, hp])
    | remove st n gsns o hp ho =>
      rw [no (by rw [hs']) (by rcases ho with rfl | rfl <;> simp)]
      exact h.ends { t.s with
        table := fun g => (t.s.table g).filter (fun r => !(gsns.contains g && r.streamName == st)) } _ p rfl rfl rfl
        (by simp [Active, hp, Proc.inTx]) rfl

theorem count_filter_length (k : List Nat) (p : Nat) : (k.filter (fun q => q ≠ p)).length = k.length - k.count p := by
  induction k with
  | nil => rfl
  | cons x k ih =>
    have := List.count_le_length (a := p) (l := k)
    by_cases h : x = p
    · subst h; simp only [ne_eq, not_true_eq_false, decide_false, Bool.false_eq_true, not_false_eq_true,
        List.filter_cons_of_neg, List.length_cons, List.count_cons_self]
      simp only [ne_eq] at ih
      rw [ih]; omega
    · have h' : (x != p) = true := by simpa using h
      rw [List.filter_cons_of_pos (by simpa using h), List.length_cons, ih, List.length_cons, List.count_cons_of_ne h]
      omega

theorem Books.cancel {cfg : Config} {t : CState} (h : Books t) (p : Nat) : Books (cstep cfg t p .cancel) := by
  obtain ⟨⟨l, k, h1, h2, h3, h4⟩, h5⟩ := h
  refine ⟨⟨l, k.filter (fun q => q ≠ p), h1, ?_, h3, ?_⟩, ?_⟩
  · show t.s.conns - t.left p = _
    have := List.count_le_length (a := p) (l := k)
    rw [h2, h4, count_filter_length]; omega
  · intro q
    show (if q = p then 0 else t.left q) = _
    by_cases e : q = p
    · subst e
      rw [if_pos rfl]
      exact (List.count_eq_zero.mpr (by simp)).symm
    · rw [if_neg e, h4, List.count_filter (by simpa using e)]
  · intro j q hj
    have hj' : (if panicked t.s p = true ∧ t.s.locks j = some p then none else t.s.locks j) = some q := hj
    by_cases hc : panicked t.s p = true ∧ t.s.locks j = some p
    · rw [if_pos hc] at hj'; cases hj'
    · rw [if_neg hc] at hj'
      rcases h5 j q hj' with g | ⟨g1, g2⟩
      · exact Or.inl g
      · right
        have : q ≠ p := by rintro rfl; exact hc ⟨g1, hj'⟩
        exact ⟨g1, by show (if q = p then 0 else t.left q) ≠ 0; rw [if_neg this]; exact g2⟩

theorem Books.run {cfg : Config} (ms : CSchedule) : ∀ {t : CState}, Books t → Books (crunFrom cfg t ms) := by
  induction ms with
  | nil => exact fun h => h
  | cons m ms ih =>
    intro t h
    obtain ⟨p, m⟩ := m
    cases m with
    | move m => exact ih (h.move p m)
    | cancel => exact ih (h.cancel p)

theorem cancels_left (cfg : Config) (ps : List Nat) : ∀ (t : CState) (q : Nat), (q ∈ ps → (crunFrom cfg t (ps.map (·, .cancel))).left q = 0) ∧
    (q ∉ ps → (crunFrom cfg t (ps.map (·, .cancel))).left q = t.left q) := by
  induction ps with
  | nil => intro t q; simp [crunFrom]
  | cons p ps ih =>
    intro t q
    show (q ∈ p :: ps → (crunFrom cfg (cstep cfg t p .cancel) (ps.map (·, .cancel))).left q = 0) ∧ (q ∉ p :: ps →
      (crunFrom cfg (cstep cfg t p .cancel) (ps.map (·, .cancel))).left q = t.left q)
    obtain ⟨h1, h2⟩ := ih (cstep cfg t p .cancel) q
    by_cases hq : q ∈ ps
    · exact ⟨fun _ => h1 hq, fun h => absurd (by simp [hq]) h⟩
    · rw [h2 hq]
      show (q ∈ p :: ps → (if q = p then 0 else t.left q) = 0) ∧ (q ∉ p :: ps → (if q = p then 0 else t.left q) = t.left q)
      by_cases e : q = p
      · simp [e]
      · simp [e, hq]

theorem cancels_same (cfg : Config) (ps : List Nat) : ∀ (t : CState),
    let t' := crunFrom cfg t (ps.map (·, .cancel))
    t'.s.table = t.s.table ∧ t'.s.procs = t.s.procs ∧ t'.s.nextGsn = t.s.nextGsn ∧ t'.s.live = t.s.live ∧
      t'.s.notified = t.s.notified := by
  induction ps with
  | nil => intro t; exact ⟨rfl, rfl, rfl, rfl, rfl⟩
  | cons p ps ih =>
    intro t
    exact ih (cstep cfg t p .cancel)

theorem left_absent (cfg : Config) (ms : CSchedule) (q : Nat) : ∀ (t : CState), q ∉ ms.map (·.1) →
    (crunFrom cfg t ms).left q = t.left q := by
  induction ms with
  | nil => intro t _; rfl
  | cons m ms ih =>
    intro t hq
    obtain ⟨p, m⟩ := m
    have hne : q ≠ p := by rintro rfl; exact hq (by simp)
    have := ih (cstep cfg t p m) (fun h => hq (by simp [h]))
    rw [show crunFrom cfg t ((p, m) :: ms) = crunFrom cfg (cstep cfg t p m) ms from rfl, this]
    cases m with
    | move m =>
      show (if leaves cfg t.s p m then (fun q => if q = p then t.left p + 1 else t.left q) else t.left) q = _
      split
      · simp [hne]
      · rfl
    | cancel => show (if q = p then 0 else t.left q) = _; rw [if_neg hne]

/-! ## C158 -/

/-- Every call has returned, or has panicked. -/
def AllReturned (s : State) : Prop := ∀ p, s.procs p = .idle ∨ ∃ c o, s.procs p = .returned c o

theorem Books.free {t : CState} (h : Books t) (hr' : AllReturned t.s) (hleft : ∀ q, t.left q = 0) :
    t.s.conns = 0 ∧ ∀ j, t.s.locks j = none := by
  obtain ⟨⟨l, k, _, b2, b3, b4⟩, b5⟩ := h
  have hl : l = [] := by
    cases l with
    | nil => rfl
    | cons p l =>
      have := (b3 p).mp (by simp)
      unfold Active at this
      rcases hr' p with hp | ⟨c, o, hp⟩ <;> rw [hp] at this <;> simp [Proc.inTx] at this
  have hk : k = [] := by
    cases k with
    | nil => rfl
    | cons p k => have := b4 p; rw [hleft p] at this; simp at this
  refine ⟨by rw [b2, hl, hk]; rfl, ?_⟩
  intro j
  cases hj : t.s.locks j with
  | none => rfl
  | some p =>
    rcases b5 j p hj with g | ⟨_, g⟩
    · rcases hr' p with hp | ⟨c, o, hp⟩ <;> rw [hp] at g <;> simp [Proc.holds] at g
    · exact absurd (hleft p) g

/-- **C158.** In every schedule of any number of clients, with any statements failing, on a store with or without a UUID
generator: when all calls have returned, with whatever outcome, even a panic, and their contexts are then cancelled, no
connection is taken any more and no stream is locked. The cancellations change no row and no answer and tell the
subscribers nothing. -/
theorem C158_released (cfg : Config) (ms : CSchedule) (hr : AllReturned (crun cfg ms).s) :
    let t := crun cfg (ms ++ (ms.map (·.1)).map (·, .cancel))
    t.s.conns = 0 ∧ (∀ k, t.s.locks k = none) ∧ t.s.rows = (crun cfg ms).s.rows ∧ t.s.procs = (crun cfg ms).s.procs ∧
      t.s.live = (crun cfg ms).s.live ∧ t.s.notified = (crun cfg ms).s.notified := by
  have hrun : crun cfg (ms ++ (ms.map (·.1)).map (·, .cancel)) =
      crunFrom cfg (crun cfg ms) ((ms.map (·.1)).map (·, .cancel)) := crunFrom_append _ _ _ _
  have hbooks : Books (crun cfg (ms ++ (ms.map (·.1)).map (·, .cancel))) := Books.run _ books_init
  have hsame := cancels_same cfg (ms.map (·.1)) (crun cfg ms)
  rw [← hrun] at hsame
  have hleft : ∀ q, (crun cfg (ms ++ (ms.map (·.1)).map (·, .cancel))).left q = 0 := by
    intro q
    obtain ⟨h1, h2⟩ := cancels_left cfg (ms.map (·.1)) (crun cfg ms) q
    rw [hrun]
    by_cases hq : q ∈ ms.map (·.1)
    · exact h1 hq
    · rw [h2 hq]; exact left_absent cfg ms q _ hq
  generalize crun cfg (ms ++ (ms.map (·.1)).map (·, .cancel)) = t at hbooks hsame hleft
  obtain ⟨s1, s2, s3, s4, s5⟩ := hsame
  have hr' : AllReturned t.s := by intro p; rw [s2]; exact hr p
  obtain ⟨f1, f2⟩ := hbooks.free hr' hleft
  exact ⟨f1, f2, by unfold State.rows; rw [s1, s3], s2, s4, s5⟩

/-- A store with one connection and no UUID generator: client 0 is refused a delete, which keeps the connection, and the
save of client 1 has to wait until the context of the delete is cancelled; then it panics and leaves the stream locked; and
then, its context cancelled too, everything is free. -/
def ctxDemo : CSchedule :=
  [(0, .move (.call (.delete pA 0))), (0, .move .go), (1, .move (.call (.save pA none [demoEr goodData]))), (0, .cancel),
   (1, .move (.call (.save pA none [demoEr goodData]))), (1, .move .go), (1, .move .go)]

theorem ctxDemo_returned : AllReturned (crun ⟨false, false, unbound, 1⟩ ctxDemo).s := by
  intro p
  by_cases h0 : p = 0
  · subst h0; exact Or.inr ⟨_, _, rfl⟩
  by_cases h1 : p = 1
  · subst h1; exact Or.inr ⟨_, .panic, rfl⟩
  refine Or.inl ?_
  show (if p = 1 then _ else if p = 1 then _ else if p = 1 then _ else if p = 0 then _ else if p = 0 then _ else Proc.idle) = _
  simp [h0, h1]

example := C158_released _ ctxDemo ctxDemo_returned

/-- Before the last cancellation a connection was taken and the stream locked. -/
example : (crun ⟨false, false, unbound, 1⟩ ctxDemo).s.conns = 1 ∧
    (crun ⟨false, false, unbound, 1⟩ ctxDemo).s.locks (fnv32a pA) = some 1 ∧
    (crun ⟨false, false, unbound, 1⟩ (ctxDemo.take 4)).s.procs 1 = .idle := ⟨rfl, rfl, rfl⟩

/-! ## Transfer -/

/-- The states are equal but for the number of connections that are taken. -/
def SameRows (s b : State) : Prop := b = { s with conns := b.conns }

theorem step_conns (cfg : Config) (cap n : Nat) (s : State) (p : Nat) (m : Move) (hm : ∀ c, m ≠ .call c) :
    ∃ n', n' ≤ n ∧ step { cfg with cap := cap } { s with conns := n } p m = { step cfg s p m with conns := n' } := by
  have stay : ∃ n', n' ≤ n ∧ ({ s with conns := n } : State) = { s with conns := n' } := ⟨n, Nat.le_refl n, rfl⟩
  have sub : n - 1 ≤ n := Nat.sub_le n 1
  unfold step
  cases hp : s.procs p with
  | idle => cases m <;> first | exact stay | exact absurd rfl (hm _)
  | returned c o => cases m <;> cases o <;> first | exact stay | exact absurd rfl (hm _)
  | begun c =>
    cases c with
    | save st e ers =>
      cases m with
      | go =>
        simp only
        by_cases h0 : ers.length < 1
        · rw [if_pos h0, if_pos h0]; exact ⟨_, sub, rfl⟩
        · rw [if_neg h0, if_neg h0]
          cases hl : s.locks (fnv32a st) with
          | none => exact ⟨_, Nat.le_refl n, rfl⟩
          | some q => exact stay
      | fail => exact ⟨_, sub, rfl⟩
      | lost => exact stay
      | call c => exact absurd rfl (hm c)
    | delete st k =>
      cases m with
      | go =>
        simp only
        have hls : lastSeq { s with conns := n } st = lastSeq s st := rfl
        rw [hls]
        by_cases h0 : lastSeq s st = 0
        · rw [if_pos h0, if_pos h0]; exact ⟨_, Nat.le_refl n, rfl⟩
        rw [if_neg h0, if_neg h0]
        by_cases h1 : lastSeq s st ≠ k
        · rw [if_pos h1, if_pos h1]; exact ⟨_, Nat.le_refl n, rfl⟩
        · rw [if_neg h1, if_neg h1]; exact ⟨_, Nat.le_refl n, rfl⟩
      | fail => exact ⟨_, Nat.le_refl n, rfl⟩
      | lost => exact stay
      | call c => exact absurd rfl (hm c)
  | locked st e ers =>
    cases m with
    | go =>
      have hls : lastSeq { s with conns := n } st = lastSeq s st := rfl
      simp only [hls]
      have key : ∀ b : Outcome (List Record), ∃ n', n' ≤ n ∧
          (match b with
            | .ok rs => setProc { s with conns := n } p (.inserting st e ers rs [])
            | .err x => rollback { s with conns := n } p (.save st e ers) x
            | .panic => setProc { s with conns := n } p (.returned (.save st e ers) .panic)
            | .blocked => { s with conns := n } : State) =
          { (match b with
            | .ok rs => setProc s p (.inserting st e ers rs [])
            | .err x => rollback s p (.save st e ers) x
            | .panic => setProc s p (.returned (.save st e ers) .panic)
            | .blocked => s : State) with conns := n' } := by
        intro b
        cases b with
        | ok rs => exact ⟨_, Nat.le_refl n, rfl⟩
        | err x => exact ⟨_, sub, rfl⟩
        | panic => exact ⟨_, Nat.le_refl n, rfl⟩
        | blocked => exact stay
      cases e with
      | none => exact key _
      | some x =>
        by_cases h : lastSeq s st ≠ x
        · simp only [if_pos h]; exact ⟨_, sub, rfl⟩
        · simp only [if_neg h]; exact key _
    | fail => exact ⟨_, sub, rfl⟩
    | lost => exact stay
    | call c => exact absurd rfl (hm c)
  | inserting st e ers todo rows =>
    cases todo with
    | nil =>
      cases m with
      | call c => exact absurd rfl (hm c)
      | _ => exact ⟨_, sub, rfl⟩
    | cons r todo =>
      cases m with
      | go => exact ⟨_, Nat.le_refl n, rfl⟩
      | fail => exact ⟨_, sub, rfl⟩
      | lost => exact stay
      | call c => exact absurd rfl (hm c)
  | committed st e ers rows =>
    cases m with
    | go =>
      simp only
      by_cases hn : cfg.notify = true
      · rw [if_pos hn, if_pos hn]; exact ⟨_, Nat.le_refl n, rfl⟩
      · rw [if_neg hn, if_neg hn]; exact ⟨_, Nat.le_refl n, rfl⟩
    | fail => exact stay
    | lost => exact stay
    | call c => exact absurd rfl (hm c)
  | delCounted st k =>
    cases m with
    | go => exact ⟨_, Nat.le_refl n, rfl⟩
    | fail => exact ⟨_, sub, rfl⟩
    | lost => exact stay
    | call c => exact absurd rfl (hm c)
  | delExecuted st k gsns =>
    cases m with
    | call c => exact absurd rfl (hm c)
    | _ => exact ⟨_, sub, rfl⟩

theorem SameRows.procs {s b : State} (h : SameRows s b) : b.procs = s.procs := by
  unfold SameRows at h; rw [h]

theorem SameRows.conns {s b : State} (h : SameRows s b) : ∃ n, b = { s with conns := n } := ⟨b.conns, h⟩

theorem step_call_cases (cfg : Config) (s : State) (p : Nat) (c : Call) :
    step cfg s p (.call c) = s ∨
    ((s.procs p = .idle ∨ ∃ c o, s.procs p = .returned c o ∧ o ≠ .panic) ∧ s.conns < cfg.cap ∧
      step cfg s p (.call c) = setProc { s with conns := s.conns + 1 } p (.begun c)) := by
  by_cases hf : s.procs p = .idle ∨ ∃ c o, s.procs p = .returned c o ∧ o ≠ .panic
  · by_cases hc : s.conns < cfg.cap
    · exact Or.inr ⟨hf, hc, step_call c hf hc⟩
    · left
      rcases hf with hf | ⟨c', o, hf, ho⟩
      · simp only [step, hf, if_neg hc]
      · cases o with
        | panic => exact absurd rfl ho
        | _ => simp only [step, hf, if_neg hc]
  · left
    unfold step
    cases hp : s.procs p with
    | idle => exact absurd (Or.inl hp) hf
    | returned c' o =>
      cases o with
      | panic => rfl
      | _ => exact absurd (Or.inr ⟨_, _, hp, by simp⟩) hf
    | begun c' => cases c' <;> rfl
    | inserting st e ers todo rows => cases todo <;> rfl
    | _ => rfl

/-- No call has panicked. -/
def NoPanic (s : State) : Prop := ∀ p, panicked s p = false

theorem NoPanic.set {s s' : State} (p : Nat) (h : NoPanic s) (hq : ∀ q, q ≠ p → s'.procs q = s.procs q)
    (hp : ∀ c, s'.procs p ≠ .returned c .panic) : NoPanic s' := by
  intro q
  by_cases e : q = p
  · subst e
    unfold panicked
    split
    · rename_i hx; exact absurd hx (hp _)
    · rfl
  · have := h q
    unfold panicked at this ⊢
    rw [hq q e]; exact this

theorem NoPanic.step {cfg : Config} (hu : cfg.uuid = true) {s : State} (h : NoPanic s) (p : Nat) (m : Move) :
    NoPanic (PG.step cfg s p m) := by
  have he := step_eff cfg s p m
  generalize PG.step cfg s p m = s' at he
  cases he with
  | stay => exact h
  | panic st e ers hp hb => rw [hu] at hb; exact absurd hb (toBatch_no_panic _ _ _ _ _)
  | begin c _ _ _ => exact h.set p (fun q hq => setProc_other _ _ hq) (by simp)
  | rollback c e _ => exact h.set p (fun q hq => setProc_other _ _ hq) (by simp [PG.rollback])
  | commit st e ers rows x hp hx =>
    exact h.set p (fun q hq => setProc_other _ _ hq) (by rw [setProc_same]; rcases hx with rfl | rfl <;> simp)
  | done st e ers rows live o hp ho _ =>
    exact h.set p (fun q hq => setProc_other _ _ hq) (by rw [setProc_same]; rcases ho with rfl | rfl <;> simp)
  | remove st n gsns o hp ho =>
    exact h.set p (fun q hq => setProc_other _ _ hq) (by rw [setProc_same]; rcases ho with rfl | rfl <;> simp)
  | _ => exact h.set p (fun q hq => setProc_other _ _ hq) (by simp)

theorem SameRows.cancel {cfg : Config} {t : CState} {b : State} (h : SameRows t.s b) (p : Nat) (hp : panicked t.s p = false) :
    SameRows (cstep cfg t p .cancel).s b := by
  unfold SameRows at h ⊢
  rw [h]
  simp [cstep, hp]

/-- The moves of the calls of a schedule. -/
def moves (ms : CSchedule) : Schedule := ms.filterMap (fun m => match m.2 with | .move x => some (m.1, x) | .cancel => none)

theorem transfer_from {cfg : Config} (hu : cfg.uuid = true) (cap : Nat) : ∀ (ms : CSchedule) (t : CState) (b : State),
    SameRows t.s b → NoPanic t.s → b.conns + ms.length < cap →
    ∃ ms' : Schedule, ms'.Sublist (moves ms) ∧ SameRows (crunFrom cfg t ms).s (runFrom { cfg with cap := cap } b ms') := by
  intro ms
  induction ms with
  | nil => intro t b h _ _; exact ⟨[], List.Sublist.refl _, h⟩
  | cons m ms ih =>
    intro t b h hn hc
    obtain ⟨p, m⟩ := m
    rw [List.length_cons] at hc
    cases m with
    | cancel =>
      have hn' : NoPanic (cstep cfg t p .cancel).s := hn
      obtain ⟨ms', h1, h2⟩ := ih (cstep cfg t p .cancel) b (h.cancel p (hn p)) hn' (by omega)
      exact ⟨ms', h1, h2⟩
    | move m =>
      have hn' : NoPanic (cstep cfg t p (.move m)).s := hn.step hu p m
      have skip : ∀ ms' : Schedule, ms'.Sublist (moves ms) → ms'.Sublist (moves ((p, .move m) :: ms)) :=
        fun ms' hs => hs.trans (List.sublist_cons_self _ _)
      have keep : ∀ ms' : Schedule, ms'.Sublist (moves ms) → ((p, m) :: ms').Sublist (moves ((p, .move m) :: ms)) :=
        fun ms' hs => hs.cons_cons _
      have hb : b = { t.s with conns := b.conns } := h
      by_cases hm : ∃ c, m = .call c
      · obtain ⟨c, rfl⟩ := hm
        rcases step_call_cases cfg t.s p c with hs | ⟨hf, _, hs⟩
        · obtain ⟨ms', h1, h2⟩ := ih (cstep cfg t p (.move (.call c))) b
            (by show SameRows (step cfg t.s p (.call c)) b; rw [hs]; exact h) hn' (by omega)
          exact ⟨ms', skip _ h1, h2⟩
        · have hf' : b.procs p = .idle ∨ ∃ c o, b.procs p = .returned c o ∧ o ≠ .panic := by rw [hb]; exact hf
          have hb' := step_call (cfg := { cfg with cap := cap }) c hf' (show b.conns < cap by omega)
          obtain ⟨ms', h1, h2⟩ := ih (cstep cfg t p (.move (.call c))) (step { cfg with cap := cap } b p (.call c))
            (by
              show SameRows (step cfg t.s p (.call c)) _
              rw [hs, hb']
              unfold SameRows setProc
              rw [hb])
            hn' (by rw [hb']; show b.conns + 1 + ms.length < cap; omega)
          exact ⟨_, keep _ h1, h2⟩
      · obtain ⟨n', hle, hs⟩ := step_conns cfg cap b.conns t.s p m (fun c hc => hm ⟨c, hc⟩)
        rw [← hb] at hs
        obtain ⟨ms', h1, h2⟩ := ih (cstep cfg t p (.move m)) (step { cfg with cap := cap } b p m)
          (by show SameRows (step cfg t.s p m) _; rw [hs]; rfl) hn' (by rw [hs]; show n' + ms.length < cap; omega)
        exact ⟨_, keep _ h1, h2⟩

/-- **C158**, transfer: whatever contexts are cancelled, on a store with a UUID generator: the rows, the answers of all calls,
the locks and what the subscribers are told are those of the same schedule without cancellations, and without the calls that
did not get a connection, on a store with enough connections. So what is proved of the store for all schedules holds with
cancellations. -/
theorem C158_transfer (cfg : Config) (hu : cfg.uuid = true) (ms : CSchedule) :
    ∃ (cap : Nat) (ms' : Schedule), ms'.Sublist (moves ms) ∧
      { (crun cfg ms).s with conns := 0 } = { run { cfg with cap := cap } ms' with conns := 0 } := by
  obtain ⟨ms', h1, h2⟩ := transfer_from hu (ms.length + 1) ms ⟨init, fun _ => 0⟩ init rfl (fun _ => rfl)
    (by show 0 + ms.length < _; omega)
  refine ⟨ms.length + 1, ms', h1, ?_⟩
  show { (crunFrom cfg ⟨init, fun _ => 0⟩ ms).s with conns := 0 } = { runFrom _ init ms' with conns := 0 }
  unfold SameRows at h2
  rw [h2]

/-! ## One call at a time -/

/-- The calls one after the other, and the context of each is cancelled when it has returned: how a server calls the store. -/
def servedOne (x : Nat × Call) : CSchedule := (turn x.1 x.2).map (fun m => (m.1, .move m.2)) ++ [(x.1, .cancel)]

def served (cfg : Config) (calls : List (Nat × Call)) : State := (crun cfg (calls.flatMap servedOne)).s

theorem gos_same {cfg : Config} (cap p : Nat) : ∀ (n : Nat) (t : CState) (b : State), SameRows t.s b →
    SameRows (crunFrom cfg t ((List.replicate n (p, Move.go)).map (fun m => (m.1, .move m.2)))).s
      (runFrom { cfg with cap := cap } b (List.replicate n (p, .go))) := by
  intro n
  induction n with
  | zero => intro t b h; exact h
  | succ n ih =>
    intro t b h
    rw [List.replicate_succ]
    have hb : b = { t.s with conns := b.conns } := h
    obtain ⟨n', _, hs⟩ := step_conns cfg cap b.conns t.s p .go (fun c hc => by cases hc)
    rw [← hb] at hs
    exact ih (cstep cfg t p (.move .go)) (step { cfg with cap := cap } b p .go)
      (by show SameRows (step cfg t.s p .go) _; rw [hs]; rfl)

theorem served_from {cfg : Config} (hu : cfg.uuid = true) (hcap : 0 < cfg.cap) (cap : Nat) : ∀ (calls : List (Nat × Call))
    (t : CState) (b : State) (m : IM.State) (L : Log) (N k : Nat), Both { cfg with cap := cap } b m L N k →
    SameRows t.s b → Books t → (∀ q, t.left q = 0) → (∀ x ∈ calls, x.2.Plain cfg.ty) → N + broughtBy calls < 2 ^ 64 →
    k + calls.length < cap →
    SameRows (crunFrom cfg t (calls.flatMap servedOne)).s (runFrom { cfg with cap := cap } b (oneByOne calls)) := by
  intro calls
  induction calls with
  | nil => intro t b m L N k _ h _ _ _ _ _; exact h
  | cons x calls ih =>
    obtain ⟨p, c⟩ := x
    intro t b m L N k hB h hbk hleft hp hN hk
    rw [List.length_cons] at hk
    have hbr : broughtBy ((p, c) :: calls) = c.count + broughtBy calls := by
      cases c <;> simp [broughtBy, Call.count]
    rw [hbr] at hN
    have hb : b = { t.s with conns := b.conns } := h
    have hprocs : b.procs = t.s.procs := by rw [hb]
    have hret : AllReturned t.s := by
      intro q
      rw [← hprocs]
      rcases hB.quiet q with g | ⟨c, o, g, _⟩
      · exact Or.inl g
      · exact Or.inr ⟨c, o, g⟩
    have hfree := (hbk.free hret hleft).1
    obtain ⟨⟨L', hB'⟩, _, _⟩ := Both.turn (cfg := { cfg with cap := cap }) (show ({ cfg with cap := cap } : Config).uuid = true from hu) hB p c (hp (p, c) (by simp)) (show k < cap by omega) (by omega)
    have hready : t.s.procs p = .idle ∨ ∃ c o, t.s.procs p = .returned c o ∧ o ≠ .panic := by rw [← hprocs]; exact hB.quiet p
    have hs1 := step_call (cfg := cfg) c hready (by rw [hfree]; exact hcap)
    have hs2 := step_call (cfg := { cfg with cap := cap }) c (hB.quiet p) (show b.conns < cap by rw [hB.conns]; omega)
    have h1 : SameRows (cstep cfg t p (.move (.call c))).s (step { cfg with cap := cap } b p (.call c)) := by
      show SameRows (step cfg t.s p (.call c)) _
      rw [hs1, hs2]
      unfold SameRows setProc
      rw [hb]
    have h2 := gos_same (cfg := cfg) cap p c.turns (cstep cfg t p (.move (.call c))) _ h1
    have hrunb : runFrom { cfg with cap := cap } (step { cfg with cap := cap } b p (.call c)) (List.replicate c.turns (p, .go)) =
        runFrom { cfg with cap := cap } b (turn p c) := rfl
    rw [hrunb] at h2
    have hrunt : crunFrom cfg (cstep cfg t p (.move (.call c)))
        ((List.replicate c.turns (p, Move.go)).map (fun m => (m.1, .move m.2))) =
        crunFrom cfg t ((turn p c).map (fun m => (m.1, .move m.2))) := rfl
    rw [hrunt] at h2
    generalize hT : crunFrom cfg t ((turn p c).map (fun m => (m.1, CMove.move m.2))) = T at h2
    have hpan : panicked T.s p = false := by
      have hprocs' : (runFrom { cfg with cap := cap } b (turn p c)).procs = T.s.procs := by
        have := h2.procs
        exact this
      unfold panicked
      rw [← hprocs']
      rcases hB'.quiet p with g | ⟨c', o, g, ho⟩
      · rw [g]
      · rw [g]; cases o <;> first | rfl | exact absurd rfl ho
    have h3 := h2.cancel (cfg := cfg) p hpan
    have hall : crunFrom cfg t (servedOne (p, c)) = cstep cfg T p .cancel := by
      unfold servedOne
      rw [crunFrom_append, hT]
      rfl
    have hbooks : Books (cstep cfg T p .cancel) := by
      rw [← hall]; exact Books.run _ hbk
    have hleft' : ∀ q, (cstep cfg T p .cancel).left q = 0 := by
      intro q
      by_cases e : q = p
      · subst e; show (if q = q then 0 else T.left q) = 0; simp
      · rw [← hall, left_absent cfg (servedOne (p, c)) q t (by
          simp only [servedOne, turn, List.map_append, List.map_map, List.mem_append, not_or]
          simp [e])]
        exact hleft q
    have := ih (cstep cfg T p .cancel) _ _ L' _ _ hB' h3 hbooks hleft' (fun y hy => hp y (by simp [hy])) (by omega)
      (by
        have : c.cost m ≤ 1 := by cases c <;> simp only [Call.cost] <;> (try split) <;> omega
        omega)
    rw [List.flatMap_cons, crunFrom_append, hall]
    have hrun : runFrom { cfg with cap := cap } b (oneByOne ((p, c) :: calls)) =
        runFrom { cfg with cap := cap } (runFrom { cfg with cap := cap } b (turn p c)) (oneByOne calls) := by
      rw [← runFrom_append]; rfl
    rw [hrun]
    exact this

theorem served_same (cfg : Config) (hu : cfg.uuid = true) (hcap : 0 < cfg.cap) (cap : Nat) (calls : List (Nat × Call))
    (hp : ∀ x ∈ calls, x.2.Plain cfg.ty) (hN : broughtBy calls < 2 ^ 64) (hk : calls.length < cap) :
    SameRows (served cfg calls) (after { cfg with cap := cap } calls) :=
  served_from hu hcap cap calls ⟨init, fun _ => 0⟩ init IM.init Log.empty 0 0 (both_init _) rfl books_init (fun _ => rfl) hp
    (by omega) (by omega)

/-- **C158**, one caller at a time, behind a server: if the context of every call is cancelled when it has returned, then on a
store with a UUID generator and at least one connection everything is as `C133_partial` says, however many deletes are
refused. -/
theorem C158_served (cfg : Config) (hu : cfg.uuid = true) (hcap : 0 < cfg.cap) (calls : List (Nat × Call))
    (hp : ∀ x ∈ calls, x.2.Plain cfg.ty) (hN : broughtBy calls < 2 ^ 64) :
    (∀ g, events cfg (served cfg calls) g = IM.events (serializer cfg.ty) (memory cfg calls) none g) ∧
    (∀ g types, types.Nodup → eventsByAggregateTypes cfg (served cfg calls) g types =
      IM.eventsByAggregateTypes (serializer cfg.ty) (memory cfg calls) (fun _ => none) g types) ∧
    (∀ n st, eventsByStream cfg (served cfg calls) n st =
      if IM.eventsByStream (serializer cfg.ty) (memory cfg calls) none n st = ⟨[], none⟩ then ⟨[], some .notFound⟩
      else IM.eventsByStream (serializer cfg.ty) (memory cfg calls) none n st) ∧
    (∀ st, IM.totalEventsInStream (memory cfg calls) st false = .ok (totalEventsInStream (served cfg calls) st)) ∧
    handed cfg (served cfg calls) = memoryLive (serializer cfg.ty) IM.init calls ∧
    ∀ p c, c.Plain cfg.ty → broughtBy (calls ++ [(p, c)]) < 2 ^ 64 →
      (served cfg (calls ++ [(p, c)])).procs p = .returned c
        (match c with
          | .save _ _ _ => c.memory (serializer cfg.ty) (memory cfg calls)
          | .delete st _ => if IM.totalEventsInStream (memory cfg calls) st false = .ok 0 then .err .notFound
            else c.memory (serializer cfg.ty) (memory cfg calls)) := by
  have hk : refused (serializer cfg.ty) IM.init calls < calls.length + 2 := by
    have := refused_le (serializer cfg.ty) calls IM.init
    exact Nat.lt_of_le_of_lt (Nat.le_trans this (List.length_filter_le _ _)) (by omega)
  have h := C133_partial { cfg with cap := calls.length + 2 } hu calls hp hN hk
  obtain ⟨n, hs⟩ := (served_same cfg hu hcap (calls.length + 2) calls hp hN (by omega)).conns
  generalize hA : after { cfg with cap := calls.length + 2 } calls = A at h hs
  obtain ⟨h1, h2, h3, h4, h5, h6⟩ := h
  have hmem : memory { cfg with cap := calls.length + 2 } calls = memory cfg calls := rfl
  rw [hmem] at h1 h2 h3 h4 h6
  have e1 : ∀ g, events cfg (served cfg calls) g = events { cfg with cap := calls.length + 2 } A g := by
    intro g; rw [hs]; rfl
  have e2 : ∀ g ts, eventsByAggregateTypes cfg (served cfg calls) g ts =
      eventsByAggregateTypes { cfg with cap := calls.length + 2 } A g ts := by
    intro g ts; rw [hs]; rfl
  have e3 : ∀ n st, eventsByStream cfg (served cfg calls) n st =
      eventsByStream { cfg with cap := calls.length + 2 } A n st := by
    intro n st; rw [hs]; rfl
  have e4 : ∀ st, totalEventsInStream (served cfg calls) st = totalEventsInStream A st := by
    intro st; rw [hs]; rfl
  have e5 : handed cfg (served cfg calls) = handed { cfg with cap := calls.length + 2 } A := by
    rw [hs]; rfl
  refine ⟨fun g => (e1 g).trans (h1 g), fun g ts hd => (e2 g ts).trans (h2 g ts hd), fun n st => (e3 n st).trans (h3 n st),
    fun st => by rw [e4]; exact h4 st, e5.trans h5, ?_⟩
  intro p c hc hb
  have hs' := served_same cfg hu hcap (calls.length + 2) (calls ++ [(p, c)]) (by
      intro x hx
      rcases List.mem_append.mp hx with hx | hx
      · exact hp x hx
      · simp only [List.mem_singleton] at hx; subst hx; exact hc) hb (by simp)
  have h7 := h6 p c hc hb
  rw [hs'.procs] at h7
  exact h7

example := C158_transfer seqCfg rfl (seqCalls.flatMap servedOne)

/-- Five refused deletes in a row on a store with one connection; then a save. -/
def refusedFive : List (Nat × Call) := List.replicate 5 (0, .delete seqName 0)

theorem refusedFive_plain : ∀ x ∈ refusedFive, x.2.Plain unbound := by
  intro x hx
  rw [List.eq_of_mem_replicate hx]
  trivial

example := C158_served ⟨true, false, unbound, 1⟩ rfl (by decide) refusedFive refusedFive_plain (by decide)

/-- The save after them is acknowledged; without the cancellations it never begins. -/
example : (served ⟨true, false, unbound, 1⟩ (refusedFive ++ [(1, .save seqName none [demoEr goodData])])).procs 1 =
      .returned (.save seqName none [demoEr goodData]) (.ok 1) ∧
    (after ⟨true, false, unbound, 1⟩ (refusedFive ++ [(1, .save seqName none [demoEr goodData])])).procs 1 = .idle :=
  ⟨rfl, rfl⟩

end RangeDB.PG

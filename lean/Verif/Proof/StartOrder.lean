import Verif.Spec.StartOrder
import Verif.Proof.FailedStart

/-! # Lemmas for `Thm/StartOrder.lean` -/

namespace RangeDB.Left

/-- The records that a goroutine has not given out yet. -/
def Src.rest : Src → List Nat
  | .at l _ => l
  | _ => []

theorem rest_give {x y : Src} {r : Nat} (h : x.give = some (some r, y)) : x.rest = r :: y.rest := by
  rcases x with ⟨_ | ⟨r, rs⟩, f⟩ | _ | _ | _ <;> simp [Src.give] at h
  obtain ⟨rfl, rfl⟩ := h
  rfl

theorem rest_turn (x : Src) (c : Bool) : (x.turn c).rest = x.rest ∨ (x.turn c).rest = [] := by
  rcases x with ⟨_ | ⟨r, rs⟩, _ | _⟩ | _ | _ | _ <;> cases c <;> simp [Src.turn, Src.rest]

/-- What was handed over ascends, and what is still to come is above it. -/
structure Ordered (n : Nat) (all : List Nat) (s : Start) : Prop where
  low : n ≤ s.last
  got : s.got.Pairwise (· < ·)
  last : ∀ x ∈ s.got, x ≤ s.last
  from_ : ∀ x ∈ s.got, n ≤ x ∧ x ∈ all
  rest : s.one.src.rest.Pairwise (· < ·)
  restFrom : ∀ y ∈ s.one.src.rest, n ≤ y ∧ y ∈ all
  above : ∀ x ∈ s.got, ∀ y ∈ s.one.src.rest, x < y

theorem ordered_take (bad : Nat → Bool) (n : Nat) (all : List Nat) (s : Start) (r : Nat) (y : Src)
    (h : Ordered n all s) (hg : s.one.src.give = some (some r, y)) : Ordered n all (s.take bad r y) := by
  have hr := rest_give hg
  have h5 := h.rest
  have h6 := h.restFrom
  have h7 := h.above
  rw [hr] at h5 h6 h7
  obtain ⟨h5a, h5b⟩ := List.pairwise_cons.1 h5
  refine ⟨(h6 r (by simp)).1, ?_, ?_, ?_, h5b, fun z hz => h6 z (List.mem_cons_of_mem r hz), ?_⟩
  · show (s.got ++ [r]).Pairwise (· < ·)
    rw [List.pairwise_append]
    exact ⟨h.got, by simp, fun a ha b hb => by rw [List.mem_singleton.1 hb]; exact h7 a ha r (by simp)⟩
  · intro x hx
    rcases List.mem_append.1 (show x ∈ s.got ++ [r] from hx) with h' | h'
    · exact Nat.le_of_lt (h7 x h' r (by simp))
    · rw [List.mem_singleton.1 h']; exact Nat.le_refl r
  · intro x hx
    rcases List.mem_append.1 (show x ∈ s.got ++ [r] from hx) with h' | h'
    · exact h.from_ x h'
    · rw [List.mem_singleton.1 h']; exact h6 r (by simp)
  · intro x hx z hz
    rcases List.mem_append.1 (show x ∈ s.got ++ [r] from hx) with h' | h'
    · exact h7 x h' z (List.mem_cons_of_mem r hz)
    · rw [List.mem_singleton.1 h']; exact h5a z hz

theorem ordered_step (bad : Nat → Bool) (n : Nat) (all : List Nat) (later : List Nat × Bool) (hl : later.1.Pairwise (· < ·))
    (ha : ∀ x ∈ later.1, x ∈ all) (s : Start) (a : StartAct) (h : Ordered n all s) : Ordered n all (s.step bad later a) := by
  cases a with
  | cancel => exact ⟨h.low, h.got, h.last, h.from_, h.rest, h.restFrom, h.above⟩
  | stop => exact ⟨h.low, h.got, h.last, h.from_, h.rest, h.restFrom, h.above⟩
  | turn =>
    rcases rest_turn s.one.src s.one.cancelled with e | e
    · exact ⟨h.low, h.got, h.last, h.from_, e ▸ h.rest, fun y hy => h.restFrom y (e ▸ hy), fun x hx y hy => h.above x hx y (e ▸ hy)⟩
    · exact ⟨h.low, h.got, h.last, h.from_, by simp [Start.step, e], by simp [Start.step, e], by simp [Start.step, e]⟩
  | call =>
    simp only [Start.step]
    split
    · rename_i hg; exact ordered_take bad n all s _ _ h hg
    · refine ⟨h.low, h.got, h.last, h.from_, ?_, ?_, ?_⟩
      · exact hl.filter _
      · intro y hy
        simp only [Src.rest, List.mem_filter, decide_eq_true_eq] at hy
        exact ⟨by have := h.low; omega, ha y hy.1⟩
      · intro x hx y hy
        simp only [Src.rest, List.mem_filter, decide_eq_true_eq] at hy
        have := h.last x hx
        omega
    · rename_i hg; exact ordered_take bad n all s _ _ h hg
    · rename_i hg
      rw [give_over hg]
      exact ⟨h.low, h.got, h.last, h.from_, by simp [Src.rest], by simp [Src.rest], by simp [Src.rest]⟩
    · exact h

theorem ordered_run (bad : Nat → Bool) (n : Nat) (all : List Nat) (later : List Nat × Bool) (hl : later.1.Pairwise (· < ·))
    (ha : ∀ x ∈ later.1, x ∈ all) (acts : List StartAct) : ∀ (s : Start), Ordered n all s → Ordered n all (s.run bad later acts) := by
  induction acts with
  | nil => intro s h; exact h
  | cons a acts ih => intro s h; exact ih _ (ordered_step bad n all later hl ha s a h)

theorem ordered_on (n : Nat) (hist all : List Nat) (f : Bool) (hh : hist.Pairwise (· < ·)) (ha : ∀ x ∈ hist, x ∈ all) :
    Ordered n all (Start.on n hist f) := by
  refine ⟨Nat.le_refl n, by simp [Start.on, Start.init], by simp [Start.on, Start.init], by simp [Start.on, Start.init], hh.filter _, ?_,
    by simp [Start.on, Start.init]⟩
  intro y hy
  simp only [Start.on, Start.init, Src.rest, List.mem_filter, decide_eq_true_eq] at hy
  exact ⟨hy.2, ha y hy.1⟩

/-- The callback failed exactly if `StartFrom` has returned its error, and then at the last event it got. -/
structure Judged (bad : Nat → Bool) (s : Start) : Prop where
  well : s.phase ≠ .failed → ∀ x ∈ s.got, bad x = false
  ill : s.phase = .failed → ∃ g r, s.got = g ++ [r] ∧ bad r = true ∧ ∀ x ∈ g, bad x = false

theorem judged_take (bad : Nat → Bool) (s : Start) (r : Nat) (y : Src) (h : Judged bad s) (hp : s.phase ≠ .failed) :
    Judged bad (s.take bad r y) := by
  constructor
  · intro h' x hx
    have hb : bad r = false := by
      cases e : bad r
      · rfl
      · exact absurd (by simp [Start.take, e]) h'
    rcases List.mem_append.1 (show x ∈ s.got ++ [r] from hx) with h1 | h1
    · exact h.well hp x h1
    · rw [List.mem_singleton.1 h1]; exact hb
  · intro h'
    refine ⟨s.got, r, rfl, ?_, h.well hp⟩
    cases e : bad r
    · simp [Start.take, e] at h'
      exact absurd h' hp
    · rfl

theorem judged_step (bad : Nat → Bool) (later : List Nat × Bool) (s : Start) (a : StartAct) (h : Judged bad s) :
    Judged bad (s.step bad later a) := by
  cases a with
  | cancel => exact ⟨h.well, h.ill⟩
  | stop => exact ⟨h.well, h.ill⟩
  | turn => exact ⟨h.well, h.ill⟩
  | call =>
    simp only [Start.step]
    split
    · rename_i hp _; exact judged_take bad s _ _ h (by rw [hp]; simp)
    · rename_i hp _
      exact ⟨fun _ => h.well (by rw [hp]; simp), fun h' => by cases h'⟩
    · rename_i hp _; exact judged_take bad s _ _ h (by rw [hp]; simp)
    · rename_i hp _
      exact ⟨fun _ => h.well (by rw [hp]; simp), fun h' => by cases h'⟩
    · exact h

theorem judged_run (bad : Nat → Bool) (later : List Nat × Bool) (acts : List StartAct) : ∀ (s : Start), Judged bad s →
    Judged bad (s.run bad later acts) := by
  induction acts with
  | nil => intro s h; exact h
  | cons a acts ih => intro s h; exact ih _ (judged_step bad later s a h)

/-- After its return `StartFrom` calls the callback no more. -/
theorem returned_got (bad : Nat → Bool) (later : List Nat × Bool) (acts : List StartAct) : ∀ (s : Start), s.Returned →
    (s.run bad later acts).got = s.got := by
  induction acts with
  | nil => intro s _; rfl
  | cons a acts ih =>
    intro s h
    have hr : (s.step bad later a).Returned := returned_run bad later [a] s h
    have hg : (s.step bad later a).got = s.got := by
      cases a with
      | turn => rfl
      | cancel => rfl
      | stop => rfl
      | call =>
        simp only [Start.step]
        rcases h with h | h <;> split <;> simp_all
    exact (ih _ hr).trans hg

/-- The number after which the second read starts. -/
def lastOf (n : Nat) (l : List Nat) : Nat := l.getLast?.getD n

theorem lastOf_snoc (n r : Nat) (l : List Nat) : lastOf n (l ++ [r]) = r := by simp [lastOf]

/-- How far a `StartFrom` has come that is not cancelled, on a store without errors. -/
structure Far (n : Nat) (l later : List Nat) (s : Start) : Prop where
  live : s.one.cancelled = false
  src : s.one.src = .over ∨ ∃ rest, s.one.src = .at rest false
  last : s.last = lastOf n s.got
  first : s.phase = .first → s.got ++ s.one.src.rest = l
  second : s.phase = .second → ∃ g, s.got = l ++ g ∧ g ++ s.one.src.rest = later.filter (fun x => decide (lastOf n l + 1 ≤ x))
  started : s.phase = .started → s.got = l ++ later.filter (fun x => decide (lastOf n l + 1 ≤ x))

theorem far_take (bad : Nat → Bool) (n : Nat) (l later : List Nat) (s : Start) (r : Nat) (y : Src) (h : Far n l later s)
    (hp : s.phase = .first ∨ s.phase = .second) (hg : s.one.src.give = some (some r, y)) : Far n l later (s.take bad r y) := by
  have hr := rest_give hg
  have hy : ∃ rest, y = .at rest false := by
    rcases h.src with e | ⟨rest, e⟩
    · rw [e] at hg; simp [Src.give] at hg
    · rw [e] at hg
      cases rest with
      | nil => simp [Src.give] at hg
      | cons a as =>
        simp [Src.give] at hg
        exact ⟨as, hg.2.symm⟩
  have hph : ∀ p, (s.take bad r y).phase = p → p ≠ .failed → s.phase = p := by
    intro p hp' hn
    simp only [Start.take] at hp'
    split at hp'
    · exact absurd hp'.symm hn
    · exact hp'
  refine ⟨h.live, .inr hy, (lastOf_snoc n r s.got).symm, ?_, ?_, ?_⟩
  · intro h'
    have := h.first (hph _ h' (by simp))
    rw [hr] at this
    show (s.got ++ [r]) ++ y.rest = l
    simpa using this
  · intro h'
    obtain ⟨g, h1, h2⟩ := h.second (hph _ h' (by simp))
    rw [hr] at h2
    refine ⟨g ++ [r], ?_, ?_⟩
    · show s.got ++ [r] = _
      rw [h1, List.append_assoc]
    · show (g ++ [r]) ++ y.rest = _
      simpa using h2
  · intro h'
    have := hph _ h' (by simp)
    rcases hp with e | e <;> rw [e] at this <;> cases this

theorem far_step (bad : Nat → Bool) (n : Nat) (l later : List Nat) (s : Start) (a : StartAct) (ha : a ≠ .cancel) (h : Far n l later s) :
    Far n l later (s.step bad (later, false) a) := by
  cases a with
  | cancel => exact absurd rfl ha
  | stop => exact ⟨h.live, h.src, h.last, h.first, h.second, h.started⟩
  | turn =>
    have e : (s.one.src.turn s.one.cancelled).rest = s.one.src.rest ∧
        (s.one.src.turn s.one.cancelled = .over ∨ ∃ rest, s.one.src.turn s.one.cancelled = .at rest false) := by
      rw [h.live]
      rcases h.src with e | ⟨rest, e⟩
      · rw [e]; simp [Src.turn, Src.rest]
      · rw [e]
        cases rest <;> simp [Src.turn, Src.rest]
    refine ⟨h.live, e.2, h.last, ?_, ?_, h.started⟩
    · intro hp
      show s.got ++ (s.one.src.turn s.one.cancelled).rest = l
      rw [e.1]; exact h.first hp
    · intro hp
      obtain ⟨g, h1, h2⟩ := h.second hp
      refine ⟨g, h1, ?_⟩
      show g ++ (s.one.src.turn s.one.cancelled).rest = _
      rw [e.1]; exact h2
  | call =>
    have hover : ∀ y, s.one.src.give = some (none, y) → s.one.src = .over := by
      intro y hg
      rcases h.src with e | ⟨rest, e⟩
      · exact e
      · rw [e] at hg
        cases rest <;> simp [Src.give] at hg
    simp only [Start.step]
    split
    · rename_i hp hg; exact far_take bad n l later s _ _ h (.inl hp) hg
    · rename_i y hp hg
      have h1 := h.first hp
      rw [hover y hg] at h1
      simp only [Src.rest, List.append_nil] at h1
      refine ⟨h.live, .inr ⟨_, rfl⟩, h.last, fun h' => (by cases h'), fun _ => ⟨[], by simpa using h1, ?_⟩, fun h' => (by cases h')⟩
      simp only [Src.rest, List.nil_append]
      rw [h.last, h1]
    · rename_i hp hg; exact far_take bad n l later s _ _ h (.inr hp) hg
    · rename_i y hp hg
      obtain ⟨g, h1, h2⟩ := h.second hp
      rw [hover y hg] at h2
      simp only [Src.rest, List.append_nil] at h2
      refine ⟨h.live, .inl (give_over hg), h.last, fun h' => (by cases h'), fun h' => (by cases h'), fun _ => ?_⟩
      rw [← h2]; exact h1
    · exact h

theorem far_run (bad : Nat → Bool) (n : Nat) (l later : List Nat) (acts : List StartAct) : ∀ (s : Start), .cancel ∉ acts →
    Far n l later s → Far n l later (s.run bad (later, false) acts) := by
  induction acts with
  | nil => intro s _ h; exact h
  | cons a acts ih =>
    intro s hn h
    simp only [List.mem_cons, not_or] at hn
    exact ih _ hn.2 (far_step bad n l later s a (fun e => hn.1 e.symm) h)

theorem far_init (n : Nat) (l later : List Nat) : Far n l later (Start.init n l false) :=
  ⟨rfl, .inr ⟨l, rfl⟩, by simp [Start.init, lastOf], fun _ => rfl, fun h => by simp [Start.init] at h, fun h => by simp [Start.init] at h⟩

/-- Two reads of a growing store: the second starts after the last event of the first. -/
theorem two_reads (n : Nat) (hist new : List Nat) (h : (hist ++ new).Pairwise (· < ·))
    (hne : hist.filter (fun x => decide (n ≤ x)) ≠ []) :
    hist.filter (fun x => decide (n ≤ x)) ++
      (hist ++ new).filter (fun x => decide (lastOf n (hist.filter (fun x => decide (n ≤ x))) + 1 ≤ x)) =
    (hist ++ new).filter (fun x => decide (n ≤ x)) := by
  obtain ⟨h1, h2, h3⟩ := List.pairwise_append.1 h
  generalize hl : hist.filter (fun x => decide (n ≤ x)) = l at *
  obtain ⟨g, m, rfl⟩ : ∃ g m, l = g ++ [m] := ⟨l.dropLast, l.getLast hne, (List.dropLast_concat_getLast hne).symm⟩
  rw [lastOf_snoc]
  have hm : m ∈ hist ∧ n ≤ m := by
    have : m ∈ hist.filter (fun x => decide (n ≤ x)) := by rw [hl]; simp
    simpa using this
  have hs : (g ++ [m]).Pairwise (· < ·) := hl ▸ h1.filter _
  have hmax : ∀ x ∈ hist, x ≤ m := by
    intro x hx
    by_cases hn : n ≤ x
    · have : x ∈ g ++ [m] := by rw [← hl]; simp [hx, hn]
      rcases List.mem_append.1 this with h' | h'
      · exact Nat.le_of_lt ((List.pairwise_append.1 hs).2.2 x h' m (by simp))
      · rw [List.mem_singleton.1 h']; exact Nat.le_refl m
    · omega
  rw [List.filter_append, List.filter_append, hl]
  have e1 : hist.filter (fun x => decide (m + 1 ≤ x)) = [] := by
    rw [List.filter_eq_nil_iff]
    intro x hx
    have := hmax x hx
    simp; omega
  rw [e1, List.nil_append]
  congr 1
  apply List.filter_congr
  intro x hx
  have := h3 m hm.1 x hx
  simp; omega

/-- A beginning of an ascending list is continued by what is above its last number. -/
theorem continued (n : Nat) (l g : List Nat) (m : Nat) (hs : l.Pairwise (· < ·)) (h : g ++ [m] <+: l.filter (fun x => decide (n ≤ x))) :
    g ++ [m] ++ l.filter (fun x => decide (m + 1 ≤ x)) = l.filter (fun x => decide (n ≤ x)) := by
  have hm : n ≤ m := by
    have : m ∈ l.filter (fun x => decide (n ≤ x)) := h.subset (by simp)
    simpa using (List.mem_filter.1 this).2
  have e : l.filter (fun x => decide (m + 1 ≤ x)) = (l.filter (fun x => decide (n ≤ x))).filter (fun x => decide (m + 1 ≤ x)) := by
    rw [List.filter_filter]
    apply List.filter_congr
    intro x _
    by_cases h' : m + 1 ≤ x
    · have : n ≤ x := by omega
      simp [h', this]
    · simp [h']
  rw [e]
  have hs' : (l.filter (fun x => decide (n ≤ x))).Pairwise (· < ·) := hs.filter _
  generalize l.filter (fun x => decide (n ≤ x)) = a at *
  obtain ⟨t, rfl⟩ := h
  obtain ⟨h1, h2, h3⟩ := List.pairwise_append.1 hs'
  rw [List.filter_append]
  have e1 : (g ++ [m]).filter (fun x => decide (m + 1 ≤ x)) = [] := by
    rw [List.filter_eq_nil_iff]
    intro x hx
    have : x ≤ m := by
      rcases List.mem_append.1 hx with h' | h'
      · exact Nat.le_of_lt ((List.pairwise_append.1 h1).2.2 x h' m (by simp))
      · rw [List.mem_singleton.1 h']; exact Nat.le_refl m
    simp; omega
  have e2 : t.filter (fun x => decide (m + 1 ≤ x)) = t := by
    rw [List.filter_eq_self]
    intro x hx
    have := h3 m (by simp) x hx
    simp; omega
  rw [e1, e2, List.nil_append]

/-- What was handed over, and what the goroutine still has, are a beginning of the events from `n` on, or of those after `n`. -/
structure Gapless (n : Nat) (all : List Nat) (s : Start) : Prop where
  last : s.last = lastOf n s.got
  first : s.phase = .first → s.got ++ s.one.src.rest <+: all.filter (fun x => decide (n ≤ x))
  any : s.got ++ s.one.src.rest <+: all.filter (fun x => decide (n ≤ x)) ∨
    s.got ++ s.one.src.rest <+: all.filter (fun x => decide (n + 1 ≤ x))

theorem gapless_take (bad : Nat → Bool) (n : Nat) (all : List Nat) (s : Start) (r : Nat) (y : Src) (h : Gapless n all s)
    (hg : s.one.src.give = some (some r, y)) : Gapless n all (s.take bad r y) := by
  have e : (s.take bad r y).got ++ (s.take bad r y).one.src.rest = s.got ++ s.one.src.rest := by
    rw [rest_give hg]
    simp [Start.take]
  refine ⟨(lastOf_snoc n r s.got).symm, fun hp => ?_, by rw [e]; exact h.any⟩
  rw [e]
  refine h.first ?_
  simp only [Start.take] at hp
  split at hp
  · cases hp
  · exact hp

theorem gapless_step (bad : Nat → Bool) (n : Nat) (later : List Nat × Bool) (hl : later.1.Pairwise (· < ·)) (s : Start) (a : StartAct)
    (h : Gapless n later.1 s) : Gapless n later.1 (s.step bad later a) := by
  cases a with
  | cancel => exact ⟨h.last, h.first, h.any⟩
  | stop => exact ⟨h.last, h.first, h.any⟩
  | turn =>
    have e : s.got ++ (s.one.src.turn s.one.cancelled).rest <+: s.got ++ s.one.src.rest := by
      rcases rest_turn s.one.src s.one.cancelled with e | e
      · rw [e]; exact List.prefix_rfl
      · rw [e, List.append_nil]; exact List.prefix_append _ _
    exact ⟨h.last, fun hp => e.trans (h.first hp), h.any.imp e.trans e.trans⟩
  | call =>
    simp only [Start.step]
    split
    · rename_i hg; exact gapless_take bad n _ s _ _ h hg
    · rename_i hp _
      refine ⟨h.last, fun h' => by (cases h'), ?_⟩
      have hf := (List.prefix_append s.got s.one.src.rest).trans (h.first hp)
      simp only [Src.rest]
      rw [h.last]
      rcases List.eq_nil_or_concat s.got with e | ⟨g, m, e⟩
      · right
        rw [e]
        simp only [lastOf, List.getLast?_nil, Option.getD_none, List.nil_append]
        exact List.prefix_rfl
      · left
        rw [List.concat_eq_append] at e
        rw [e, lastOf_snoc]
        rw [e] at hf
        rw [continued n later.1 g m hl hf]
        exact List.prefix_rfl
    · rename_i hg; exact gapless_take bad n _ s _ _ h hg
    · rename_i hg
      rw [give_over hg]
      have e : s.got ++ Src.over.rest <+: s.got ++ s.one.src.rest := by
        simp only [Src.rest, List.append_nil]; exact List.prefix_append _ _
      exact ⟨h.last, fun h' => by (cases h'), h.any.imp e.trans e.trans⟩
    · exact h

theorem gapless_run (bad : Nat → Bool) (n : Nat) (later : List Nat × Bool) (hl : later.1.Pairwise (· < ·)) (acts : List StartAct) :
    ∀ (s : Start), Gapless n later.1 s → Gapless n later.1 (s.run bad later acts) := by
  induction acts with
  | nil => intro s h; exact h
  | cons a acts ih => intro s h; exact ih _ (gapless_step bad n later hl s a h)

theorem gapless_on (n : Nat) (hist new : List Nat) (f : Bool) : Gapless n (hist ++ new) (Start.on n hist f) := by
  have e : (Start.on n hist f).got ++ (Start.on n hist f).one.src.rest <+: (hist ++ new).filter (fun x => decide (n ≤ x)) := by
    simp only [Start.on, Start.init, Src.rest, List.nil_append, List.filter_append]
    exact List.prefix_append _ _
  exact ⟨by simp [Start.on, Start.init, lastOf], fun _ => e, .inl e⟩

end RangeDB.Left

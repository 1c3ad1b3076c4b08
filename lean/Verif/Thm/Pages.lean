import Mathlib.Logic.Equiv.List
import Verif.Model.Pages
import Verif.Thm.Projection

/-!
# Properties of the statistics pages while events arrive: C95 and C96
-/

namespace RangeDB.Web

open Demo Prj

/-! ## Specification -/

/-- How many of the records are of type `t`. -/
def cnt (t : Str) (rs : List Record) : Nat := (rs.filter (fun r => r.aggType = t)).length

/-- The page is the one that belongs to the records `rs`: the types that occur, in order and once each, with
their numbers of events, and the number of all events. -/
structure Shows (p : Page) (rs : List Record) : Prop where
  total : p.total = rs.length
  sorted : (p.rows.map (·.1)).Pairwise (fun a b => strLt a b = true)
  rows : ∀ t n, (t, n) ∈ p.rows ↔ n = cnt t rs ∧ ∃ r ∈ rs, r.aggType = t

/-- The page lies between the records `a` and the longer history `b`: it lists every type of `a`, in order;
each count and the total lie between those of `a` and those of `b`; and the counts add up to no more than the
total. -/
structure Between (p : Page) (a b : List Record) : Prop where
  sorted : (p.rows.map (·.1)).Pairwise (fun x y => strLt x y = true)
  lists : ∀ r ∈ a, r.aggType ∈ p.rows.map (·.1)
  counts : ∀ t n, (t, n) ∈ p.rows → cnt t a ≤ n ∧ n ≤ cnt t b ∧ 0 < n
  total : a.length ≤ p.total ∧ p.total ≤ b.length
  sum : (p.rows.map (·.2)).sum ≤ p.total

/-! ## Lemmas -/

theorem cnt_append (t : Str) (a b : List Record) : cnt t (a ++ b) = cnt t a + cnt t b := by
  simp [cnt]

theorem cnt_pos {t : Str} {a : List Record} : 0 < cnt t a ↔ ∃ r ∈ a, r.aggType = t := by
  simp [cnt, List.length_pos_iff, List.filter_eq_nil_iff]

theorem sum_cnt (names : List Str) (h : names.Nodup) (d : List Record) :
    (names.map (fun t => cnt t d)).sum ≤ d.length := by
  induction names generalizing d with
  | nil => simp
  | cons t ts ih =>
    rw [List.nodup_cons] at h
    have h1 := ih h.2 (d.filter (fun r => !decide (r.aggType = t)))
    have h2 : ∀ u ∈ ts, cnt u (d.filter (fun r => !decide (r.aggType = t))) = cnt u d := by
      intro u hu
      unfold cnt
      rw [List.filter_filter]
      congr 1
      apply List.filter_congr
      intro r _
      by_cases e : r.aggType = u
      · have : u ≠ t := fun e' => h.1 (e' ▸ hu)
        simp [e, this]
      · simp [e]
    rw [List.map_congr_left h2] at h1
    have h3 : cnt t d + (d.filter (fun r => !decide (r.aggType = t))).length = d.length := by
      have := List.length_eq_length_filter_add (l := d) (fun r => decide (r.aggType = t))
      simp only [cnt]
      omega
    simp only [List.map_cons, List.sum_cons]
    omega

theorem sum_le (rows : List (Str × Nat)) (d : List Record) (h : ∀ t n, (t, n) ∈ rows → n ≤ cnt t d) :
    (rows.map (·.2)).sum ≤ ((rows.map (·.1)).map (fun t => cnt t d)).sum := by
  induction rows with
  | nil => simp
  | cons x rows ih =>
    have h1 := h x.1 x.2 (by simp)
    have h2 := ih (fun t n hm => h t n (by simp [hm]))
    simp only [List.map_cons, List.sum_cons]
    omega

theorem sorted_nodup {l : List Str} (h : l.Pairwise (fun a b => strLt a b = true)) : l.Nodup := by
  refine h.imp ?_
  rintro a b hab rfl
  rw [strLt_irrefl] at hab
  cases hab

/-- What the statistics are, half-way through `Accept` or not: `a` are the records whose `Accept` has
begun. -/
structure Holds (log : List Record) (s : State) (a : List Record) : Prop where
  split : log = a ++ s.incoming
  inv : Inv { s.stats with total := s.stats.total + (if s.busy then 1 else 0) } a

theorem holds_counts {log : List Record} {s : State} {a : List Record} (h : Holds log s a) :
    (∀ t, s.stats.totalByType t = cnt t a) ∧
    s.stats.latest = (a.getLast?.map (·.gsn)).getD 0 ∧
    s.stats.total + (if s.busy then 1 else 0) = a.length ∧
    s.stats.sortedTypes.Pairwise (fun a b => strLt a b = true) ∧
    (∀ t, t ∈ s.stats.sortedTypes ↔ ∃ r ∈ a, r.aggType = t) := by
  have c := counts_of_inv h.inv
  exact ⟨c.byType, c.latest, c.total, c.sorted, c.types⟩

/-- A step of the page leaves the statistics alone. -/
theorem page_keeps {live : Bool} {s s' : State} (h : pageStep live s = some s') :
    s'.stats = s.stats ∧ s'.busy = s.busy ∧ s'.incoming = s.incoming := by
  unfold pageStep at h
  repeat' split at h
  all_goals first
    | (simp only [Option.some.injEq] at h; subst h; exact ⟨rfl, rfl, rfl⟩)
    | cases h

theorem holds_step {live : Bool} {log : List Record} {s s' : State} {a : List Record} {l : Label}
    (h : Holds log s a) (hs : step live s l = some s') :
    ∃ c, Holds log s' (a ++ c) ∧ (l ≠ .accept → c = []) := by
  cases l with
  | page =>
    obtain ⟨e1, e2, e3⟩ := page_keeps hs
    refine ⟨[], ?_, fun _ => rfl⟩
    rw [List.append_nil]
    exact ⟨by rw [e3]; exact h.split, by rw [e1, e2]; exact h.inv⟩
  | finish =>
    simp only [step] at hs
    by_cases hb : s.busy = true
    · rw [if_pos hb] at hs
      simp only [Option.some.injEq] at hs
      subst hs
      refine ⟨[], ?_, fun _ => rfl⟩
      rw [List.append_nil]
      refine ⟨h.split, ?_⟩
      have := h.inv
      rw [if_pos hb] at this
      simpa using this
    · rw [if_neg hb] at hs; cases hs
  | accept =>
    simp only [step] at hs
    by_cases hb : s.busy = true
    · rw [if_pos hb] at hs; cases hs
    · rw [if_neg hb] at hs
      cases hi : s.incoming with
      | nil => rw [hi] at hs; cases hs
      | cons r rest =>
        rw [hi] at hs
        simp only [Option.some.injEq] at hs
        subst hs
        refine ⟨[r], ⟨by simp [h.split, hi], ?_⟩, fun e => absurd rfl e⟩
        have hinv := h.inv
        rw [if_neg hb] at hinv
        obtain ⟨st', e, hst⟩ := acceptAll_inv _ a [r] hinv
        obtain ⟨⟨m, hm, _⟩, _, _⟩ := hinv
        simp only at hm
        simp only [Stats.acceptAll, Stats.accept, hm, Outcome.ok.injEq] at e
        subst e
        simpa [hm] using hst

/-! ## C95: one page -/

/-- The rows read so far are right, in the sense of `Between`. `a` are the records accepted when reading
began, `b` those of which `Accept` has begun, `total` the counter of all events. -/
structure Rows (a b : List Record) (todo : List Str) (rows : List (Str × Nat)) (total : Nat) : Prop where
  sorted : (rows.map (·.1) ++ todo).Pairwise (fun x y => strLt x y = true)
  lists : ∀ r ∈ a, r.aggType ∈ rows.map (·.1) ++ todo
  pos : ∀ t ∈ todo, 0 < cnt t b
  read : ∃ d, d.length ≤ total ∧ d <+: b ∧
      ∀ t n, (t, n) ∈ rows → cnt t a ≤ n ∧ n ≤ cnt t d ∧ 0 < n

theorem prefix_cnt {a b : List Record} (h : a <+: b) (t : Str) : cnt t a ≤ cnt t b := by
  obtain ⟨c, rfl⟩ := h
  rw [cnt_append]; omega

theorem between_grow {p : Page} {a b : List Record} (c : List Record) (h : Between p a b) :
    Between p a (b ++ c) := by
  refine ⟨h.sorted, h.lists, ?_, ⟨h.total.1, ?_⟩, h.sum⟩
  · intro t n hm
    obtain ⟨h1, h2, h3⟩ := h.counts t n hm
    exact ⟨h1, by rw [cnt_append]; omega, h3⟩
  · have := h.total.2
    rw [List.length_append]; omega

theorem rows_grow {a b c : List Record} {todo : List Str} {rows : List (Str × Nat)} {n m : Nat} (hnm : n ≤ m)
    (h : Rows a b todo rows n) : Rows a (b ++ c) todo rows m := by
  obtain ⟨h2, h3, h4, d, h5, h6, h7⟩ := h
  refine ⟨h2, h3, ?_, d, by omega, h6.trans (List.prefix_append _ _), h7⟩
  intro t ht
  have := h4 t ht
  rw [cnt_append]; omega

theorem rows_begin {log a b : List Record} {s : State} (hb : Holds log s b) (hab : a <+: b) :
    Rows a b s.stats.sortedTypes [] s.stats.total := by
  obtain ⟨c1, c2, c3, c4, c5⟩ := holds_counts hb
  refine ⟨by simpa using c4, ?_, ?_, [], by simp, by simp, by simp⟩
  · intro r hr
    simp only [List.map_nil, List.nil_append]
    exact (c5 _).mpr ⟨r, hab.subset hr, rfl⟩
  · intro t ht
    exact cnt_pos.mpr ((c5 t).mp ht)

theorem rows_next {log a b : List Record} {s : State} {t : Str} {ts : List Str} {rows : List (Str × Nat)}
    (hb : Holds log s b) (hab : a <+: b) (hbusy : s.busy = false) (h : Rows a b (t :: ts) rows s.stats.total) :
    Rows a b ts (rows ++ [(t, s.stats.totalByType t)]) s.stats.total := by
  obtain ⟨c1, c2, c3, c4, c5⟩ := holds_counts hb
  rw [hbusy] at c3
  simp only [Bool.false_eq_true, if_false, Nat.add_zero] at c3
  obtain ⟨h2, h3, h4, d, h5, h6, h7⟩ := h
  refine ⟨by simpa using h2, ?_, fun u hu => h4 u (by simp [hu]), b, by omega, List.prefix_refl _, ?_⟩
  · intro r hr
    have := h3 r hr
    simpa using this
  · intro u n hm
    simp only [List.mem_append, List.mem_singleton, Prod.mk.injEq] at hm
    rcases hm with hm | ⟨rfl, rfl⟩
    · obtain ⟨g1, g2, g3⟩ := h7 u n hm
      exact ⟨g1, Nat.le_trans g2 (prefix_cnt h6 u), g3⟩
    · rw [c1]
      exact ⟨prefix_cnt hab u, Nat.le_refl _, h4 u (by simp)⟩

theorem rows_end {log a b : List Record} {s : State} {rows : List (Str × Nat)} (hb : Holds log s b)
    (ha : a.length ≤ s.stats.total) (h : Rows a b [] rows s.stats.total) :
    Between ⟨rows, s.stats.total⟩ a b := by
  have c3 := (holds_counts hb).2.2.1
  obtain ⟨h2, h3, h4, d, h5, h6, h7⟩ := h
  simp only [List.append_nil] at h2 h3
  refine ⟨h2, h3, ?_, ⟨ha, by simp only; omega⟩, ?_⟩
  · intro t n hm
    obtain ⟨g1, g2, g3⟩ := h7 t n hm
    exact ⟨g1, Nat.le_trans g2 (prefix_cnt h6 t), g3⟩
  · have g1 := sum_le rows d (fun t n hm => (h7 t n hm).2.1)
    have g2 := sum_cnt (rows.map (·.1)) (sorted_nodup h2) d
    exact Nat.le_trans (Nat.le_trans g1 g2) h5

/-- What the handler of one page has done so far is right. -/
def Reading (a b : List Record) (s : State) : Prop :=
  match s.pc with
  | .head => False
  | .set => False
  | .keys => s.sent = []
  | .count todo rows => s.sent = [] ∧ Rows a b todo rows s.stats.total
  | .done => ∃ p, s.sent = [p] ∧ Between p a b

/-- The other goroutine's steps keep what has been read. -/
theorem reading_other {a b c : List Record} {s s' : State} (h : Reading a b s) (hpc : s'.pc = s.pc)
    (hsent : s'.sent = s.sent) (htot : s.stats.total ≤ s'.stats.total) : Reading a (b ++ c) s' := by
  unfold Reading at h ⊢
  rw [hpc, hsent]
  cases hp : s.pc with
  | head => rw [hp] at h; exact h
  | set => rw [hp] at h; exact h
  | keys => rw [hp] at h; exact h
  | count todo rows =>
    rw [hp] at h
    exact ⟨h.1, rows_grow htot h.2⟩
  | done =>
    rw [hp] at h
    obtain ⟨p, h1, h2⟩ := h
    exact ⟨p, h1, between_grow c h2⟩

theorem reading_page {log a b : List Record} {s s' : State} (h : Reading a b s) (hb : Holds log s b)
    (hab : a <+: b) (ha : a.length ≤ s.stats.total) (hs : pageStep false s = some s') : Reading a b s' := by
  unfold Reading at h
  unfold pageStep at hs
  cases hp : s.pc with
  | head => rw [hp] at h; exact h.elim
  | set => rw [hp] at h; exact h.elim
  | done => rw [hp] at hs; cases hs
  | keys =>
    rw [hp] at h hs
    simp only at h hs
    split at hs
    · cases hs
    · simp only [Option.some.injEq] at hs
      subst hs
      exact ⟨h, rows_begin hb hab⟩
  | count todo rows =>
    rw [hp] at h hs
    simp only at h
    cases todo with
    | nil =>
      simp only [Option.some.injEq] at hs
      subst hs
      simp only [Reading, Bool.false_eq_true, if_false]
      exact ⟨⟨rows, s.stats.total⟩, by rw [h.1]; rfl, rows_end hb ha h.2⟩
    | cons t ts =>
      simp only at hs
      by_cases hbusy : s.busy = true
      · rw [if_pos hbusy] at hs; cases hs
      · rw [if_neg hbusy] at hs
        simp only [Option.some.injEq] at hs
        subst hs
        exact ⟨h.1, rows_next hb hab (by simpa using hbusy) h.2⟩

theorem reading_exec (ls : List Label) : ∀ {log a b : List Record} {s s' : State}, Holds log s b →
    Reading a b s → a <+: b → a.length ≤ s.stats.total → exec false s ls = some s' →
    ∃ b', Holds log s' b' ∧ Reading a b' s' ∧ (Label.accept ∉ ls → b' = b) := by
  induction ls with
  | nil =>
    intro log a b s s' hH hR _ _ hx
    simp only [exec, Option.some.injEq] at hx
    subst hx
    exact ⟨b, hH, hR, fun _ => rfl⟩
  | cons l ls ih =>
    intro log a b s s' hH hR hab ha hx
    simp only [exec] at hx
    cases hs : step false s l with
    | none => rw [hs] at hx; cases hx
    | some s1 =>
      rw [hs] at hx
      simp only at hx
      obtain ⟨c, hH1, hc⟩ := holds_step hH hs
      have key : Reading a (b ++ c) s1 ∧ a.length ≤ s1.stats.total := by
        cases l with
        | page =>
          have e := hc (by simp)
          subst e
          rw [List.append_nil]
          refine ⟨reading_page hR hH hab ha hs, ?_⟩
          rw [(page_keeps hs).1]; exact ha
        | finish =>
          simp only [step] at hs
          split at hs
          · simp only [Option.some.injEq] at hs
            subst hs
            exact ⟨reading_other hR rfl rfl (by simp), by simp only; omega⟩
          · cases hs
        | accept =>
          simp only [step] at hs
          split at hs
          · cases hs
          · split at hs
            · cases hs
            · simp only [Option.some.injEq] at hs
              subst hs
              exact ⟨reading_other hR rfl rfl (Nat.le_refl _), ha⟩
      obtain ⟨b', h1, h2, h3⟩ := ih hH1 key.1 (hab.trans (List.prefix_append _ _)) key.2 hx
      refine ⟨b', h1, h2, ?_⟩
      intro hn
      simp only [List.mem_cons, not_or] at hn
      rw [h3 hn.2, hc (Ne.symm hn.1), List.append_nil]

/-- The full claim of **C95**: whatever happens while the page is made, it is the page of some moment between
the request and the answer. -/
def C95_full : Prop :=
  ∀ (a c : List Record) (st : Stats), Stats.new.acceptAll a = .ok st →
    ∀ (ls : List Label) (s : State), exec false (request st c) ls = some s → s.pc = .done →
      ∃ p, s.sent = [p] ∧ ∃ d, d <+: c ∧ Shows p (a ++ d)

/-- **C95 (partial).** A page of the statistics, asked for when the records `a` have been counted, under every
schedule of the other goroutine: the answer lies between the records counted when it was asked for and those
counted, or being counted, when it is sent; in particular its counts never add up to more than its total. If no
record is accepted meanwhile, it is exactly the page of the records. Missing: that it is the page of one
moment (`C95_false`). -/
theorem C95_partial (a c : List Record) (st : Stats) (hst : Stats.new.acceptAll a = .ok st)
    (ls : List Label) (s : State) (hx : exec false (request st c) ls = some s) (hd : s.pc = .done) :
    ∃ p, s.sent = [p] ∧ (∃ d, d <+: c ∧ s.incoming = c.drop d.length ∧ Between p a (a ++ d)) ∧
      (Label.accept ∉ ls → Shows p a) := by
  obtain ⟨st', e, hi⟩ := acceptAll_inv .new [] a inv_new
  rw [hst] at e
  obtain rfl := Outcome.ok.inj e
  simp only [List.nil_append] at hi
  have hH : Holds (a ++ c) (request st c) a := ⟨rfl, by simpa [request] using hi⟩
  obtain ⟨b, h1, h2, h3⟩ := reading_exec ls hH (a := a) (by simp [Reading, request]) (List.prefix_refl _)
    (by simp [request, hi.total]) hx
  simp only [Reading, hd] at h2
  obtain ⟨p, hp, hB⟩ := h2
  refine ⟨p, hp, ?_, ?_⟩
  · -- the records accepted are a prefix of those that arrive
    have hab : ∃ d, b = a ++ d := by
      have hlen : a.length ≤ b.length := Nat.le_trans hB.total.1 hB.total.2
      have hs := h1.split
      refine ⟨b.drop a.length, ?_⟩
      have : a = b.take a.length := by
        have h := congrArg (List.take a.length) hs
        rw [List.take_left, List.take_append_of_le_length hlen] at h
        exact h
      conv_lhs => rw [← List.take_append_drop a.length b]
      rw [← this]
    obtain ⟨d, rfl⟩ := hab
    have hs := h1.split
    rw [List.append_assoc, List.append_cancel_left_eq] at hs
    exact ⟨d, ⟨_, hs.symm⟩, by rw [hs]; simp, hB⟩
  · intro hn
    obtain rfl := h3 hn
    refine ⟨Nat.le_antisymm hB.total.2 hB.total.1, hB.sorted, ?_⟩
    intro t n
    constructor
    · intro hm
      obtain ⟨g1, g2, g3⟩ := hB.counts t n hm
      exact ⟨Nat.le_antisymm g2 g1, cnt_pos.mp (by omega)⟩
    · rintro ⟨rfl, r, hr, rfl⟩
      have := hB.lists r hr
      obtain ⟨⟨t', n⟩, hm, e⟩ := List.mem_map.mp this
      simp only at e
      subst e
      obtain ⟨g1, g2, _⟩ := hB.counts _ n hm
      have : n = cnt r.aggType b := Nat.le_antisymm g2 g1
      rw [← this]; exact hm

/-- One event counted, two more while the page is made: the row of the first type is read before, the total
after. -/
def busyPage : List Label := [.page, .page, .accept, .finish, .accept, .page]

theorem busyPage_run : (exec false (request ⟨some [([65], 1)], 1, 1⟩
    [mkRecord sA 2 2 (evA [2]), mkRecord sB 3 1 (evB [1])]) busyPage).map (fun s => (s.pc, s.sent)) =
    some (.done, [⟨[([65], 1)], 2⟩]) := by decide

/-- The hypotheses of `C95_partial` are met by that run. -/
example : ∃ s, exec false (request ⟨some [([65], 1)], 1, 1⟩
    [mkRecord sA 2 2 (evA [2]), mkRecord sB 3 1 (evB [1])]) busyPage = some s ∧ s.pc = .done := by
  have h := busyPage_run
  rw [Option.map_eq_some_iff] at h
  obtain ⟨s, h1, h2⟩ := h
  exact ⟨s, h1, congrArg Prod.fst h2⟩

/-- **C95 is false in full**: the page shows a total of two events of which it lists one. -/
theorem C95_false : ¬ C95_full := by
  intro h
  have hr := busyPage_run
  rw [Option.map_eq_some_iff] at hr
  obtain ⟨s, h1, h2⟩ := hr
  obtain ⟨p, hp, d, hd, hsh⟩ := h [mkRecord sA 1 1 (evA [1])] _ _ (by decide) busyPage s h1
    (congrArg Prod.fst h2)
  have e := congrArg Prod.snd h2
  simp only [hp, List.cons.injEq, and_true] at e
  subst e
  have ht := hsh.total
  have hdl : d.length = 1 := by
    simp only [List.length_append, List.length_cons, List.length_nil] at ht
    omega
  obtain ⟨e, he⟩ := hd
  cases d with
  | nil => simp at hdl
  | cons r d =>
    cases d with
    | cons _ _ => simp at hdl
    | nil =>
      simp only [List.cons_append, List.nil_append, List.cons.injEq] at he
      obtain ⟨rfl, _⟩ := he
      have := ((hsh.rows [65] 1).mp (by simp)).1
      revert this
      decide

/-! ## C96: the live page -/

/-- The page that belongs to the statistics. -/
def pageOf (st : Stats) : Page := ⟨st.sortedTypes.map (fun t => (t, st.totalByType t)), st.total⟩

theorem pageOf_shows {log : List Record} {s : State} {a : List Record} (h : Holds log s a)
    (hb : s.busy = false) : Shows (pageOf s.stats) a := by
  obtain ⟨c1, c2, c3, c4, c5⟩ := holds_counts h
  rw [hb] at c3
  refine ⟨by simpa [pageOf] using c3, by simpa [pageOf, Function.comp_def] using c4, ?_⟩
  intro t n
  simp only [pageOf, List.mem_map, Prod.mk.injEq]
  constructor
  · rintro ⟨u, hu, rfl, rfl⟩
    exact ⟨c1 u, (c5 u).mp hu⟩
  · rintro ⟨rfl, hr⟩
    exact ⟨t, (c5 t).mpr hr, rfl, c1 t⟩

/-- What the loop knows when nothing new has come since it read the latest number. -/
def Fresh (s : State) : Prop :=
  match s.pc with
  | .head => s.stats.latest = 0 ∨ s.sent.getLast? = some (pageOf s.stats)
  | .set => False
  | .keys => True
  | .count todo rows =>
    rows ++ todo.map (fun t => (t, s.stats.totalByType t)) =
      s.stats.sortedTypes.map (fun t => (t, s.stats.totalByType t))
  | .done => False

structure Live (log : List Record) (s : State) : Prop where
  holds : ∃ a, Holds log s a
  le : s.latest ≤ s.stats.latest
  notDone : s.pc ≠ .done
  fresh : s.stats.latest ≤ s.latest → s.busy = false ∧ Fresh s

theorem live_step {log : List Record} (hpos : ∀ r ∈ log, 0 < r.gsn)
    (hinc : log.Pairwise (fun x y => x.gsn < y.gsn)) {s s' : State} {l : Label}
    (h : Live log s) (hs : step true s l = some s') : Live log s' := by
  obtain ⟨a, ha⟩ := h.holds
  obtain ⟨c, hc, _⟩ := holds_step ha hs
  suffices g : s'.latest ≤ s'.stats.latest ∧ s'.pc ≠ .done ∧
      (s'.stats.latest ≤ s'.latest → s'.busy = false ∧ Fresh s') from ⟨⟨_, hc⟩, g.1, g.2.1, g.2.2⟩
  cases l with
  | accept =>
    simp only [step] at hs
    split at hs
    · cases hs
    · split at hs
      · cases hs
      · rename_i r rest hi
        simp only [Option.some.injEq] at hs
        subst hs
        have hlt : s.stats.latest < r.gsn := by
          rw [(holds_counts ha).2.1]
          have hsp := ha.split
          rw [hi] at hsp
          cases hl : a.getLast? with
          | none =>
            simp only [Option.map_none, Option.getD_none]
            exact hpos r (by rw [hsp]; simp)
          | some x =>
            simp only [Option.map_some, Option.getD_some]
            rw [hsp] at hinc
            exact (List.pairwise_append.mp hinc).2.2 x (List.mem_of_getLast? hl) r (by simp)
        have := h.le
        refine ⟨by simp only; omega, h.notDone, ?_⟩
        intro hle
        simp only at hle
        omega
  | finish =>
    simp only [step] at hs
    split at hs
    · rename_i hb
      simp only [Option.some.injEq] at hs
      subst hs
      refine ⟨h.le, h.notDone, ?_⟩
      intro hle
      have := (h.fresh hle).1
      rw [hb] at this
      cases this
    · cases hs
  | page =>
    simp only [step, pageStep] at hs
    cases hp : s.pc with
    | done => exact absurd hp h.notDone
    | head =>
      rw [hp] at hs
      simp only at hs
      split at hs
      · cases hs
      · split at hs
        · simp only [Option.some.injEq] at hs
          subst hs
          exact ⟨h.le, h.notDone, h.fresh⟩
        · rename_i hlt
          simp only [Option.some.injEq] at hs
          subst hs
          exact ⟨h.le, by simp, fun hle => absurd hle hlt⟩
    | set =>
      rw [hp] at hs
      simp only at hs
      split at hs
      · cases hs
      · rename_i hb
        simp only [Option.some.injEq] at hs
        subst hs
        exact ⟨Nat.le_refl _, by simp, fun _ => ⟨by simpa using hb, trivial⟩⟩
    | keys =>
      rw [hp] at hs
      simp only at hs
      split at hs
      · cases hs
      · rename_i hb
        simp only [Option.some.injEq] at hs
        subst hs
        exact ⟨h.le, by simp, fun _ => ⟨by simpa using hb, by simp [Fresh]⟩⟩
    | count todo rows =>
      rw [hp] at hs
      cases todo with
      | nil =>
        simp only [Option.some.injEq, if_true] at hs
        subst hs
        refine ⟨h.le, by simp, ?_⟩
        intro hle
        obtain ⟨h1, h2⟩ := h.fresh hle
        refine ⟨h1, ?_⟩
        simp only [Fresh, hp, List.map_nil, List.append_nil] at h2
        simp only [Fresh, List.getLast?_append, List.getLast?_singleton, Option.some_or]
        right
        rw [h2]; rfl
      | cons t ts =>
        simp only at hs
        split at hs
        · cases hs
        · rename_i hb
          simp only [Option.some.injEq] at hs
          subst hs
          refine ⟨h.le, by simp, ?_⟩
          intro hle
          obtain ⟨h1, h2⟩ := h.fresh hle
          refine ⟨h1, ?_⟩
          simp only [Fresh, hp] at h2
          simp only [Fresh, ← h2]
          simp

theorem live_exec {log : List Record} (hpos : ∀ r ∈ log, 0 < r.gsn)
    (hinc : log.Pairwise (fun x y => x.gsn < y.gsn)) (ls : List Label) : ∀ {s s' : State},
    Live log s → exec true s ls = some s' → Live log s' := by
  induction ls with
  | nil =>
    intro s s' h hx
    simp only [exec, Option.some.injEq] at hx
    subst hx; exact h
  | cons l ls ih =>
    intro s s' h hx
    simp only [exec] at hx
    cases hs : step true s l with
    | none => rw [hs] at hx; cases hx
    | some s1 =>
      rw [hs] at hx
      exact ih (live_step hpos hinc h hs) hx

/-- The loop is waiting for a new event. -/
def Idle (s : State) : Prop := s.busy = false ∧ s.pc = .head ∧ s.stats.latest ≤ s.latest

theorem idle_stays {s : State} (h : Idle s) (m : Nat) : exec true s (List.replicate m .page) = some s := by
  obtain ⟨h1, h2, h3⟩ := h
  induction m with
  | zero => rfl
  | succ m ih =>
    have : step true s .page = some s := by
      simp only [step, pageStep, h2, h1, Bool.false_eq_true, if_false]
      rw [if_pos h3]
    simp only [List.replicate_succ, exec, this]
    exact ih

/-- How many steps the loop still needs, at most. -/
def rank (s : State) : Nat :=
  let n := s.stats.sortedTypes.length
  let behind := if s.stats.latest ≤ s.latest then 0 else n + 5
  match s.pc with
  | .head => if s.stats.latest ≤ s.latest then 0 else n + 4
  | .set => n + 3
  | .keys => n + 2 + behind
  | .count todo _ => todo.length + 1 + behind
  | .done => 0

theorem page_progress {s : State} (hb : s.busy = false) (hd : s.pc ≠ .done) (hi : ¬ Idle s) :
    ∃ s', step true s .page = some s' ∧ rank s' < rank s ∧ s'.busy = false ∧ s'.pc ≠ .done ∧
      s'.incoming = s.incoming ∧ s'.stats = s.stats := by
  simp only [step, pageStep]
  cases hp : s.pc with
  | done => exact absurd hp hd
  | head =>
    have hlt : ¬ s.stats.latest ≤ s.latest := fun h => hi ⟨hb, hp, h⟩
    simp only [hb, Bool.false_eq_true, if_false, if_neg hlt, Option.some.injEq, exists_eq_left', ne_eq, reduceCtorEq, not_false_eq_true, and_self, and_true]
    simp only [rank, hp, if_neg hlt]
    omega
  | set =>
    simp only [hb, Bool.false_eq_true, if_false, Option.some.injEq, exists_eq_left', ne_eq, reduceCtorEq, not_false_eq_true, and_self, and_true]
    simp only [rank, hp, Nat.le_refl, if_true]
    omega
  | keys =>
    simp only [hb, Bool.false_eq_true, if_false, Option.some.injEq, exists_eq_left', ne_eq, reduceCtorEq, not_false_eq_true, and_self, and_true]
    simp only [rank, hp]
    omega
  | count todo rows =>
    cases todo with
    | nil =>
      simp only [Option.some.injEq, exists_eq_left', if_true, hb, ne_eq, reduceCtorEq, not_false_eq_true, and_self, and_true]
      simp only [rank, hp, List.length_nil]
      split <;> omega
    | cons t ts =>
      simp only [hb, Bool.false_eq_true, if_false, Option.some.injEq, exists_eq_left', ne_eq, reduceCtorEq, not_false_eq_true, and_self, and_true]
      simp only [rank, hp, List.length_cons]
      omega

theorem reaches_idle (n : Nat) : ∀ (s : State), rank s ≤ n → s.busy = false → s.pc ≠ .done →
    ∃ k s', exec true s (List.replicate k .page) = some s' ∧ Idle s' ∧ s'.incoming = s.incoming := by
  induction n with
  | zero =>
    intro s hr hb hd
    by_cases hi : Idle s
    · exact ⟨0, s, rfl, hi, rfl⟩
    · obtain ⟨s', _, h2, _⟩ := page_progress hb hd hi
      omega
  | succ n ih =>
    intro s hr hb hd
    by_cases hi : Idle s
    · exact ⟨0, s, rfl, hi, rfl⟩
    · obtain ⟨s1, h1, h2, h3, h4, h5, _⟩ := page_progress hb hd hi
      obtain ⟨k, s', g1, g2, g3⟩ := ih s1 (by omega) h3 h4
      refine ⟨k + 1, s', ?_, g2, g3.trans h5⟩
      simp only [List.replicate_succ, exec, h1]
      exact g1

theorem exec_append {live : Bool} (l1 l2 : List Label) : ∀ (s : State),
    exec live s (l1 ++ l2) = (exec live s l1).bind (fun s' => exec live s' l2) := by
  induction l1 with
  | nil => intro s; rfl
  | cons l l1 ih =>
    intro s
    simp only [List.cons_append, exec]
    cases step live s l with
    | none => rfl
    | some s' => exact ih s'

/-- The claim that the live page catches up, for the history `log`: whatever has happened, once all of its
records have been accepted and no more come, the connection needs only so many more steps, and from then on
the last message it has sent is the page of all the records. -/
def CatchesUp (log : List Record) : Prop :=
  ∀ (ls : List Label) (s : State), exec true (connect .new log) ls = some s →
    s.incoming = [] → s.busy = false → log ≠ [] →
    ∃ k, ∀ m, k ≤ m → ∃ s', exec true s (List.replicate m .page) = some s' ∧
      ∃ p, s'.sent.getLast? = some p ∧ Shows p log

/-- The full claim of **C96**: for every history of records that a subscription may deliver, in whatever
order their numbers are. -/
def C96_full : Prop := ∀ log : List Record, (∀ r ∈ log, 0 < r.gsn) → CatchesUp log

/-- **C96 (partial).** The live page catches up, under every schedule, if the records are delivered in the
order of their numbers, which start above zero. Missing: records delivered out of order (`C96_false`). -/
theorem C96_partial (log : List Record) (hpos : ∀ r ∈ log, 0 < r.gsn)
    (hinc : log.Pairwise (fun x y => x.gsn < y.gsn)) : CatchesUp log := by
  intro ls s hx hi hb hne
  have h0 : Live log (connect .new log) := by
    refine ⟨⟨[], rfl, ?_⟩, Nat.le_refl _, by simp [connect], fun _ => ⟨rfl, Or.inl rfl⟩⟩
    simpa [connect] using inv_new
  have hL := live_exec hpos hinc ls h0 hx
  obtain ⟨k, s', h1, h2, h3⟩ := reaches_idle (rank s) s (Nat.le_refl _) hb hL.notDone
  refine ⟨k, fun m hm => ⟨s', ?_, ?_⟩⟩
  · obtain ⟨j, rfl⟩ := Nat.exists_eq_add_of_le hm
    rw [List.replicate_add, exec_append, h1]
    exact idle_stays h2 j
  · have hL' := live_exec hpos hinc _ hL h1
    obtain ⟨a, ha⟩ := hL'.holds
    have hsp := ha.split
    rw [h3, hi, List.append_nil] at hsp
    subst hsp
    obtain ⟨_, hf⟩ := hL'.fresh h2.2.2
    simp only [Fresh, h2.2.1] at hf
    rcases hf with hf | hf
    · exfalso
      rw [(holds_counts ha).2.1, List.getLast?_eq_some_getLast hne] at hf
      have := hpos _ (List.getLast_mem hne)
      simp only [Option.map_some, Option.getD_some] at hf
      omega
    · exact ⟨_, hf, pageOf_shows ha h2.1⟩

/-- Two records in order, the second while the first message is being made: the hypotheses are met, and the
second message is the right one. -/
example : CatchesUp [mkRecord sA 1 1 (evA [1]), mkRecord sA 2 2 (evA [2])] :=
  C96_partial _ (by decide) (by decide)

def twoMessages : List Label := [.accept, .finish, .page, .page, .page, .page, .accept, .page, .finish,
  .page, .page, .page, .page, .page]

example : (exec true (connect .new [mkRecord sA 1 1 (evA [1]), mkRecord sA 2 2 (evA [2])])
    twoMessages).map (fun s => s.sent) = some [⟨[([65], 1)], 1⟩, ⟨[([65], 2)], 2⟩] := by decide

/-- Two records out of order, as the PostgreSQL store may number them (`C40`): the message after the first
is the last. -/
def outOfOrder : List Record := [mkRecord sB 2 1 (evB [1]), mkRecord sA 1 1 (evA [1])]

def outSchedule : List Label := [.accept, .finish, .page, .page, .page, .page, .page, .accept, .finish]

theorem outOfOrder_run : exec true (connect .new outOfOrder) outSchedule =
    some ⟨⟨some [([66], 1), ([65], 1)], 1, 2⟩, false, [], 2, .head, [⟨[([66], 1)], 1⟩]⟩ := by decide

/-- **C96 is false in full**: after that schedule no step of the loop ever sends anything again, and the last
message lacks the second record. -/
theorem C96_false : ¬ C96_full := by
  intro h
  obtain ⟨k, hk⟩ := h outOfOrder (by decide) outSchedule _ outOfOrder_run rfl rfl (by simp [outOfOrder])
  obtain ⟨s', h1, p, h2, h3⟩ := hk k (Nat.le_refl _)
  rw [idle_stays ⟨rfl, rfl, by simp⟩] at h1
  simp only [Option.some.injEq] at h1
  subst h1
  simp only [List.getLast?_singleton, Option.some.injEq] at h2
  subst h2
  have := h3.total
  simp [outOfOrder] at this

/-- What the live loop has done so far is right. -/
def Looping (b : List Record) (s : State) : Prop :=
  (∀ p ∈ s.sent, Between p [] b) ∧
  ∀ todo rows, s.pc = .count todo rows → Rows [] b todo rows s.stats.total

theorem looping_step {log b : List Record} {s s' : State} {l : Label} (hb : Holds log s b)
    (h : Looping b s) (hs : step true s l = some s') : ∃ b', Holds log s' b' ∧ Looping b' s' := by
  obtain ⟨c, hc, hn⟩ := holds_step hb hs
  refine ⟨_, hc, ?_⟩
  cases l with
  | accept =>
    simp only [step] at hs
    split at hs
    · cases hs
    · split at hs
      · cases hs
      · simp only [Option.some.injEq] at hs
        subst hs
        exact ⟨fun p hp => between_grow c (h.1 p hp), fun t r hp => rows_grow (Nat.le_refl _) (h.2 t r hp)⟩
  | finish =>
    simp only [step] at hs
    split at hs
    · simp only [Option.some.injEq] at hs
      subst hs
      exact ⟨fun p hp => between_grow c (h.1 p hp), fun t r hp => rows_grow (Nat.le_succ _) (h.2 t r hp)⟩
    · cases hs
  | page =>
    have e := hn (by simp)
    subst e
    rw [List.append_nil]
    simp only [step, pageStep] at hs
    cases hp : s.pc with
    | done => rw [hp] at hs; cases hs
    | head =>
      rw [hp] at hs
      simp only at hs
      split at hs
      · cases hs
      · split at hs
        · simp only [Option.some.injEq] at hs
          subst hs
          exact h
        · simp only [Option.some.injEq] at hs
          subst hs
          exact ⟨h.1, by simp⟩
    | set =>
      rw [hp] at hs
      simp only at hs
      split at hs
      · cases hs
      · simp only [Option.some.injEq] at hs
        subst hs
        exact ⟨h.1, by simp⟩
    | keys =>
      rw [hp] at hs
      simp only at hs
      split at hs
      · cases hs
      · simp only [Option.some.injEq] at hs
        subst hs
        refine ⟨h.1, ?_⟩
        rintro _ _ ⟨⟩
        exact rows_begin hb (List.nil_prefix)
    | count todo rows =>
      rw [hp] at hs
      cases todo with
      | nil =>
        simp only [Option.some.injEq, if_true] at hs
        subst hs
        refine ⟨?_, by simp⟩
        intro p hm
        simp only [List.mem_append, List.mem_singleton] at hm
        rcases hm with hm | rfl
        · exact h.1 p hm
        · exact rows_end hb (by simp) (h.2 _ _ hp)
      | cons t ts =>
        simp only at hs
        by_cases hbusy : s.busy = true
        · rw [if_pos hbusy] at hs; cases hs
        · rw [if_neg hbusy] at hs
          simp only [Option.some.injEq] at hs
          subst hs
          refine ⟨h.1, ?_⟩
          rintro _ _ ⟨⟩
          exact rows_next hb (List.nil_prefix) (by simpa using hbusy) (h.2 _ _ hp)

/-- **C96, every message.** Whatever the order of the records and the schedule, each message of a live page
lists types in order, each with at least one event and no more than have come, and its counts add up to no
more than its total, which is no more than the number of events. -/
theorem C96_messages (log : List Record) (ls : List Label) (s : State)
    (hx : exec true (connect .new log) ls = some s) (p : Page) (hp : p ∈ s.sent) : Between p [] log := by
  have key : ∀ (ls : List Label) {s s' : State} {b : List Record}, Holds log s b → Looping b s →
      exec true s ls = some s' → ∃ b', Holds log s' b' ∧ Looping b' s' := by
    intro ls
    induction ls with
    | nil =>
      intro s s' b h1 h2 hx
      simp only [exec, Option.some.injEq] at hx
      subst hx
      exact ⟨b, h1, h2⟩
    | cons l ls ih =>
      intro s s' b h1 h2 hx
      simp only [exec] at hx
      cases hs : step true s l with
      | none => rw [hs] at hx; cases hx
      | some s1 =>
        rw [hs] at hx
        obtain ⟨b1, g1, g2⟩ := looping_step h1 h2 hs
        exact ih g1 g2 hx
  obtain ⟨b, h1, h2⟩ := key ls (s := connect .new log) (b := []) ⟨rfl, by simpa [connect] using inv_new⟩
    ⟨by simp [connect], by simp [connect]⟩ hx
  rw [h1.split]
  exact between_grow _ (h2.1 p hp)

/-- A run whose message was completed in the middle of `Accept`: the total is the old one. -/
example : (exec true (connect .new [mkRecord sA 1 1 (evA [1]), mkRecord sA 2 2 (evA [2])])
    [.accept, .finish, .page, .page, .page, .page, .accept, .page]).map (fun s => s.sent) =
    some [⟨[([65], 1)], 1⟩] := by decide

end RangeDB.Web

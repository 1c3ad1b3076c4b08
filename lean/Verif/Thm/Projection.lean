import Verif.Proof.Projection
import Verif.Proof.Snapshot
import Verif.Proof.Utf8
import Verif.Thm.Constants

/-!
# Properties of the statistics: C33, C59 and C60; and what exactly a subscription delivers (C20)
-/

namespace RangeDB.Sub

open Demo

variable {z : Serializer} {p : Params}

/-- **C20, exactly.** If event `n` had been assigned before the call (or `n` is 0), then a subscription
`StartFrom(n)` on the LevelDB store, to all events or to one type, delivers exactly the events numbered `n`
or more, each once and in order, when no stream is deleted. -/
theorem C20_exact (hz : z.Lawful) (hh : p.holds = true)
    (ht : p.topics = [none] ∨ ∃ t, p.topics = [some t]) (n : Nat) (hn : p.startFrom = some n)
    {L : Log} (hL : L.WF) (hle : n ≤ L.last) (ls : List Label) (s : State)
    (hx : exec z p (init p L) ls = some s) (hq : Quiescent s) (hd : ∀ st, Label.delete st ∉ ls) :
    s.out = s.saved.filter (fun r => p.wants r && decide (n ≤ r.gsn)) := by
  have hv : p.Valid := by
    rcases ht with h | ⟨t, h⟩
    · exact Or.inl h
    · exact Or.inr ⟨[t], by simp, by simp [h]⟩
  have hS := safe_exec hz hv ls (safe_init (p := p) hL) hx
  have hl : s.log.recs = s.saved := saved_live ls hd (by rfl) hx
  have hA : AtLeast p n (init p L) := ⟨by simp [init], ⟨n, hn, Nat.le_refl n⟩⟩
  have hA' := (atLeast_exec (by rw [hn]; simp) ls hA hx).1
  obtain ⟨_, _, new, hnew, hgt⟩ := saved_grows hz ls (s := init p L)
    (fun r hr => (hL.bounded r hr).2) hx
  obtain ⟨c1, c2⟩ := C20_partial hz hh ht n hn hL ls s hx hq
  apply inc_ext hS.outInc (hS.savedInc.filter _)
  intro r
  simp only [List.mem_filter, Bool.and_eq_true, decide_eq_true_eq]
  constructor
  · intro h
    exact ⟨(hS.outSaved r h).1, (hS.outSaved r h).2, hA' r h⟩
  · rintro ⟨h1, h2, h3⟩
    have hr : r ∈ s.log.recs := hl ▸ h1
    by_cases he : r.gsn = n
    · refine c2 r ?_ hr h2 he
      rw [hnew] at h1
      simp only [List.mem_append] at h1
      rcases h1 with h1 | h1
      · exact h1
      · have := hgt r h1
        simp only [init] at this
        omega
    · exact c1 r hr h2 (by omega)

/-- A store holding two events, a subscription from the second, a third event saved later. -/
example : (exec demo ⟨true, [none], some 2⟩
    (init ⟨true, [none], some 2⟩ ((Log.empty.append demo.view sA [evA [1]]).append demo.view sB [evB [2]]))
    [.sub, .sub, .sub, .sub, .sub, .sub, .sub, .sub, .commit sA [evA [3]], .accept 0, .broadcast false,
     .sub]).map (fun s => (s.out.map (·.gsn), s.pc)) = some ([2, 3], .working) := by decide

/-- **C20, where it fails, for every schedule.** If event `n` had not been assigned before the call and the
subscription's first read comes before any save, then the event that is later given number `n` is never
delivered; exactly the events numbered above `n` are. -/
theorem C20_boundary_lost (hz : z.Lawful) (hh : p.holds = true)
    (ht : p.topics = [none] ∨ ∃ t, p.topics = [some t]) (n : Nat) (hn : p.startFrom = some n)
    {L : Log} (hL : L.WF) (hlt : L.last < n) (ls : List Label) (s : State)
    (hx : exec z p (init p L) (.sub :: .sub :: ls) = some s) :
    (∀ r ∈ s.out, n < r.gsn) ∧
    (Quiescent s → (∀ st, Label.delete st ∉ ls) →
      s.out = s.saved.filter (fun r => p.wants r && decide (n < r.gsn))) := by
  have hv : p.Valid := by
    rcases ht with h | ⟨t, h⟩
    · exact Or.inl h
    · exact Or.inr ⟨[t], by simp, by simp [h]⟩
  have hS := safe_exec hz hv _ (safe_init (p := p) hL) hx
  obtain ⟨t, htop⟩ : ∃ t, p.topics = [t] := by
    rcases ht with h | ⟨t, h⟩
    · exact ⟨_, h⟩
    · exact ⟨_, h⟩
  have hempty : readTopic L t n = [] := by
    unfold readTopic
    rw [List.filter_eq_nil_iff]
    intro r hr
    have := (hL.bounded r hr).2
    simp only [Bool.and_eq_true, decide_eq_true_eq, not_and]
    intro _; omega
  have hA' : ∀ r ∈ s.out, n < r.gsn := by
    have hx' := hx
    simp only [exec, step, subStep, hn, htop, init] at hx'
    simp only [List.length_cons, List.length_nil, if_true, hempty, ne_eq, not_true_eq_false, and_false,
      if_false, Bool.false_eq_true] at hx'
    refine (atLeast_exec (b := n + 1) (by rw [hn]; simp) ls ?_ hx').1
    exact ⟨by simp, by simp⟩
  refine ⟨hA', fun hq hd => ?_⟩
  have hd' : ∀ st, Label.delete st ∉ (Label.sub :: Label.sub :: ls) := by simp [hd]
  have hl : s.log.recs = s.saved := saved_live _ hd' (by rfl) hx
  obtain ⟨c1, _⟩ := C20_partial hz hh ht n hn hL _ s hx hq
  apply inc_ext hS.outInc (hS.savedInc.filter _)
  intro r
  simp only [List.mem_filter, Bool.and_eq_true, decide_eq_true_eq]
  constructor
  · intro h
    exact ⟨(hS.outSaved r h).1, (hS.outSaved r h).2, hA' r h⟩
  · rintro ⟨h1, h2, h3⟩
    exact c1 r (hl ▸ h1) h2 h3

end RangeDB.Sub

namespace RangeDB.Prj

open Demo Sub

/-! ## Specification -/

/-- The statistics say what they should about the records `rs`. -/
structure Counts (s : Stats) (rs : List Record) : Prop where
  total : s.total = rs.length
  byType : ∀ t, s.totalByType t = (rs.filter (fun r => r.aggType = t)).length
  latest : s.latest = (rs.getLast?.map (·.gsn)).getD 0
  sorted : s.sortedTypes.Pairwise (fun a b => strLt a b = true)
  types : ∀ t, t ∈ s.sortedTypes ↔ ∃ r ∈ rs, r.aggType = t

/-- Records as a store can hold them, whose aggregate types are UTF-8 text: the numbers are `uint64`s. -/
def Plain (rs : List Record) : Prop := rs.length < 2 ^ 64 ∧ ∀ r ∈ rs, r.gsn < 2 ^ 64 ∧ Json.Utf8 r.aggType

/-- `strLt` is the lexicographic order of byte strings. -/
theorem C33_order : (∀ a : Str, strLt a a = false) ∧
    (∀ a b c : Str, strLt a b = true → strLt b c = true → strLt a c = true) ∧
    (∀ a b : Str, a ≠ b → strLt a b = true ∨ strLt b a = true) ∧
    (∀ (p a b : Str) (x y : Nat), x < y → strLt (p ++ x :: a) (p ++ y :: b) = true) ∧
    (∀ (p b : Str) (y : Nat), strLt p (p ++ y :: b) = true) := by
  refine ⟨strLt_irrefl, fun a b c h1 h2 => strLt_trans h1 h2, ?_, ?_, ?_⟩
  · intro a b hne
    cases h : strLt a b with
    | true => exact Or.inl rfl
    | false => exact Or.inr (strLt_total h hne)
  · intro p a b x y hxy
    induction p with
    | nil => simp [strLt, hxy]
    | cons c p ih => simp [strLt, ih]
  · intro p b y
    induction p with
    | nil => rfl
    | cons c p ih => simp [strLt, ih]

theorem counts_of_inv {s : Stats} {rs : List Record} (h : Inv s rs) : Counts s rs := by
  obtain ⟨⟨m, hm, hnd, hv, hk⟩, hl, ht⟩ := h
  have hs := sort_spec (m.map (·.1)) hnd
  refine ⟨ht, ?_, hl, ?_, ?_⟩
  · intro t
    have := hv t
    unfold valueAt at this
    simp only [Stats.totalByType, hm, Option.getD_some]
    exact this
  · simp only [Stats.sortedTypes, hm, Option.getD_some]; exact hs.1
  · intro t
    simp only [Stats.sortedTypes, hm, Option.getD_some]
    rw [hs.2, hk]

/-! ## C33 -/

/-- **C33, counting.** Accepting any sequence of records never panics and gives the right statistics. -/
theorem C33_counts (rs : List Record) : ∃ s, Stats.new.acceptAll rs = .ok s ∧ Counts s rs := by
  obtain ⟨s, h1, h2⟩ := acceptAll_inv .new [] rs inv_new
  exact ⟨s, h1, counts_of_inv h2⟩

/-- Three records of two types. -/
example : (Stats.new.acceptAll [mkRecord sB 1 1 (evB [1]), mkRecord sA 2 1 (evA [1]), mkRecord sB 3 2 (evB [1])]) =
    .ok ⟨some [([66], 2), ([65], 1)], 3, 3⟩ := by decide

theorem valueAt_mem {t : Str} {m : List (Str × Nat)} (hm : (m.map (·.1)).Nodup) (n : Nat) (hmem : (t, n) ∈ m) :
    valueAt m t = n := by
  induction m with
  | nil => simp at hmem
  | cons x m ih =>
    simp only [List.map_cons, List.nodup_cons] at hm
    simp only [valueAt, List.find?_cons]
    by_cases hx : x.1 = t
    · simp only [hx, decide_true, Option.map_some, Option.getD_some]
      simp only [List.mem_cons] at hmem
      rcases hmem with hmem | hmem
      · rw [← hmem]
      · exact absurd (hx ▸ List.mem_map_of_mem hmem) hm.1
    · simp only [hx, decide_false]
      simp only [List.mem_cons] at hmem
      rcases hmem with hmem | hmem
      · exact absurd (by rw [← hmem]) hx
      · exact ih hm.2 hmem

theorem perm_find {a b : List (Str × Nat)} (h : a.Perm b) (hnd : (a.map (·.1)).Nodup) (t : Str) :
    valueAt a t = valueAt b t := by
  have key : ∀ {m : List (Str × Nat)}, (m.map (·.1)).Nodup → ∀ n, (t, n) ∈ m → valueAt m t = n :=
    fun h n hm => valueAt_mem h n hm
  have none' : ∀ {m : List (Str × Nat)}, t ∉ m.map (·.1) → valueAt m t = 0 := by
    intro m hm
    have : m.find? (fun p => p.1 = t) = none := by
      rw [List.find?_eq_none]
      intro x hx
      simp only [decide_eq_true_eq]
      rintro rfl
      exact hm (List.mem_map_of_mem hx)
    simp [valueAt, this]
  have hnd' : (b.map (·.1)).Nodup := (h.map (·.1)).nodup_iff.mp hnd
  by_cases hm : t ∈ a.map (·.1)
  · obtain ⟨⟨t', n⟩, h1, rfl⟩ := List.mem_map.mp hm
    rw [key hnd n h1, key hnd' n (h.mem_iff.mp h1)]
  · rw [none' hm, none' (fun e => hm ((h.map (·.1)).mem_iff.mpr e))]

theorem inv_same {s t : Stats} {rs : List Record} (h : Inv s rs) (hs : s.same t) : Inv t rs := by
  obtain ⟨⟨m, hm, hnd, hv, hk⟩, hl, ht⟩ := h
  obtain ⟨e1, e2, e3⟩ := hs
  rw [hm] at e3
  cases hb : t.byType with
  | none => rw [hb] at e3; exact e3.elim
  | some b =>
    rw [hb] at e3
    simp only at e3
    refine ⟨⟨b, hb, (e3.map (·.1)).nodup_iff.mp hnd, ?_, ?_⟩, by rw [← e1, hl], by rw [← e2, ht]⟩
    · intro u; rw [← perm_find e3 hnd, hv]
    · intro u; rw [← (e3.map (·.1)).mem_iff, hk]

theorem good_of_inv {s : Stats} {rs : List Record} (h : Inv s rs) (hp : Plain rs) : s.Good := by
  obtain ⟨⟨m, hm, hnd, hv, hk⟩, hl, ht⟩ := h
  have hmem : ∀ e ∈ m, ∃ r ∈ rs, r.aggType = e.1 := fun e he => (hk e.1).mp (List.mem_map_of_mem he)
  refine ⟨?_, by rw [ht]; exact hp.1, by rw [hm]; exact hnd, ?_, ?_⟩
  · rw [hl]
    cases hg : rs.getLast? with
    | none => simp
    | some r => exact (hp.2 r (List.mem_of_getLast? hg)).1
  · rw [hm]
    intro e he
    obtain ⟨r, hr, h1⟩ := hmem e he
    exact Json.valid_iff_utf8.mpr (h1 ▸ (hp.2 r hr).2)
  · rw [hm]
    intro e he
    have := valueAt_mem hnd e.2 he
    rw [hv] at this
    have h2 := List.length_filter_le (fun r => decide (r.aggType = e.1)) rs
    have := hp.1
    omega

/-- What a possibly torn snapshot of the statistics of `a` loads to: those statistics, or nothing. -/
theorem load_inv {sa : Stats} {a : List Record} (hp : Plain a) (h : Inv sa a) (n : Nat) :
    Inv (load (saveSnapshot sa n) .new) a ∨ load (saveSnapshot sa n) .new = .new := by
  have hg := good_of_inv h hp
  simp only [load, saveSnapshot]
  obtain ⟨s', h1, h2⟩ := decode_encode hg
  rcases decode_torn hg.text n with e | e
  · rw [e, h1]; exact Or.inl (inv_same h h2)
  · rw [e]; exact Or.inr rfl

theorem resume (a b : List Record) (hp : Plain a) (hsort : Inc (a ++ b))
    (sa : Stats) (ha : Stats.new.acceptAll a = .ok sa) (n : Nat) (out : List Record)
    (ho : out = (a ++ b).filter (fun r => decide (startNumber (load (saveSnapshot sa n) .new) ≤ r.gsn))) :
    ∃ s, shown (saveSnapshot sa n) out = .ok s ∧ Inv s (a ++ b) := by
  obtain ⟨sa', e1, hi⟩ := acceptAll_inv .new [] a inv_new
  rw [ha] at e1
  obtain rfl := Outcome.ok.inj e1
  simp only [List.nil_append] at hi
  subst ho
  unfold shown
  rcases load_inv hp hi n with h | h
  · generalize load (saveSnapshot sa n) .new = l at h
    have : (a ++ b).filter (fun r => decide (startNumber l ≤ r.gsn)) = if a = [] then a ++ b else b := by
      unfold startNumber
      rw [h.total, h.latest]
      by_cases hae : a = []
      · subst hae; simp
      · rw [if_neg hae, if_pos (List.length_pos_iff.mpr hae)]
        rw [List.getLast?_eq_some_getLast hae]
        simp only [Option.map_some, Option.getD_some]
        obtain ⟨h1, h2, h3⟩ := List.pairwise_append.mp hsort
        rw [List.filter_append]
        have e1 : a.filter (fun r => decide ((a.getLast hae).gsn + 1 ≤ r.gsn)) = [] := by
          rw [List.filter_eq_nil_iff]
          intro r hr
          simp only [decide_eq_true_eq]
          have hcat := List.dropLast_concat_getLast hae
          rw [← hcat] at hr h1
          simp only [List.mem_append, List.mem_singleton] at hr
          rcases hr with hr | rfl
          · have := (List.pairwise_append.mp h1).2.2 r hr (a.getLast hae) (by simp)
            omega
          · omega
        have e2 : b.filter (fun r => decide ((a.getLast hae).gsn + 1 ≤ r.gsn)) = b := by
          rw [List.filter_eq_self]
          intro r hr
          simp only [decide_eq_true_eq]
          exact h3 _ (List.getLast_mem hae) r hr
        rw [e1, e2, List.nil_append]
    rw [this]
    split
    · rename_i hae; subst hae
      exact acceptAll_inv l [] b h
    · exact acceptAll_inv l a b h
  · rw [h]
    have : (a ++ b).filter (fun r => decide (startNumber Stats.new ≤ r.gsn)) = a ++ b := by
      rw [List.filter_eq_self]
      intro r _
      simp [startNumber, Stats.new]
    rw [this]
    exact acceptAll_inv .new [] (a ++ b) inv_new

/-- The full claim of **C33, snapshot and replay.** Take any sequence of records in global order and any point
of it at which the statistics were written to the snapshot file, completely or torn by a crash after `n`
bytes. Loading the file into new statistics and replaying from the number that the API computes gives,
without a panic, the statistics of the whole sequence. -/
def C33_full : Prop :=
  ∀ (a b : List Record) (sa : Stats) (n : Nat), (a ++ b).Pairwise (fun x y => x.gsn < y.gsn) →
    a.length < 2 ^ 64 → (∀ r ∈ a, r.gsn < 2 ^ 64) → Stats.new.acceptAll a = .ok sa →
    ∃ s, shown (saveSnapshot sa n)
        ((a ++ b).filter (fun r => decide (startNumber (load (saveSnapshot sa n) .new) ≤ r.gsn))) = .ok s ∧
      Counts s (a ++ b)

/-- **C33, snapshot and replay**, what holds: the claim, if the aggregate types are UTF-8 text. Missing: other
aggregate types, for which it is false. -/
theorem C33_partial (a b : List Record) (hp : Plain a)
    (hsort : (a ++ b).Pairwise (fun x y => x.gsn < y.gsn)) (sa : Stats)
    (ha : Stats.new.acceptAll a = .ok sa) (n : Nat) :
    ∃ s, shown (saveSnapshot sa n)
        ((a ++ b).filter (fun r => decide (startNumber (load (saveSnapshot sa n) .new) ≤ r.gsn))) = .ok s ∧
      Counts s (a ++ b) := by
  obtain ⟨s, h1, h2⟩ := resume a b hp hsort sa ha n _ rfl
  exact ⟨s, h1, counts_of_inv h2⟩

theorem utf8_A : Json.Utf8 [65] := Json.valid_iff_utf8.mp (by decide)
theorem utf8_B : Json.Utf8 [66] := Json.valid_iff_utf8.mp (by decide)

/-- The hypotheses of `C33_partial` are met: two records before the snapshot, one after it; the snapshot is
torn after 30 bytes. -/
example := C33_partial [mkRecord sB 1 1 (evB [1]), mkRecord sA 2 1 (evA [1])]
  [mkRecord sB 3 2 (evB [1])]
  ⟨by decide, by
    intro r hr
    simp only [List.mem_cons, List.not_mem_nil, or_false] at hr
    rcases hr with rfl | rfl
    · exact ⟨by decide, utf8_B⟩
    · exact ⟨by decide, utf8_A⟩⟩
  (by decide) ⟨some [([66], 1), ([65], 1)], 2, 2⟩ (by decide) 30

/-- The snapshot of two records of two types, and what it loads to: the map comes back sorted. -/
example : encode ⟨some [([66], 1), ([65], 1)], 2, 2⟩ =
      bytes "{\"totalEventsByAggregateType\":{\"A\":1,\"B\":1},\"latestGlobalSequenceNumber\":2,\"totalEvents\":2}\n" ∧
    load (saveSnapshot ⟨some [([66], 1), ([65], 1)], 2, 2⟩ 200) .new = ⟨some [([65], 1), ([66], 1)], 2, 2⟩ ∧
    load (saveSnapshot ⟨some [([66], 1), ([65], 1)], 2, 2⟩ 80) .new = .new := by
  refine ⟨by decide +kernel, by decide +kernel, by decide +kernel⟩

/-- **C33, how it fails without text.** Two records of two aggregate types that are not UTF-8: both names are
written as U+FFFD, so the loaded statistics have one type, which neither record has, with a count of 1,
while the total says 2. -/
theorem C33_false : ¬ C33_full := by
  intro hf
  obtain ⟨s, h1, h2⟩ := hf
    [{ mkRecord sA 1 1 (evA [1]) with aggType := [255] }, { mkRecord sA 2 2 (evA [1]) with aggType := [254] }] []
    ⟨some [([255], 1), ([254], 1)], 2, 2⟩ 200 (by decide) (by decide) (by decide) (by decide)
  have e : shown (saveSnapshot ⟨some [([255], 1), ([254], 1)], 2, 2⟩ 200)
      (([{ mkRecord sA 1 1 (evA [1]) with aggType := [255] },
         { mkRecord sA 2 2 (evA [1]) with aggType := [254] }] ++ ([] : List Record)).filter (fun r =>
      decide (startNumber (load (saveSnapshot ⟨some [([255], 1), ([254], 1)], 2, 2⟩ 200) .new) ≤ r.gsn))) =
      .ok ⟨some [([239, 191, 189], 1)], 2, 2⟩ := by decide +kernel
  rw [e] at h1
  obtain rfl := Outcome.ok.inj h1
  have := h2.byType [255]
  revert this
  decide

/-- What a snapshot file holds that loads: any text whose first JSON value is an object with numbers in the
right places, also one that another program wrote with other letter case, other fields, in another order, or with text
after it. -/
example :
    decode (bytes " {\"TOTALEVENTS\" : 7, \"x\":[1], \"totalEventsByAggregateType\":{\"A\":3,\"A\":7}} junk") =
      some ⟨some [([65], 7)], 0, 7⟩ ∧
    decode (bytes "null") = some ⟨none, 0, 0⟩ ∧ decode (bytes "{\"totalEvents\":-1}") = none ∧
    decode (bytes "[]") = none := by
  refine ⟨by decide +kernel, by decide +kernel, by decide +kernel, by decide +kernel⟩

/-- A snapshot that another program wrote without the map makes the first event panic. -/
theorem C33_foreign_snapshot_panics (r : Record) : (⟨none, 0, 0⟩ : Stats).accept r = .panic := rfl

/-! ## C59: the statistics after a restart -/

/-- A restart: the store holds `L`; an earlier run wrote the statistics of the first events `a` of it to the
snapshot file; the new process loads it, subscribes and runs by schedule `ls` to rest. -/
structure Restart (z : Serializer) (L : Log) (a b : List Record) (sa : Stats) (n : Nat)
    (ls : List Label) (s : State) : Prop where
  split : L.recs = a ++ b
  snap : Stats.new.acceptAll a = .ok sa
  run : exec z (subParams (saveSnapshot sa n)) (init (subParams (saveSnapshot sa n)) L) ls = some s
  rest : Quiescent s
  nodel : ∀ st, Label.delete st ∉ ls

/-- The full claim of **C59**: after a restart the statistics count every event of the store. -/
def C59_full (z : Serializer) : Prop :=
  ∀ (L : Log) (a b : List Record) (sa : Stats) (n : Nat) (ls : List Label) (s : State), L.WF →
    Restart z L a b sa n ls s → ∃ st, shown (saveSnapshot sa n) s.out = .ok st ∧ Counts st s.saved

/-- **C59**, what holds: the claim, if the number from which the API subscribes was already assigned before
the restart, that is, if the snapshot was not up to date, or was torn, or counted no event. Missing: the case of an
up-to-date snapshot, for which it is false. -/
theorem C59_partial {z : Serializer} (hz : z.Lawful) {L : Log} (hL : L.WF)
    {a b : List Record} {sa : Stats} {n : Nat} {ls : List Label} {s : State} (h : Restart z L a b sa n ls s) (hp : Plain a)
    (hle : startNumber (load (saveSnapshot sa n) .new) ≤ L.last) :
    ∃ st, shown (saveSnapshot sa n) s.out = .ok st ∧ Counts st s.saved := by
  have ho := C20_exact hz (p := subParams (saveSnapshot sa n)) rfl (Or.inl rfl) _ rfl hL hle ls s h.run h.rest h.nodel
  obtain ⟨_, _, new, hnew, hgt⟩ := saved_grows hz ls (s := init (subParams (saveSnapshot sa n)) L)
    (fun r hr => (hL.bounded r hr).2) h.run
  have hS := safe_exec hz (Or.inl rfl) ls (safe_init (p := subParams (saveSnapshot sa n)) hL) h.run
  have hsv : s.saved = a ++ (b ++ new) := by
    rw [hnew]; simp only [init, h.split, List.append_assoc]
  have hinc : Inc (a ++ (b ++ new)) := hsv ▸ hS.savedInc
  obtain ⟨st, h1, h2⟩ := resume a (b ++ new) hp hinc sa h.snap n s.out (by
    rw [ho, hsv]
    congr 1)
  rw [hsv]
  exact ⟨st, h1, counts_of_inv h2⟩

/-- **C59, where it fails.** If the snapshot is complete and up to date (the normal case: it is written
after catching up), and the subscription's first read comes before the next save, then in every schedule
the next event saved is never counted: the total stays one behind. -/
theorem C59_off_by_one {z : Serializer} (hz : z.Lawful) {L : Log} (hL : L.WF)
    {a : List Record} {sa : Stats} {ls : List Label} {s : State}
    (h : Restart z L a [] sa (encode sa).length (.sub :: .sub :: ls) s) (hp : Plain a) (hne : a ≠ [])
    (hlast : (a.getLast hne).gsn = L.last) (r : Record) (hr : r ∈ s.saved) (hg : r.gsn = L.last + 1) :
    ∃ st, shown (saveSnapshot sa (encode sa).length) s.out = .ok st ∧ st.total + 1 = s.saved.length := by
  obtain ⟨hsplit, hsnap, hrun, hrest, hnodel⟩ := h
  rw [List.append_nil] at hsplit
  obtain ⟨sa', e1, hi⟩ := acceptAll_inv .new [] a inv_new
  rw [hsnap] at e1
  obtain rfl := Outcome.ok.inj e1
  simp only [List.nil_append] at hi
  have hload : Inv (load (saveSnapshot sa (encode sa).length) .new) a := by
    obtain ⟨s', g1, g2⟩ := decode_encode (good_of_inv hi hp)
    simp only [load, saveSnapshot, List.take_length, g1, Option.getD_some]
    exact inv_same hi g2
  have hn : startNumber (load (saveSnapshot sa (encode sa).length) .new) = L.last + 1 := by
    unfold startNumber
    rw [hload.total, hload.latest, if_pos (List.length_pos_iff.mpr hne), List.getLast?_eq_some_getLast hne]
    simp [hlast]
  obtain ⟨_, hout⟩ := C20_boundary_lost hz (p := subParams (saveSnapshot sa (encode sa).length)) rfl
    (Or.inl rfl) (L.last + 1) (by rw [← hn]; rfl) hL (Nat.lt_succ_self _) ls s hrun
  have ho := hout hrest (by intro st hst; exact hnodel st (by simp [hst]))
  obtain ⟨_, _, new, hnew, hgt⟩ := saved_grows hz _
    (s := init (subParams (saveSnapshot sa (encode sa).length)) L) (fun r hr => (hL.bounded r hr).2) hrun
  simp only [init, hsplit] at hnew hgt
  have hS := safe_exec hz (Or.inl rfl) _
    (safe_init (p := subParams (saveSnapshot sa (encode sa).length)) hL) hrun
  have hnewInc : Inc new := by
    have := hS.savedInc; rw [hnew] at this; exact (List.pairwise_append.mp this).2.1
  have hrn : r ∈ new := by
    rw [hnew, List.mem_append] at hr
    rcases hr with hr | hr
    · have := (hL.bounded r (hsplit ▸ hr)).2; omega
    · exact hr
  cases hnl : new with
  | nil => rw [hnl] at hrn; simp at hrn
  | cons x xs =>
    have hx1 : x = r := by
      rw [hnl] at hrn hnewInc
      simp only [List.mem_cons] at hrn
      rcases hrn with rfl | hrn
      · rfl
      · have := (List.pairwise_cons.mp hnewInc).1 r hrn
        have := hgt x (by rw [hnl]; simp)
        omega
    subst hx1
    have hxs : ∀ y ∈ xs, L.last + 1 < y.gsn := by
      intro y hy
      rw [hnl] at hnewInc
      have := (List.pairwise_cons.mp hnewInc).1 y hy
      omega
    have houts : s.out = xs := by
      rw [ho, hnew, hnl, List.filter_append, List.filter_cons]
      have e1 : a.filter (fun r => (subParams (saveSnapshot sa (encode sa).length)).wants r &&
          decide (L.last + 1 < r.gsn)) = [] := by
        rw [List.filter_eq_nil_iff]
        intro y hy
        have := (hL.bounded y (hsplit ▸ hy)).2
        simp; intro _; omega
      rw [e1, if_neg (by simp; intro _; omega), List.nil_append, List.filter_eq_self]
      intro y hy
      simp only [Bool.and_eq_true, decide_eq_true_eq]
      exact ⟨rfl, hxs y hy⟩
    obtain ⟨st, g1, g2⟩ := acceptAll_inv _ a xs hload
    refine ⟨st, by rw [houts]; exact g1, ?_⟩
    rw [g2.total, hnew, hnl]
    simp only [List.length_append, List.length_cons]
    omega

/-- The log after one save. -/
def one : Log := Log.empty.append demo.view sA [evA [1]]

/-- A restart with an up-to-date snapshot of one event, then one more event. -/
def ls59 : List Label :=
  [.sub, .sub, .sub, .sub, .sub, .sub, .sub, .commit sA [evA [2]], .accept 0, .broadcast false, .sub]

theorem ls59_restart : ∃ s, Restart demo one [mkRecord sA 1 1 (evA [1])] [] ⟨some [([65], 1)], 1, 1⟩
    (encode ⟨some [([65], 1)], 1, 1⟩).length ls59 s ∧ mkRecord sA 2 2 (evA [2]) ∈ s.saved := by
  have hp : subParams (saveSnapshot ⟨some [([65], 1)], 1, 1⟩
      (encode ⟨some [([65], 1)], 1, 1⟩).length) = ⟨true, [none], some 2⟩ := by
    have : startNumber (load (saveSnapshot ⟨some [([65], 1)], 1, 1⟩
      (encode ⟨some [([65], 1)], 1, 1⟩).length) .new) = 2 := by decide +kernel
    unfold subParams
    rw [this]
  refine ⟨(exec demo ⟨true, [none], some 2⟩ (init ⟨true, [none], some 2⟩ one) ls59).get (by decide),
    ⟨by decide, by decide, by rw [hp]; simp, by unfold Quiescent; decide, by simp [ls59]⟩, by decide⟩

theorem plain_one : Plain [mkRecord sA 1 1 (evA [1])] :=
  ⟨by decide, by simpa using ⟨by decide, utf8_A⟩⟩

theorem one_wf : one.WF :=
  Log.WF.append demo_lawful Log.WF.empty sA [evA [1]]

/-- **C59 is false.** -/
theorem C59_false : ¬ C59_full demo := by
  intro hf
  obtain ⟨s, hR, hm⟩ := ls59_restart
  obtain ⟨st, h1, h2⟩ := hf _ _ _ _ _ _ _ one_wf hR
  obtain ⟨st', g1, g2⟩ := C59_off_by_one demo_lawful one_wf hR plain_one (by simp) (by decide) _ hm (by decide)
  rw [h1] at g1
  obtain rfl := Outcome.ok.inj g1
  have := h2.total
  omega

/-- **C59 with deletes.** The statistics are not reduced when a stream is deleted, so two servers on the same
store differ: one that has been running counts 1, one that starts afterwards without a snapshot counts 0. -/
theorem C59_delete_drift :
    ∃ ls1 ls2 s1 s2, exec demo ⟨true, [none], some 0⟩ (init ⟨true, [none], some 0⟩ Log.empty) ls1 = some s1 ∧
      Quiescent s1 ∧
      exec demo ⟨true, [none], some 0⟩ (init ⟨true, [none], some 0⟩ s1.log) ls2 = some s2 ∧ Quiescent s2 ∧
      s1.log = s2.log ∧
      shown none s1.out = .ok ⟨some [([65], 1)], 1, 1⟩ ∧
      shown none s2.out = .ok ⟨some [], 0, 0⟩ := by
  refine ⟨[.sub, .sub, .sub, .sub, .sub, .sub, .sub, .commit sA [evA [1]], .accept 0, .broadcast false, .sub,
      .delete sA], [.sub, .sub, .sub, .sub, .sub, .sub, .sub],
    (exec demo ⟨true, [none], some 0⟩ (init ⟨true, [none], some 0⟩ Log.empty)
      [.sub, .sub, .sub, .sub, .sub, .sub, .sub, .commit sA [evA [1]], .accept 0, .broadcast false, .sub,
      .delete sA]).get (by decide),
    (exec demo ⟨true, [none], some 0⟩ (init ⟨true, [none], some 0⟩ ⟨1, []⟩)
      [.sub, .sub, .sub, .sub, .sub, .sub, .sub]).get (by decide), by simp, by unfold Quiescent; decide, ?_,
      by unfold Quiescent; decide, ?_, ?_, ?_⟩
  · rfl
  · rfl
  · decide
  · decide

/-! ## C60: the live counter of the web UI -/

/-- The subscription of the live page for type `t`. -/
def livePage (t : Str) (latest : Nat) : Params := ⟨true, [some t], some latest⟩

/-- The counter the browser shows at the end. -/
def lastTotal (start : Nat) (out : List Record) : Nat := (liveTotals start out).getLast?.getD start

theorem lastTotal_eq (start : Nat) (out : List Record) : lastTotal start out = start + out.length := by
  unfold lastTotal
  induction out generalizing start with
  | nil => rfl
  | cons r rs ih =>
    simp only [liveTotals, List.length_cons]
    have := ih (start + 1)
    cases h : liveTotals (start + 1) rs with
    | nil => rw [h] at this; simp only [List.getLast?_nil, List.getLast?_singleton, Option.getD_none, Option.getD_some] at this ⊢; omega
    | cons x xs =>
      rw [h] at this
      rw [List.getLast?_cons_cons]
      have hs : (x :: xs).getLast? = some ((x :: xs).getLast (by simp)) := List.getLast?_eq_some_getLast _
      rw [hs] at this ⊢
      simp only [Option.getD_some] at this ⊢
      omega

/-- The number of records of type `t`. -/
def countType (t : Str) (rs : List Record) : Nat := (rs.filter (fun r => r.aggType = t)).length

/-- The full claim of **C60**: opened when the statistics are up to date, the live page of type `t` ends up
showing the number of events of that type. -/
def C60_full (z : Serializer) : Prop :=
  ∀ (t : Str) (L : Log) (ls : List Label) (s : State), L.WF →
    exec z (livePage t L.last) (init (livePage t L.last) L) ls = some s → Quiescent s →
    (∀ st, Label.delete st ∉ ls) → lastTotal (countType t L.recs) s.out = countType t s.saved

/-- **C60, exactly**: the counter is one too high if the latest event of the store, when the page was
opened, was of type `t`, and right otherwise. Missing for the full claim: the former case. -/
theorem C60_partial {z : Serializer} (hz : z.Lawful) (t : Str) {L : Log} (hL : L.WF) (ls : List Label) (s : State)
    (hx : exec z (livePage t L.last) (init (livePage t L.last) L) ls = some s) (hq : Quiescent s)
    (hd : ∀ st, Label.delete st ∉ ls) :
    lastTotal (countType t L.recs) s.out =
      countType t s.saved + countType t (L.recs.filter (fun r => r.gsn = L.last)) := by
  have ho := C20_exact hz (p := livePage t L.last) rfl (Or.inr ⟨t, rfl⟩) _ rfl hL (Nat.le_refl _) ls s hx hq hd
  obtain ⟨_, _, new, hnew, hgt⟩ := saved_grows hz ls (s := init (livePage t L.last) L)
    (fun r hr => (hL.bounded r hr).2) hx
  simp only [init] at hnew hgt
  rw [lastTotal_eq, ho, hnew]
  simp only [countType, List.filter_append, List.length_append]
  have hw : ∀ r, (livePage t L.last).wants r = decide (r.aggType = t) := by
    intro r; simp [Params.wants, livePage, Topic.matches]
  simp only [hw]
  have e1 : new.filter (fun r => decide (r.aggType = t) && decide (L.last ≤ r.gsn)) =
      new.filter (fun r => r.aggType = t) := by
    apply List.filter_congr
    intro r hr
    have := hgt r hr
    have h2 : decide (L.last ≤ r.gsn) = true := by simp; omega
    rw [h2, Bool.and_true]
  have e2 : L.recs.filter (fun r => decide (r.aggType = t) && decide (L.last ≤ r.gsn)) =
      (L.recs.filter (fun r => r.gsn = L.last)).filter (fun r => r.aggType = t) := by
    rw [List.filter_filter]
    apply List.filter_congr
    intro r hr
    have := (hL.bounded r hr).2
    congr 1
    simp only [decide_eq_decide]
    omega
  rw [e1, e2]
  omega

/-- **C60 is false**: one event of the type, page opened, nothing else happens: the page shows 2. -/
theorem C60_false : ¬ C60_full demo := by
  intro h
  have := h [65] one [.sub, .sub, .sub, .sub, .sub, .sub, .sub, .sub]
    ((exec demo (livePage [65] one.last) (init (livePage [65] one.last) one)
      [.sub, .sub, .sub, .sub, .sub, .sub, .sub, .sub]).get (by decide)) one_wf (by simp)
    (by unfold Quiescent; decide) (by simp)
  revert this
  decide

end RangeDB.Prj

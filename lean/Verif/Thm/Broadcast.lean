import Verif.Model.Broadcast
import Verif.Spec.EventLog
import Verif.Base.Demo

/-! # C22: the broadcaster -/

namespace RangeDB.Bc

/-! ## Specification: one registration is one bit, one receiver a filter of the history -/

/-- Is subscriber `i` registered for all events after the history (newest event first)? -/
def onAll (i : Nat) : List Ev → Bool
  | [] => false
  | .subscribeAll j :: h => if j = i then true else onAll i h
  | .unsubscribeAll j :: h => if j = i then false else onAll i h
  | .record _ _ _ slow1 _ :: h => onAll i h && !slow1 i
  | _ :: h => onAll i h

/-- Is subscriber `i` registered for type `t` after the history (newest event first)? -/
def onType (t : Str) (i : Nat) : List Ev → Bool
  | [] => false
  | .subscribeType u j :: h => if u = t ∧ j = i then true else onType t i h
  | .unsubscribeType u j :: h => if u = t ∧ j = i then false else onType t i h
  | .record r _ _ _ slow2 :: h => if r.aggType = t then onType t i h && !slow2 i else onType t i h
  | _ :: h => onType t i h

/-- What subscriber `i` must have been sent after the history (newest event first): each record once for
its registration for all events and once for that for the record's type, unless the send timed out. -/
def expected (i : Nat) : List Ev → List Record
  | [] => []
  | .record r _ _ slow1 slow2 :: h =>
    expected i h ++ (if onAll i h && !slow1 i then [r] else [])
      ++ (if onType r.aggType i h && !slow2 i then [r] else [])
  | _ :: h => expected i h

/-- How often subscriber `i` must have been stopped by timeouts (newest event first). -/
def timeouts (i : Nat) : List Ev → Nat
  | [] => 0
  | .record r _ _ slow1 slow2 :: h =>
    timeouts i h + (if onAll i h && slow1 i then 1 else 0)
      + (if onType r.aggType i h && slow2 i then 1 else 0)
  | _ :: h => timeouts i h

/-! ## Proof -/

theorem mem_insert {α : Type} [DecidableEq α] {l : List α} {i j : α} : j ∈ insert l i ↔ j ∈ l ∨ j = i := by
  unfold insert
  split
  · constructor
    · exact Or.inl
    · rintro (h | rfl)
      · exact h
      · assumption
  · simp

theorem nodup_insert {α : Type} [DecidableEq α] {l : List α} {i : α} (h : l.Nodup) :
    (insert l i).Nodup := by
  unfold insert
  split
  · exact h
  · rename_i hn
    rw [List.nodup_append]
    refine ⟨h, by simp, ?_⟩
    intro a ha b hb hab
    simp only [List.mem_singleton] at hb
    subst hb hab
    exact hn ha

/-- What a send loop does to one subscriber. -/
theorem sendLoop_sent (r : Record) (slow : Nat → Bool) (del : State → Nat → State)
    (hd1 : ∀ s i, (del s i).sent = s.sent) (hd2 : ∀ s i, (del s i).stops = s.stops) (i : Nat) :
    ∀ (o : List Nat) (s : State), o.Nodup →
      (sendLoop r slow del o s).sent i
        = s.sent i ++ (if i ∈ o ∧ slow i = false then [r] else []) ∧
      (sendLoop r slow del o s).stops i
        = s.stops i + (if i ∈ o ∧ slow i = true then 1 else 0) := by
  intro o
  induction o with
  | nil => intro s _; simp [sendLoop]
  | cons j o ih =>
    intro s hn
    rw [List.nodup_cons] at hn
    simp only [sendLoop]
    by_cases hs : slow j = true
    · rw [if_pos hs]
      obtain ⟨h1, h2⟩ := ih (stop1 (del s j) j) hn.2
      rw [h1, h2]
      simp only [stop1, hd1, hd2]
      by_cases hij : i = j
      · subst hij
        simp [hn.1, hs]
      · simp [hij]
    · rw [if_neg hs]
      obtain ⟨h1, h2⟩ := ih (send1 r s j) hn.2
      rw [h1, h2]
      simp only [send1]
      by_cases hij : i = j
      · subst hij
        simp [hn.1, hs]
      · simp [hij]

theorem sendLoop_all (r : Record) (slow : Nat → Bool) : ∀ (o : List Nat) (s : State), s.all.Nodup →
    (sendLoop r slow (fun s i => { s with all := s.all.erase i }) o s).all.Nodup ∧
    (sendLoop r slow (fun s i => { s with all := s.all.erase i }) o s).byType = s.byType ∧
    (sendLoop r slow (fun s i => { s with all := s.all.erase i }) o s).closed = s.closed ∧
    ∀ i, i ∈ (sendLoop r slow (fun s i => { s with all := s.all.erase i }) o s).all
      ↔ i ∈ s.all ∧ ¬ (i ∈ o ∧ slow i = true) := by
  intro o
  induction o with
  | nil => intro s h; simp [sendLoop, h]
  | cons j o ih =>
    intro s hn
    simp only [sendLoop]
    by_cases hs : slow j = true
    · rw [if_pos hs]
      obtain ⟨h1, h2, h3, h4⟩ := ih (stop1 { s with all := s.all.erase j } j) (hn.erase j)
      refine ⟨h1, h2, h3, fun i => ?_⟩
      rw [h4]
      simp only [stop1]
      rw [List.Nodup.mem_erase_iff hn]
      simp only [List.mem_cons]
      constructor
      · rintro ⟨⟨h5, h6⟩, h7⟩
        refine ⟨h6, ?_⟩
        rintro ⟨rfl | h8, h9⟩
        · exact h5 rfl
        · exact h7 ⟨h8, h9⟩
      · rintro ⟨h5, h6⟩
        refine ⟨⟨?_, h5⟩, fun h => h6 ⟨Or.inr h.1, h.2⟩⟩
        rintro rfl
        exact h6 ⟨Or.inl rfl, hs⟩
    · rw [if_neg hs]
      obtain ⟨h1, h2, h3, h4⟩ := ih (send1 r s j) hn
      refine ⟨h1, h2, h3, fun i => ?_⟩
      rw [h4]
      simp only [send1, List.mem_cons]
      constructor
      · rintro ⟨h6, h7⟩
        refine ⟨h6, ?_⟩
        rintro ⟨rfl | h8, h9⟩
        · exact hs h9
        · exact h7 ⟨h8, h9⟩
      · rintro ⟨h5, h6⟩
        exact ⟨h5, fun h => h6 ⟨Or.inr h.1, h.2⟩⟩

theorem sendLoop_type (r : Record) (t : Str) (slow : Nat → Bool) : ∀ (o : List Nat) (s : State),
    s.byType.Nodup →
    (sendLoop r slow (fun s i => { s with byType := s.byType.erase (t, i) }) o s).byType.Nodup ∧
    (sendLoop r slow (fun s i => { s with byType := s.byType.erase (t, i) }) o s).all = s.all ∧
    (sendLoop r slow (fun s i => { s with byType := s.byType.erase (t, i) }) o s).closed = s.closed ∧
    ∀ u i, (u, i) ∈ (sendLoop r slow (fun s i => { s with byType := s.byType.erase (t, i) }) o s).byType
      ↔ (u, i) ∈ s.byType ∧ ¬ (u = t ∧ i ∈ o ∧ slow i = true) := by
  intro o
  induction o with
  | nil => intro s h; simp [sendLoop, h]
  | cons j o ih =>
    intro s hn
    simp only [sendLoop]
    by_cases hs : slow j = true
    · rw [if_pos hs]
      obtain ⟨h1, h2, h3, h4⟩ := ih (stop1 { s with byType := s.byType.erase (t, j) } j) (hn.erase _)
      refine ⟨h1, h2, h3, fun u i => ?_⟩
      rw [h4]
      simp only [stop1]
      rw [List.Nodup.mem_erase_iff hn]
      simp only [List.mem_cons, ne_eq, Prod.mk.injEq]
      constructor
      · rintro ⟨⟨h5, h6⟩, h7⟩
        refine ⟨h6, ?_⟩
        rintro ⟨h0, rfl | h8, h9⟩
        · exact h5 ⟨h0, rfl⟩
        · exact h7 ⟨h0, h8, h9⟩
      · rintro ⟨h5, h6⟩
        refine ⟨⟨?_, h5⟩, fun h => h6 ⟨h.1, Or.inr h.2.1, h.2.2⟩⟩
        rintro ⟨rfl, rfl⟩
        exact h6 ⟨rfl, Or.inl rfl, hs⟩
    · rw [if_neg hs]
      obtain ⟨h1, h2, h3, h4⟩ := ih (send1 r s j) hn
      refine ⟨h1, h2, h3, fun u i => ?_⟩
      rw [h4]
      simp only [send1, List.mem_cons]
      constructor
      · rintro ⟨h6, h7⟩
        refine ⟨h6, ?_⟩
        rintro ⟨h0, rfl | h8, h9⟩
        · exact hs h9
        · exact h7 ⟨h0, h8, h9⟩
      · rintro ⟨h5, h6⟩
        exact ⟨h5, fun h => h6 ⟨h.1, Or.inr h.2.1, h.2.2⟩⟩

theorem mem_ofType {s : State} {t : Str} {i : Nat} : i ∈ ofType s t ↔ (t, i) ∈ s.byType := by
  simp only [ofType, List.mem_map, List.mem_filter, decide_eq_true_eq]
  constructor
  · rintro ⟨⟨u, j⟩, ⟨h1, h2⟩, h3⟩
    simp only at h2 h3
    subst h2 h3
    exact h1
  · intro h
    exact ⟨(t, i), ⟨h, rfl⟩, rfl⟩

theorem nodup_ofType {s : State} (t : Str) (h : s.byType.Nodup) : (ofType s t).Nodup := by
  unfold ofType
  rw [List.nodup_iff_pairwise_ne, List.pairwise_map, List.pairwise_filter]
  refine (List.nodup_iff_pairwise_ne.mp h).imp ?_
  intro a b hab ha hb heq
  simp only [decide_eq_true_eq] at ha hb
  apply hab
  rw [Prod.ext_iff]
  exact ⟨ha.trans hb.symm, heq⟩

/-- The invariant linking the maps to the history. -/
structure Inv (h : List Ev) (s : State) : Prop where
  all : ∀ i, i ∈ s.all ↔ onAll i h = true
  nd : s.all.Nodup
  byType : ∀ t i, (t, i) ∈ s.byType ↔ onType t i h = true
  ndT : s.byType.Nodup
  sent : ∀ i, s.sent i = expected i h

theorem foldl_stop1 (o : List Nat) : ∀ (s : State), (o.foldl stop1 s).all = s.all ∧
    (o.foldl stop1 s).byType = s.byType ∧ (o.foldl stop1 s).sent = s.sent ∧
    ∀ i, (o.foldl stop1 s).stops i = s.stops i + o.count i := by
  induction o with
  | nil => intro s; simp
  | cons j o ih =>
    intro s
    obtain ⟨h1, h2, h3, h4⟩ := ih (stop1 s j)
    simp only [List.foldl_cons]
    refine ⟨h1, h2, h3, fun i => ?_⟩
    rw [h4]
    simp only [stop1]
    by_cases hij : i = j
    · subst hij; simp; omega
    · rw [if_neg hij, List.count_cons_of_ne (fun h => hij h.symm)]

theorem inv_step {h : List Ev} {s s' : State} (hI : Inv h s) (e : Ev) (hs : step s e = some s') :
    Inv (e :: h) s' ∧ ((∀ i, s.stops i = timeouts i h) →
      (∀ o1 o2, e ≠ .stop o1 o2) → ∀ i, s'.stops i = timeouts i (e :: h)) := by
  unfold step at hs
  split at hs
  · simp at hs
  cases e with
  | subscribeAll j =>
    obtain rfl := Option.some.inj hs
    refine ⟨⟨?_, nodup_insert hI.nd, hI.byType, hI.ndT, hI.sent⟩, fun h _ => h⟩
    intro i
    rw [mem_insert, hI.all]
    simp only [onAll]
    by_cases hij : j = i
    · simp [hij]
    · rw [if_neg hij]
      constructor
      · rintro (h | h)
        · exact h
        · exact absurd h.symm hij
      · exact Or.inl
  | unsubscribeAll j =>
    obtain rfl := Option.some.inj hs
    refine ⟨⟨?_, hI.nd.erase _, hI.byType, hI.ndT, hI.sent⟩, fun h _ => h⟩
    intro i
    rw [List.Nodup.mem_erase_iff hI.nd, hI.all]
    simp only [onAll]
    by_cases hij : j = i
    · simp [hij]
    · rw [if_neg hij]
      exact ⟨fun h => h.2, fun h => ⟨fun h => hij h.symm, h⟩⟩
  | subscribeType t j =>
    obtain rfl := Option.some.inj hs
    refine ⟨⟨hI.all, hI.nd, ?_, nodup_insert hI.ndT, hI.sent⟩, fun h _ => h⟩
    intro u i
    rw [mem_insert, hI.byType]
    simp only [onType, Prod.mk.injEq]
    by_cases hij : t = u ∧ j = i
    · rw [if_pos hij]; simp [hij.1, hij.2]
    · rw [if_neg hij]
      constructor
      · rintro (h | h)
        · exact h
        · exact absurd ⟨h.1.symm, h.2.symm⟩ hij
      · exact Or.inl
  | unsubscribeType t j =>
    obtain rfl := Option.some.inj hs
    refine ⟨⟨hI.all, hI.nd, ?_, hI.ndT.erase _, hI.sent⟩, fun h _ => h⟩
    intro u i
    rw [List.Nodup.mem_erase_iff hI.ndT, hI.byType]
    simp only [onType, ne_eq, Prod.mk.injEq]
    by_cases hij : t = u ∧ j = i
    · rw [if_pos hij]; simp [hij.1, hij.2]
    · rw [if_neg hij]
      exact ⟨fun h => h.2, fun h => ⟨fun h => hij ⟨h.1.symm, h.2.symm⟩, h⟩⟩
  | record r o1 o2 slow1 slow2 =>
    simp only at hs
    split at hs
    · rename_i hp
      obtain ⟨hp1, hp2⟩ := hp
      rw [List.isPerm_iff] at hp1 hp2
      obtain rfl := Option.some.inj hs
      obtain ⟨a1, a2, a3, a4⟩ := sendLoop_all r slow1 o1 s hI.nd
      have b := sendLoop_sent r slow1 (fun s i => { s with all := s.all.erase i })
        (fun _ _ => rfl) (fun _ _ => rfl)
      generalize hs1 : sendLoop r slow1 (fun s i => { s with all := s.all.erase i }) o1 s = s1 at *
      obtain ⟨c1, c2, c3, c4⟩ := sendLoop_type r r.aggType slow2 o2 s1 (a2 ▸ hI.ndT)
      have d := sendLoop_sent r slow2 (fun s i => { s with byType := s.byType.erase (r.aggType, i) })
        (fun _ _ => rfl) (fun _ _ => rfl)
      have hn1 : o1.Nodup := hp1.nodup_iff.mpr hI.nd
      have hn2 : o2.Nodup := hp2.nodup_iff.mpr (nodup_ofType _ hI.ndT)
      have hm1 : ∀ i, i ∈ o1 ↔ onAll i h = true := fun i => hp1.mem_iff.trans (hI.all i)
      have hm2 : ∀ i, i ∈ o2 ↔ onType r.aggType i h = true := fun i =>
        hp2.mem_iff.trans (mem_ofType.trans (hI.byType _ i))
      refine ⟨⟨?_, by rw [c2]; exact a1, ?_, c1, ?_⟩, ?_⟩
      · intro i
        rw [c2, a4, hI.all, hm1]
        simp only [onAll]
        cases onAll i h <;> cases slow1 i <;> simp
      · intro t i
        rw [c4, a2, hI.byType, hm2]
        simp only [onType]
        by_cases ht : r.aggType = t
        · subst ht
          rw [if_pos rfl]
          cases onType r.aggType i h <;> cases slow2 i <;> simp
        · rw [if_neg ht]
          exact ⟨fun h => h.1, fun h => ⟨h, fun h' => ht h'.1.symm⟩⟩
      · intro i
        rw [(d i o2 s1 hn2).1, ← hs1, (b i o1 s hn1).1, hI.sent]
        simp only [expected, hm1, hm2]
        congr 1
        · congr 1
          cases onAll i h <;> cases slow1 i <;> simp
        · cases onType r.aggType i h <;> cases slow2 i <;> simp
      · intro hst _ i
        rw [(d i o2 s1 hn2).2, ← hs1, (b i o1 s hn1).2, hst]
        simp only [timeouts, hm1, hm2]
        congr 1
        · congr 1
          cases onAll i h <;> cases slow1 i <;> simp
        · cases onType r.aggType i h <;> cases slow2 i <;> simp
    · simp at hs
  | stop o1 o2 =>
    simp only at hs
    split at hs
    · obtain rfl := Option.some.inj hs
      obtain ⟨e1, e2, e3, _⟩ := foldl_stop1 (o2.map (·.2)) (o1.foldl stop1 s)
      obtain ⟨f1, f2, f3, _⟩ := foldl_stop1 o1 s
      refine ⟨⟨?_, ?_, ?_, ?_, ?_⟩, fun _ h => absurd rfl (h _ _)⟩
      · intro i; show i ∈ (State.all _) ↔ _; rw [e1, f1]; exact hI.all i
      · show (State.all _).Nodup; rw [e1, f1]; exact hI.nd
      · intro t i; show _ ∈ (State.byType _) ↔ _; rw [e2, f2]; exact hI.byType t i
      · show (State.byType _).Nodup; rw [e2, f2]; exact hI.ndT
      · intro i; show (State.sent _) i = _; rw [e3, f3]; exact hI.sent i
    · simp at hs

theorem inv_run (es : List Ev) : ∀ {h : List Ev} {s s' : State}, Inv h s → run s es = some s' →
    Inv (es.reverse ++ h) s' := by
  induction es with
  | nil => intro h s s' hI hs; simp only [run] at hs; obtain rfl := Option.some.inj hs; exact hI
  | cons e es ih =>
    intro h s s' hI hs
    simp only [run] at hs
    split at hs
    · simp at hs
    · rename_i s1 h1
      have := ih (inv_step hI e h1).1 hs
      simpa using this

theorem inv_init : Inv [] init where
  all := by simp [init, onAll]
  nd := by simp [init]
  byType := by simp [init, onType]
  ndT := by simp [init]
  sent := by simp [init, expected]

/-! ## The property -/

/-- **C22**, deliveries. Whatever sequence of registrations, removals, records and timeouts the
broadcaster goes through, and in whatever order it visits its subscribers, subscriber `i` has been sent
exactly the records its own registrations call for, in broadcast order: nothing that other subscribers do
(their registrations, removals and timeouts) changes it. -/
theorem C22_deliveries (es : List Ev) (s : State) (h : run init es = some s) (i : Nat) :
    s.sent i = expected i es.reverse := by
  have := (inv_run es inv_init h).sent i
  simpa using this

/-- **C22**, removal. A subscriber whose send of record `r` times out is removed from the map in which it
was visited and stopped once; the others stay registered and receive `r`. -/
theorem C22_timeout (es : List Ev) (s s' : State) (h : run init es = some s) (r : Record)
    (o1 o2 : List Nat) (slow1 slow2 : Nat → Bool)
    (hs : step s (.record r o1 o2 slow1 slow2) = some s') (i : Nat) :
    (i ∈ s.all → slow1 i = true → i ∉ s'.all) ∧
    (i ∈ s.all → slow1 i = false → i ∈ s'.all) ∧
    ((r.aggType, i) ∈ s.byType → slow2 i = true → (r.aggType, i) ∉ s'.byType) ∧
    ((r.aggType, i) ∈ s.byType → slow2 i = false → (r.aggType, i) ∈ s'.byType) ∧
    (∀ t, t ≠ r.aggType → ((t, i) ∈ s'.byType ↔ (t, i) ∈ s.byType)) := by
  have hI := inv_run es inv_init h
  obtain ⟨hI', _⟩ := inv_step hI _ hs
  rw [hI.all, hI.byType, hI'.all, hI'.byType]
  simp only [onAll, onType]
  refine ⟨?_, ?_, ?_, ?_, ?_⟩
  · intro h1 h2; simp [h2]
  · intro h1 h2; simp [h2]; simpa using h1
  · intro h1 h2; simp [h2]
  · intro h1 h2; simp [h2]; simpa using h1
  · intro t ht
    rw [hI.byType, hI'.byType]
    simp only [onType]
    rw [if_neg (fun h => ht h.symm)]

/-- **C22**, stops: before the broadcaster is closed a subscriber has been stopped exactly as often as a
send to it timed out; in particular never, if none did. -/
theorem C22_stops (es : List Ev) (s : State) (h : run init es = some s)
    (hc : ∀ o1 o2, Ev.stop o1 o2 ∉ es) (i : Nat) : s.stops i = timeouts i es.reverse := by
  suffices H : ∀ (es h0 : List Ev) (s0 : State), Inv h0 s0 → (∀ i, s0.stops i = timeouts i h0) →
      run s0 es = some s → (∀ o1 o2, Ev.stop o1 o2 ∉ es) →
      ∀ i, s.stops i = timeouts i (es.reverse ++ h0) by
    have := H es [] init inv_init (by simp [init, timeouts]) h hc i
    simpa using this
  intro es
  induction es with
  | nil => intro h0 s0 _ hst hs _ i; simp only [run] at hs; obtain rfl := Option.some.inj hs; exact hst i
  | cons e es ih =>
    intro h0 s0 hI hst hs hcl i
    simp only [run] at hs
    split at hs
    · simp at hs
    · rename_i s1 h1
      obtain ⟨hI', hst'⟩ := inv_step hI e h1
      have := ih (e :: h0) s1 hI' (hst' hst (fun o1 o2 he => hcl o1 o2 (by simp [he]))) hs
        (fun o1 o2 hm => hcl o1 o2 (by simp [hm])) i
      simpa using this

/-- **C22**, closing stops every registered subscriber, and nothing is sent or registered afterwards. -/
theorem C22_close (es : List Ev) (s s' : State) (h : run init es = some s) (o1 : List Nat)
    (o2 : List (Str × Nat)) (hs : step s (.stop o1 o2) = some s') :
    (∀ i, (i ∈ s.all ∨ ∃ t, (t, i) ∈ s.byType) → s.stops i < s'.stops i) ∧
    s'.sent = s.sent ∧ ∀ e, step s' e = none := by
  have hI := inv_run es inv_init h
  unfold step at hs
  split at hs
  · simp at hs
  simp only at hs
  split at hs
  · rename_i hp
    obtain ⟨hp1, hp2⟩ := hp
    rw [List.isPerm_iff] at hp1 hp2
    obtain rfl := Option.some.inj hs
    obtain ⟨_, _, e3, e4⟩ := foldl_stop1 (o2.map (·.2)) (o1.foldl stop1 s)
    obtain ⟨_, _, f3, f4⟩ := foldl_stop1 o1 s
    refine ⟨?_, by show State.sent _ = _; rw [e3, f3], by intro e; simp [step]⟩
    intro i hi
    show _ < State.stops _ i
    rw [e4, f4]
    rcases hi with hi | ⟨t, hi⟩
    · have : 0 < o1.count i := List.count_pos_iff.mpr (hp1.mem_iff.mpr hi)
      omega
    · have : 0 < (o2.map (·.2)).count i :=
        List.count_pos_iff.mpr (List.mem_map.mpr ⟨(t, i), hp2.mem_iff.mpr hi, rfl⟩)
      omega
  · simp at hs

open Demo in
/-- Two subscribers; the second one times out on the second record, the first one gets all three. -/
example : (run init [.subscribeAll 1, .subscribeAll 2, .subscribeType [65] 3,
    .record (mkRecord sA 1 1 (evA [1])) [2, 1] [3] (fun _ => false) (fun _ => false),
    .record (mkRecord sB 2 1 (evB [1])) [1, 2] [] (fun i => i == 2) (fun _ => false),
    .record (mkRecord sA 3 2 (evA [1])) [1] [3] (fun _ => false) (fun _ => false)]).map
      (fun s => ((s.sent 1).map (·.gsn), (s.sent 2).map (·.gsn), (s.sent 3).map (·.gsn), s.stops 2))
    = some ([1, 2, 3], [1], [1, 3], 1) := by decide

end RangeDB.Bc

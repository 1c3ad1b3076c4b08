import Verif.Model.Bdd
import Verif.Thm.InMemory
import Verif.Thm.Optimistic

/-!
# What a passing Given/When/Then test says: C92
-/

namespace RangeDB.Bdd

open IM

/-- The calls that `Given` makes. -/
def saves (previous : List EventRecord) : List Op := previous.map (fun er => .save (streamOf er.event) none none [er])

/-- The new store of the test case when the command is dispatched. -/
def before (z : Serializer) (c : Case) : State := run z (saves c.previous)

/-- The store when the command has been dispatched. -/
def after (z : Serializer) (c : Case) : State := run z (saves c.previous ++ c.dispatch (before z c))

/-- The records the command raised: those a reader of all events sees after the command but not before it. Meant for commands
that only save. -/
def raised (z : Serializer) (c : Case) : List Record :=
  (events z (after z c) none 0).recs.drop (events z (before z c) none 0).recs.length

/-- The command only saves events (as all commands do that are handled by an aggregate). -/
def OnlySaves (z : Serializer) (c : Case) : Prop :=
  ∀ op ∈ c.dispatch (before z c), op.Guarded z ∧ ∃ st e k ers, op = .save st e k ers

/-- All events of `Given` can be saved. -/
def CanSave (z : Serializer) (c : Case) : Prop :=
  ∀ er ∈ c.previous, ∀ g q, (z.ser (mkRecord (streamOf er.event) g q er)).isSome

/-- The full statement of **C92**: if `Then(expected...)` passes on a new store, then the command raised the expected events,
each once, and no others. -/
def C92_full : Prop :=
  ∀ (z : Serializer), z.Lawful → ∀ (c : Case), CanSave z c → OnlySaves z c → ∀ expected : List Event,
    thenPasses z c IM.init expected = true → ∃ vs, (raised z c).mapM c.asValue = some vs ∧ vs.Perm expected

/-! ## The store after Given and after the command -/

variable {z : Serializer}

theorem saves_guarded (previous : List EventRecord) : ∀ op ∈ saves previous, op.Guarded z := by
  intro op ho
  obtain ⟨er, _, rfl⟩ := List.mem_map.mp ho
  exact Or.inr (Or.inr (Nat.le_refl 1))

theorem problem_none {L : Log} {st : Str} {er : EventRecord}
    (h : ∀ g q, (z.ser (mkRecord st g q er)).isSome) : batchProblem z L st none none [er] = none := by
  simp [batchProblem, firstProblem, problem, differs, ctxDone, h]

/-- `Given` on a store in a reachable state: it succeeds, and the store is the one after the saves. -/
theorem given_run (hz : z.Lawful) : ∀ (previous : List EventRecord) (s : State) (L : Log), L.WF → Sim z s L →
    (∀ er ∈ previous, ∀ g q, (z.ser (mkRecord (streamOf er.event) g q er)).isSome) →
    given z s previous = some ((saves previous).foldl (step z) s)
  | [], _, _, _, _, _ => rfl
  | er :: ers, s, L, hL, h, hs => by
    have hp := problem_none (L := L) (hs er (by simp))
    have hg : Guarded z (streamOf er.event) [er] := Or.inr (Or.inr (Nat.le_refl 1))
    obtain ⟨e1, e2, e3⟩ := (saveEvents_spec hz hL h (streamOf er.event) none none [er] hg (by simp)).1 hp
    have hb : blockingSave z s er = some (saveEvents z s (streamOf er.event) none none [er]).state := by
      simp only [blockingSave, e1, e3]
      rw [if_pos (by simp)]
    simp only [given, hb, saves, List.map_cons, List.foldl_cons]
    exact given_run hz ers _ _ (hL.append hz _ _) e2 (fun e he => hs e (by simp [he]))

theorem specSaves (hz : z.Lawful) (st : Str) : ∀ (previous : List EventRecord) (L : Log),
    (∀ er ∈ previous, ∀ g q, (z.ser (mkRecord (streamOf er.event) g q er)).isSome) →
    (((saves previous).foldl (specStep z) L).recs.length = L.recs.length + previous.length) ∧
    ((saves previous).foldl (specStep z) L).streamLen st = L.streamLen st + previousCount previous st
  | [], L, _ => by simp [saves, previousCount]
  | er :: ers, L, hs => by
    have hp := problem_none (L := L) (hs er (by simp))
    have ih := specSaves hz st ers (L.append z.view (streamOf er.event) [er]) (fun e he => hs e (by simp [he]))
    simp only [saves, List.map_cons, List.foldl_cons, specStep, hp, List.cons_ne_nil, if_false] at ih ⊢
    refine ⟨?_, ?_⟩
    · rw [ih.1]
      simp [Log.append, numbered]
      omega
    · rw [ih.2]
      by_cases e : streamOf er.event = st
      · subst e
        rw [Log.streamLen_append_self hz]
        simp [previousCount]
        omega
      · have : (L.append z.view (streamOf er.event) [er]).streamLen st = L.streamLen st := by
          unfold Log.streamLen
          rw [Log.stream_append_other hz L [er] (Ne.symm e)]
        rw [this]
        simp [previousCount, e]

theorem specStep_saves {L : Log} {st : Str} {e k : Option Nat} {ers : List EventRecord} :
    ∃ x, (specStep z L (.save st e k ers)).recs = L.recs ++ x := by
  simp only [specStep]
  split
  · exact ⟨[], by simp⟩
  · split
    · exact ⟨_, rfl⟩
    · unfold afterFail
      split
      · exact ⟨[], by simp⟩
      · exact ⟨[], by simp⟩
      · exact ⟨_, rfl⟩

theorem specRun_saves : ∀ (ops : List Op) (L : Log), (∀ op ∈ ops, ∃ st e k ers, op = .save st e k ers) →
    ∃ x, (ops.foldl (specStep z) L).recs = L.recs ++ x
  | [], L, _ => ⟨[], by simp⟩
  | op :: ops, L, h => by
    obtain ⟨st, e, k, ers, rfl⟩ := h op (by simp)
    obtain ⟨x, hx⟩ := specStep_saves (z := z) (L := L) (st := st) (e := e) (k := k) (ers := ers)
    obtain ⟨y, hy⟩ := specRun_saves ops (specStep z L (.save st e k ers)) (fun o ho => h o (by simp [ho]))
    exact ⟨x ++ y, by rw [List.foldl_cons, hy, hx, List.append_assoc]⟩

/-- In a stream numbered 1, 2, ..., the records from number `n + 1` on are those after the first `n`. -/
theorem from_seq : ∀ (l : List Record) (k n : Nat), l.map (·.seq) = List.range' k l.length → k ≤ n + 1 →
    l.filter (fun r => r.seq ≥ n + 1) = l.drop (n + 1 - k)
  | [], _, _, _, _ => by simp
  | r :: l, k, n, h, hk => by
    simp only [List.map_cons, List.length_cons, List.range'_succ, List.cons.injEq] at h
    by_cases e : n + 1 = k
    · rw [show n + 1 - k = 0 by omega, List.drop_zero]
      refine List.filter_eq_self.mpr ?_
      intro r' hr'
      have : r'.seq ∈ List.range' k (l.length + 1) := by
        rw [List.range'_succ, ← h.2, ← h.1]
        rw [show r.seq :: l.map (·.seq) = (r :: l).map (·.seq) from rfl]
        exact List.mem_map_of_mem hr'
      simp only [List.mem_range'_1] at this
      simp
      omega
    · rw [List.filter_cons_of_neg (by simp; omega), from_seq l (k + 1) n h.2 (by omega),
        show n + 1 - k = (n + 1 - (k + 1)) + 1 by omega, List.drop_succ_cons]

/-- What the store holds after `Given` and after the command. -/
theorem logs (hz : z.Lawful) (c : Case) (hc : CanSave z c) (ho : OnlySaves z c) :
    given z IM.init c.previous = some (before z c) ∧
    (c.dispatch (before z c)).foldl (step z) (before z c) = after z c ∧
    (events z (after z c) none 0).recs = (events z (before z c) none 0).recs ++ raised z c ∧
    (events z (before z c) none 0).recs.length = c.previous.length ∧
    ∀ st, (eventsByStream z (after z c) none (previousCount c.previous st + 1) st).recs =
      (raised z c).filter (fun r => r.streamName = st) := by
  have hsim1 := (run_sim hz (saves c.previous) (saves_guarded _)).2
  have hg2 : ∀ op ∈ saves c.previous ++ c.dispatch (before z c), op.Guarded z := by
    intro op h
    rcases List.mem_append.mp h with h | h
    · exact saves_guarded _ op h
    · exact (ho op h).1
  obtain ⟨hwf2, hsim2⟩ := run_sim hz _ hg2
  obtain ⟨x, hx⟩ := specRun_saves (z := z) (c.dispatch (before z c)) (specRun z (saves c.previous)) (fun op h => (ho op h).2)
  have e : (c.dispatch (before z c)).foldl (specStep z) (specRun z (saves c.previous)) =
      specRun z (saves c.previous ++ c.dispatch (before z c)) := by
    simp [specRun, List.foldl_append]
  rw [e] at hx
  have hall : ∀ l : List Record, l.filter (fun r => decide (r.gsn ≥ 0)) = l := fun l => List.filter_eq_self.mpr (by simp)
  have ev1 : (events z (before z c) none 0).recs = (specRun z (saves c.previous)).recs := by
    unfold before
    rw [events_spec hsim1]
    exact hall _
  have ev2 : (events z (after z c) none 0).recs = (specRun z (saves c.previous ++ c.dispatch (before z c))).recs := by
    unfold after
    rw [events_spec hsim2]
    exact hall _
  have hra : raised z c = x := by
    unfold raised
    rw [ev1, ev2, hx, List.drop_left]
  refine ⟨?_, ?_, ?_, ?_, ?_⟩
  · exact given_run hz c.previous IM.init Log.empty Log.WF.empty sim_init hc
  · simp only [before, after, run, List.foldl_append]
  · rw [hra, ev1, ev2, hx]
  · rw [ev1, specRun, (specSaves hz [] c.previous Log.empty hc).1]
    simp [Log.empty]
  · intro st
    have hlen := (specSaves hz st c.previous Log.empty hc).2
    rw [show Log.empty.streamLen st = 0 from rfl, Nat.zero_add] at hlen
    have hst : (specRun z (saves c.previous ++ c.dispatch (before z c))).stream st =
        (specRun z (saves c.previous)).stream st ++ x.filter (fun r => r.streamName = st) := by
      unfold Log.stream
      rw [hx, List.filter_append]
    have hfil : ((specRun z (saves c.previous ++ c.dispatch (before z c))).stream st).filter
        (fun r => r.seq ≥ previousCount c.previous st + 1) = x.filter (fun r => r.streamName = st) := by
      rw [from_seq _ 1 _ (hwf2.contiguous st) (by omega), hst]
      have : previousCount c.previous st + 1 - 1 = ((specRun z (saves c.previous)).stream st).length := by
        have : (specRun z (saves c.previous)).streamLen st = previousCount c.previous st := hlen
        unfold Log.streamLen at this
        omega
      rw [this, List.drop_left]
    unfold after
    rw [eventsByStream_spec hsim2, hra]
    split
    · rename_i h0
      have : (specRun z (saves c.previous ++ c.dispatch (before z c))).stream st = [] := List.length_eq_zero_iff.mp h0
      rw [hst] at this
      exact (List.append_eq_nil_iff.mp this).2.symm
    · exact hfil

theorem mapM_len {f : Record → Option Event} : ∀ {l : List Record} {vs : List Event}, l.mapM f = some vs → l.length = vs.length
  | [], vs, h => by simp at h; subst h; rfl
  | r :: l, vs, h => by
    simp only [List.mapM_cons, Option.bind_eq_bind, Option.bind_eq_some_iff, Option.pure_def, Option.some.injEq] at h
    obtain ⟨v, _, ws, hw, rfl⟩ := h
    simp [mapM_len hw]

/-! ## Then -/

/-- **C92**, partial: on a new store, and for a command that only saves, `Then(expected...)` with at least one event passes
exactly if, in every stream for which an event is expected, the events the command raised are the expected ones in the expected
order. Missing: streams for which no event is expected, see `C92_false`; stores that are not new, see `C92_false_old_store`. -/
theorem C92_partial (hz : z.Lawful) (c : Case) (hc : CanSave z c) (ho : OnlySaves z c) (expected : List Event)
    (hne : expected ≠ []) :
    thenPasses z c IM.init expected = true ↔
      ∀ e ∈ expected, ((raised z c).filter (fun r => r.streamName = streamOf e)).mapM c.asValue =
        some (expected.filter (fun e' => streamOf e' = streamOf e)) := by
  obtain ⟨h1, h2, _, _, h5⟩ := logs hz c hc ho
  simp only [thenPasses, h1, h2, if_neg hne, List.all_eq_true, toSlice, h5, beq_iff_eq]

/-- **C92**, no events expected: on a new store, and for a command that only saves, `Then()` passes exactly if the command raised
nothing and the types of all previous events are bound. -/
theorem C92_no_events (hz : z.Lawful) (c : Case) (hc : CanSave z c) (ho : OnlySaves z c) :
    thenPasses z c IM.init [] = true ↔
      raised z c = [] ∧ ((events z (before z c) none 0).recs.mapM c.asValue).isSome := by
  obtain ⟨h1, h2, h3, h4, _⟩ := logs hz c hc ho
  simp only [thenPasses, h1, h2, if_true, toSlice, h3]
  constructor
  · intro h
    split at h
    · cases h
    · rename_i all ha
      have hl : all.length = c.previous.length := by
        have := of_decide_eq_true h
        omega
      have hlm : all.length = ((events z (before z c) none 0).recs ++ raised z c).length := by
        exact (mapM_len ha).symm
      rw [List.length_append, h4] at hlm
      have hr : raised z c = [] := List.length_eq_zero_iff.mp (by omega)
      rw [hr, List.append_nil] at ha
      exact ⟨hr, by rw [ha]; rfl⟩
  · rintro ⟨hr, hs⟩
    obtain ⟨vs, hv⟩ := Option.isSome_iff_exists.mp hs
    rw [hr, List.append_nil, hv]
    have := mapM_len hv
    simp only [decide_eq_true_eq]
    omega

theorem given_some (hz : z.Lawful) : ∀ (previous : List EventRecord) (s s' : State) (L : Log), L.WF → Sim z s L →
    given z s previous = some s' →
    s' = (saves previous).foldl (step z) s ∧ Sim z s' ((saves previous).foldl (specStep z) L) ∧
    ((saves previous).foldl (specStep z) L).recs.map (fun r => (r.streamName, r.aggType, r.aggId, r.evType)) =
      L.recs.map (fun r => (r.streamName, r.aggType, r.aggId, r.evType)) ++
        previous.map (fun er => (streamOf er.event, er.event.aggType, er.event.aggId, er.event.evType))
  | [], s, s', L, _, h, hg => by
    simp only [given, Option.some.injEq] at hg
    subst hg
    exact ⟨rfl, h, by simp [saves]⟩
  | er :: ers, s, s', L, hL, h, hg => by
    have hgd : Guarded z (streamOf er.event) [er] := Or.inr (Or.inr (Nat.le_refl 1))
    obtain ⟨hok, herr⟩ := saveEvents_spec hz hL h (streamOf er.event) none none [er] hgd (by simp)
    rcases hb : batchProblem z L (streamOf er.event) none none [er] with _ | ⟨j, e⟩
    · obtain ⟨e1, e2, e3⟩ := hok hb
      have hbs : blockingSave z s er = some (saveEvents z s (streamOf er.event) none none [er]).state := by
        simp only [blockingSave, e1, e3]
        rw [if_pos (by simp)]
      simp only [given, hbs] at hg
      obtain ⟨i1, i2, i3⟩ := given_some hz ers _ s' _ (hL.append hz _ _) e2 hg
      simp only [saves, List.map_cons, List.foldl_cons, specStep, hb, List.cons_ne_nil, if_false] at i1 i2 i3 ⊢
      refine ⟨i1, i2, ?_⟩
      rw [i3]
      simp [Log.append, numbered, mkRecord, hz.streamName, hz.aggType, hz.aggId, hz.evType]
    · obtain ⟨e1, _, _⟩ := herr j e hb
      simp only [given, blockingSave, e1] at hg
      cases hg

/-- **C92**, the events of `Given`: a test that passes has stored all of them. When the command was dispatched, a reader of all
events saw exactly the previous events, in their order and in the streams of their aggregates. No condition on the events: if
one cannot be saved, the test fails. -/
theorem C92_given (hz : z.Lawful) (c : Case) (expected : List Event) (h : thenPasses z c IM.init expected = true) :
    given z IM.init c.previous = some (before z c) ∧
    (events z (before z c) none 0).recs.map (fun r => (r.streamName, r.aggType, r.aggId, r.evType)) =
      c.previous.map (fun er => (streamOf er.event, er.event.aggType, er.event.aggId, er.event.evType)) := by
  rcases hg : given z IM.init c.previous with _ | s'
  · simp only [thenPasses, hg] at h
    cases h
  · obtain ⟨h1, h2, h3⟩ := given_some hz c.previous IM.init s' Log.empty Log.WF.empty sim_init hg
    have hb : s' = before z c := h1
    refine ⟨by rw [hb], ?_⟩
    rw [← hb, events_spec h2, show ((saves c.previous).foldl (specStep z) Log.empty).recs.filter (fun r => decide (r.gsn ≥ 0)) =
        ((saves c.previous).foldl (specStep z) Log.empty).recs from List.filter_eq_self.mpr (by simp)]
    simp only [cut, h3]
    simp [Log.empty]

open Demo in
/-- A dispatcher that makes these calls whatever the store holds; all event types are bound. -/
def demoCase (previous : List EventRecord) (ops : List Op) : Case where
  previous := previous
  dispatch := fun _ => ops
  asValue := fun r => some ⟨r.aggType, r.aggId, r.evType, r.data⟩

open Demo in
/-- **C92** is false: the command raises the expected event, and another one in another stream. -/
theorem C92_false : ¬ C92_full := by
  intro h
  obtain ⟨vs, h1, h2⟩ := h demo demo_lawful
    (demoCase [] [.save sA none none [evA [1]], .save sB none none [evB [2]]]) (by intro er he; cases he)
    (by
      intro op ho
      simp only [demoCase, List.mem_cons, List.not_mem_nil, or_false] at ho
      rcases ho with rfl | rfl
      · exact ⟨Or.inr (Or.inr (by decide)), _, _, _, _, rfl⟩
      · exact ⟨Or.inr (Or.inr (by decide)), _, _, _, _, rfl⟩)
    [(evA [1]).event] (by decide)
  have hl := mapM_len h1
  rw [h2.length_eq] at hl
  exact absurd hl (by decide)

open Demo in
/-- On a store that is not new, `Then` passes although the command raised nothing: what it expects was there before. And a test
whose command raises what is expected fails. -/
theorem C92_false_old_store :
    let s := run demo [.save sA none none [evA [1]]]
    thenPasses demo (demoCase [] []) s [(evA [1]).event] = true ∧
    thenPasses demo (demoCase [] [.save sA none none [evA [2]]]) s [(evA [2]).event] = false ∧
    thenPasses demo (demoCase [] []) s [] = false := by
  decide

open Demo in
/-- A command that deletes a stream of `Given` and raises another event passes `Then()`. -/
theorem C92_false_delete :
    thenPasses demo (demoCase [evA [1]] [.delete sA 1 false, .save sB none none [evB [2]]]) IM.init [] = true := by
  decide

open Demo in
example : CanSave demo (demoCase [evA [1], evB [3]] [.save sA none none [evA [2]]]) ∧
    thenPasses demo (demoCase [evA [1], evB [3]] [.save sA none none [evA [2]]]) IM.init [(evA [2]).event] = true ∧
    thenPasses demo (demoCase [evA [1], evB [3]] [.save sA none none [evA [2]]]) IM.init [(evA [3]).event] = false ∧
    thenPasses demo (demoCase [evA [1], evB [3]] []) IM.init [] = true := by
  refine ⟨?_, by decide, by decide, by decide⟩
  intro er he g q
  simp only [demoCase, List.mem_cons, List.not_mem_nil, or_false] at he
  rcases he with rfl | rfl <;> rfl

/-! ## ThenInspectEvents -/

theorem group_perm (R : List Record) : ∀ (keys : List Str), keys.Nodup →
    (keys.flatMap (fun k => R.filter (fun r => r.streamName = k))).Perm (R.filter (fun r => r.streamName ∈ keys))
  | [], _ => by simp
  | k :: ks, hd => by
    rw [List.nodup_cons] at hd
    rw [List.flatMap_cons]
    refine (List.Perm.append_left _ (group_perm R ks hd.2)).trans ?_
    have h1 : R.filter (fun r => r.streamName = k) =
        (R.filter (fun r => r.streamName ∈ k :: ks)).filter (fun r => r.streamName = k) := by
      rw [List.filter_filter]
      refine List.filter_congr (fun r _ => ?_)
      by_cases hr : r.streamName = k <;> simp [hr]
    have h2 : R.filter (fun r => r.streamName ∈ ks) =
        (R.filter (fun r => r.streamName ∈ k :: ks)).filter (fun r => !decide (r.streamName = k)) := by
      rw [List.filter_filter]
      refine List.filter_congr (fun r _ => ?_)
      by_cases hr : r.streamName = k
      · subst hr; simp [hd.1]
      · simp [hr]
    rw [h1, h2]
    exact List.filter_append_perm _ _

theorem collect_eq (asValue : Record → Option Event) (count : Str → Nat) (s : State) (R : List Record)
    (h : ∀ st, (eventsByStream z s none (count st + 1) st).recs = R.filter (fun r => r.streamName = st)) :
    ∀ keys : List Str, collect z asValue count s keys =
      (keys.flatMap (fun k => R.filter (fun r => r.streamName = k))).mapM asValue
  | [] => rfl
  | k :: ks => by
    rw [collect, List.flatMap_cons, List.mapM_append, toSlice, h k, collect_eq asValue count s R h ks]
    cases (R.filter (fun r => r.streamName = k)).mapM asValue with
    | none => rfl
    | some a => cases (ks.flatMap (fun k => R.filter (fun r => r.streamName = k))).mapM asValue <;> rfl

/-- **C92**, `ThenInspectEvents`: on a new store, for a command that only saves, and if every event lies in the stream named
after its aggregate, the function gets all events the command raised, grouped by stream in some order, each group in the order of
the stream; the test fails if one of them is of an unbound type. `order` is the order in which Go visits the names. -/
theorem C92_inspect (hz : z.Lawful) (c : Case) (hc : CanSave z c) (ho : OnlySaves z c) (order : List Str → List Str)
    (hnd : ∀ l, (order l).Nodup) (hmem : ∀ l st, st ∈ order l ↔ st ∈ l)
    (hown : ∀ r ∈ raised z c, r.streamName = getStream r.aggType r.aggId) :
    ∃ groups : List Record, groups.Perm (raised z c) ∧
      (∀ st, groups.filter (fun r => r.streamName = st) = (raised z c).filter (fun r => r.streamName = st)) ∧
      inspected z c IM.init order = groups.mapM c.asValue := by
  obtain ⟨h1, h2, h3, _, h5⟩ := logs hz c hc ho
  have hin : ∀ r ∈ raised z c, r.streamName ∈ order (aggregateStreams z (after z c)) := by
    intro r hr
    rw [hmem, hown r hr, aggregateStreams, h3]
    exact List.mem_map.mpr ⟨r, List.mem_append_right _ hr, rfl⟩
  refine ⟨_, (group_perm (raised z c) _ (hnd (aggregateStreams z (after z c)))).trans (List.Perm.of_eq ?_), ?_, ?_⟩
  · exact List.filter_eq_self.mpr (fun r hr => by simpa using hin r hr)
  · intro st
    have key : ∀ ks : List Str, ks.Nodup →
        (ks.flatMap (fun k => (raised z c).filter (fun r => r.streamName = k))).filter (fun r => r.streamName = st) =
          if st ∈ ks then (raised z c).filter (fun r => r.streamName = st) else [] := by
      intro ks
      induction ks with
      | nil => intro _; simp
      | cons k ks ih =>
        intro hd
        rw [List.nodup_cons] at hd
        rw [List.flatMap_cons, List.filter_append, ih hd.2]
        by_cases e : k = st
        · subst e
          rw [if_neg hd.1, if_pos (by simp), List.append_nil, List.filter_filter]
          simp
        · have : ((raised z c).filter (fun r => r.streamName = k)).filter (fun r => r.streamName = st) = [] := by
            rw [List.filter_filter, List.filter_eq_nil_iff]
            intro r _ hx
            simp at hx
            exact e (hx.2.symm.trans hx.1)
          rw [this, List.nil_append]
          simp [Ne.symm e]
    rw [key _ (hnd _)]
    split
    · rfl
    · rename_i hn
      symm
      rw [List.filter_eq_nil_iff]
      intro r hr hx
      simp at hx
      exact hn (hx ▸ hin r hr)
  · simp only [inspected, h1, h2]
    exact collect_eq c.asValue _ _ _ h5 _

open Demo in
/-- An event that is saved to a stream which is not named after its aggregate is not handed to the function. -/
theorem C92_inspect_false :
    inspected demo (demoCase [] [.save sB none none [evA [1]]]) IM.init List.eraseDups = some [] ∧
    (raised demo (demoCase [] [.save sB none none [evA [1]]])).length = 1 := by
  decide

/-- Visiting each name once in the order of its first record is one of the orders that `C92_inspect` admits. -/
theorem eraseDups_nodup (l : List Str) : l.eraseDups.Nodup := by
  have : ∀ n (l : List Str), l.length ≤ n → l.eraseDups.Nodup := by
    intro n
    induction n with
    | zero =>
      intro l h
      rw [List.length_eq_zero_iff.mp (by omega : l.length = 0)]
      simp
    | succ n ih =>
      intro l h
      cases l with
      | nil => simp
      | cons a l =>
        rw [List.eraseDups_cons, List.nodup_cons]
        refine ⟨by simp [List.mem_eraseDups], ih _ ?_⟩
        have := List.length_filter_le (fun b => !b == a) l
        simp only [List.length_cons] at h
        omega
  exact this _ l (Nat.le_refl _)

example : (∀ l : List Str, l.eraseDups.Nodup) ∧ (∀ (l : List Str) st, st ∈ l.eraseDups ↔ st ∈ l) :=
  ⟨eraseDups_nodup, fun _ _ => List.mem_eraseDups⟩

open Demo in
example : inspected demo (demoCase [evA [1]] [.save sA none none [evA [2]], .save sB none none [evB [3]]]) IM.init List.eraseDups =
    some [(evA [2]).event, (evB [3]).event] := by
  decide

end RangeDB.Bdd

import Verif.Spec.BrokenDeletes
import Verif.Thm.BrokenCalls

/-!
# Theorems: deletes of the remote store over connections that break (C137)
-/

namespace RangeDB.Rem

open RangeDB.Json RangeDB.Http RangeDB.IM

/-- Over a connection that works, the call is `delete`. -/
theorem deleteOver_fine {σ : Type} (other : Err → Str) (store : σ → Str → Nat → σ × Outcome Unit) (s : σ) (stream : Str)
    (expected : Nat) : deleteOver .fine other store s stream expected = delete other store s stream expected := rfl

/-- **C137**, one call, any store of the server: whatever becomes of it, the server's store is as it was or as the call that
arrives leaves it; and a client that is told of success got the reply of the store. -/
theorem C137_either {σ : Type} (net : Net) (other : Err → Str) (store : σ → Str → Nat → σ × Outcome Unit) (s : σ) (stream : Str)
    (expected : Nat) :
    let p := deleteOver net other store s stream expected
    let q := delete other store s stream expected
    (p.1 = s ∨ p.1 = q.1) ∧ (p.2 = .ok () → p = q) := by
  intro p q
  by_cases hv : (!decide (Valid stream)) = true
  · have hp : p = q := by simp only [p, q, deleteOver, delete, if_pos hv]
    exact ⟨Or.inr (by rw [hp]), fun _ => hp⟩
  · simp only [p, q, deleteOver, delete, if_neg hv]
    cases net with
    | fine => exact ⟨Or.inr rfl, fun _ => rfl⟩
    | noRequest t => exact ⟨Or.inl rfl, fun h => by simp at h⟩
    | noReply t => exact ⟨Or.inr rfl, fun h => by simp at h⟩

/-- The claim: a client that repeats a delete removes only records that were there when it first called. -/
def C137_full : Prop :=
  ∀ (other : Err → Str) (ops : List Op), (∀ op ∈ ops, op.Guarded (serializer unbound)) → ∀ (st : Str) (e : Nat)
    (turns : List DelTurn), (∀ t ∈ turns, t.Fair (serializer unbound)) →
    ∀ a ∈ deletions (serializer unbound) other st e (run (serializer unbound) ops) turns,
      ∀ r ∈ (IM.events (serializer unbound) a.before none 0).recs, r ∉ (IM.events (serializer unbound) a.after none 0).recs →
        r ∈ (IM.events (serializer unbound) (run (serializer unbound) ops) none 0).recs

/-- It is false: the reply of the first call is lost, somebody saves to the stream anew, as many events as before, and the second
call deletes those. -/
theorem C137_false : ¬ C137_full := by
  intro h
  have hg : Op.Guarded (serializer unbound) (.save [65, 33, 49] none none [demoRemEr]) := Or.inl (by decide)
  have hex : ∃ a ∈ deletions (serializer unbound) demoOther [65, 33, 49] 1
      (run (serializer unbound) [.save [65, 33, 49] none none [demoRemEr]])
      [.mine (.noReply tClosing) false, .another (.save [65, 33, 49] none none [demoRemEr]), .mine .fine false],
      ∃ r ∈ (IM.events (serializer unbound) a.before none 0).recs, r ∉ (IM.events (serializer unbound) a.after none 0).recs ∧
        r ∉ (IM.events (serializer unbound) (run (serializer unbound) [.save [65, 33, 49] none none [demoRemEr]]) none 0).recs := by
    decide +kernel
  obtain ⟨a, ha, r, h1, h2, h3⟩ := hex
  refine h3 (h demoOther _ (by simpa using hg) [65, 33, 49] 1 _ ?_ a ha r h1 h2)
  intro t ht
  simp only [List.mem_cons, List.not_mem_nil, or_false] at ht
  rcases ht with rfl | rfl | rfl
  · trivial
  · exact hg
  · trivial

variable {z : Serializer} {other : Err → Str}

/-- One attempt, on the log. -/
theorem delete_sim {s : IM.State} {L : Log} (hL : L.WF) (h : Sim z s L) (other : Err → Str) (st : Str) (e : Nat)
    (net : Net) (cancelled : Bool) :
    ∃ L', L'.WF ∧ Sim z (deleteOver net other (imDeleteAt cancelled) s st e).1 L' ∧
      (L' = L ∨ L.streamLen st = e ∧ e ≠ 0 ∧ L' = L.delete st) := by
  have key : ∃ L', L'.WF ∧ Sim z (imDeleteAt cancelled s st e).1 L' ∧
      (L' = L ∨ L.streamLen st = e ∧ e ≠ 0 ∧ L' = L.delete st) := by
    obtain ⟨d1, d2, d3, d4⟩ := deleteStream_spec hL h st e cancelled
    cases cancelled with
    | true => exact ⟨L, hL, by rw [imDeleteAt, d1 rfl]; exact h, Or.inl rfl⟩
    | false =>
      by_cases h0 : L.streamLen st = 0
      · exact ⟨L, hL, (d4 rfl h0).1, Or.inl rfl⟩
      · by_cases hx : e = L.streamLen st
        · exact ⟨L.delete st, hL.delete st, (d3 rfl h0 hx).2, Or.inr ⟨hx.symm, by omega, rfl⟩⟩
        · exact ⟨L, hL, by rw [imDeleteAt, d2 rfl h0 hx]; exact h, Or.inl rfl⟩
  unfold deleteOver
  split
  · exact ⟨L, hL, h, Or.inl rfl⟩
  · cases net with
    | fine => exact key
    | noRequest t => exact ⟨L, hL, h, Or.inl rfl⟩
    | noReply t => exact key

theorem delete_len (L : Log) (st : Str) : (L.delete st).streamLen st = 0 := by
  simp [Log.streamLen, Log.stream_delete_self]

/-- **C137**, any number of calls, with others that do anything in between, connections that break and contexts that are
cancelled: each call either leaves every read as it was, or finds exactly the expected number of events in the stream and removes
these events and no others. -/
theorem C137_each (hz : z.Lawful) (other : Err → Str) (ops : List Op) (hg : ∀ op ∈ ops, op.Guarded z) (st : Str) (e : Nat)
    (turns : List DelTurn) (hf : ∀ t ∈ turns, t.Fair z) :
    ∀ a ∈ deletions z other st e (run z ops) turns,
      Unchanged z a.before a.after ∨
      totalEventsInStream a.before st false = .ok e ∧ e ≠ 0 ∧
      totalEventsInStream a.after st false = .ok 0 ∧
      (∀ st', st' ≠ st → totalEventsInStream a.after st' false = totalEventsInStream a.before st' false) ∧
      ∀ g, IM.events z a.after none g = ⟨(IM.events z a.before none g).recs.filter (fun r => r.streamName ≠ st), none⟩ := by
  obtain ⟨hL, h⟩ := run_sim hz ops hg
  generalize run z ops = s at h
  generalize specRun z ops = L at hL h
  induction turns generalizing s L with
  | nil => simp [deletions]
  | cons turn turns ih =>
    have hf' : ∀ t ∈ turns, t.Fair z := fun t ht => hf t (by simp [ht])
    cases turn with
    | another op => exact ih hf' _ _ (specStep_WF hz hL op) (step_sim hz hL h op (hf (.another op) (by simp)))
    | mine net cancelled =>
      obtain ⟨L', hL', h', hc⟩ := delete_sim hL h other st e net cancelled
      intro a ha
      simp only [deletions, List.mem_cons] at ha
      rcases ha with rfl | ha
      · rcases hc with rfl | ⟨h1, h2, rfl⟩
        · exact Or.inl (unchanged_of hL h hL h' rfl)
        · refine Or.inr ⟨by rw [total_spec h, h1], h2, by rw [total_spec h', delete_len], fun st' hne => ?_, fun g => ?_⟩
          · rw [total_spec h, total_spec h', Log.streamLen, Log.streamLen, Log.stream_delete_other L hne]
          · rw [events_spec h', events_spec h]
            simp only [cut, Log.delete, List.filter_filter]
            congr 1
            apply List.filter_congr
            intro r _
            rw [Bool.and_comm]
      · exact ih hf' _ _ hL' h' a ha

/-- The calls of others that do not save to the stream add nothing to it. -/
theorem alone_stream (hz : z.Lawful) (L : Log) (st : Str) (op : Op) (ha : (DelTurn.another op).Alone st) :
    (specStep z L op).stream st = L.stream st ∨ (specStep z L op).stream st = [] := by
  cases op with
  | save name ex c ers =>
    have hn : name ≠ st := ha
    have happ : ∀ l, (L.append z.view name l).stream st = L.stream st := fun l =>
      Log.stream_append_other hz L l (Ne.symm hn)
    refine Or.inl ?_
    simp only [specStep]
    split
    · rfl
    · split
      · exact happ _
      · unfold afterFail
        repeat' split
        all_goals first | rfl | exact happ _
  | delete name ex c =>
    simp only [specStep]
    split
    · by_cases hn : name = st
      · subst hn; exact Or.inr (Log.stream_delete_self L name)
      · exact Or.inl (Log.stream_delete_other L (Ne.symm hn))
    · exact Or.inl rfl

/-- Nothing is removed from a stream without events. -/
theorem deletions_empty (hz : z.Lawful) (other : Err → Str) (st : Str) (e : Nat) :
    ∀ (turns : List DelTurn) (s : IM.State) (L : Log), L.WF → Sim z s L → (∀ t ∈ turns, t.Fair z ∧ t.Alone st) →
      L.streamLen st = 0 → ∀ a ∈ deletions z other st e s turns,
        Unchanged z a.before a.after ∧ totalEventsInStream a.after st false = .ok 0
  | [], _, _, _, _, _, _ => by simp [deletions]
  | .another op :: turns, s, L, hL, h, hf, h0 => by
    obtain ⟨f1, f2⟩ := hf (.another op) (by simp)
    refine deletions_empty hz other st e turns _ _ (specStep_WF hz hL op) (step_sim hz hL h op f1)
      (fun t ht => hf t (by simp [ht])) ?_
    rcases alone_stream hz L st op f2 with hs | hs
    · rw [Log.streamLen, hs]; exact h0
    · rw [Log.streamLen, hs]; rfl
  | .mine net cancelled :: turns, s, L, hL, h, hf, h0 => by
    obtain ⟨L', hL', h', hc⟩ := delete_sim hL h other st e net cancelled
    have hLL : L' = L := by
      rcases hc with hc | ⟨h1, h2, _⟩
      · exact hc
      · omega
    subst hLL
    intro a ha
    simp only [deletions, List.mem_cons] at ha
    rcases ha with rfl | ha
    · exact ⟨unchanged_of hL h hL' h' rfl, by rw [total_spec h', h0]⟩
    · exact deletions_empty hz other st e turns _ _ hL' h' (fun t ht => hf t (by simp [ht])) h0 a ha

/-- **C137**, what holds if nobody else saves to the stream while the client repeats its delete: at most one of its calls removes
events, all the others leave every read as it was, and only records that were there before its first call are removed.
Missing: the case of somebody who saves to the stream in between, for which the claim is false. -/
theorem C137_once_partial (hz : z.Lawful) (other : Err → Str) (ops : List Op) (hg : ∀ op ∈ ops, op.Guarded z) (st : Str) (e : Nat)
    (turns : List DelTurn) (hf : ∀ t ∈ turns, t.Fair z ∧ t.Alone st) :
    let as := deletions z other st e (run z ops) turns
    (as.filter (·.shrank st)).length ≤ 1 ∧
    (∀ a ∈ as, a.shrank st = false → Unchanged z a.before a.after) ∧
    ∀ a ∈ as, ∀ r ∈ (IM.events z a.before none 0).recs, r ∉ (IM.events z a.after none 0).recs →
      r ∈ (IM.events z (run z ops) none 0).recs := by
  obtain ⟨hL, h⟩ := run_sim hz ops hg
  have key : ∀ (turns : List DelTurn) (s : IM.State) (L : Log) (l : List Record), L.WF → Sim z s L →
      (∀ t ∈ turns, t.Fair z ∧ t.Alone st) → (∀ r ∈ L.stream st, r ∈ l) →
      ((deletions z other st e s turns).filter (·.shrank st)).length ≤ 1 ∧
      (∀ a ∈ deletions z other st e s turns, a.shrank st = false → Unchanged z a.before a.after) ∧
      ∀ a ∈ deletions z other st e s turns, ∀ r ∈ (IM.events z a.before none 0).recs, r ∉ (IM.events z a.after none 0).recs → r ∈ l := by
    intro turns
    induction turns with
    | nil => intros; simp [deletions]
    | cons turn turns ih =>
      intro s L l hL h hf hl
      have hf' : ∀ t ∈ turns, t.Fair z ∧ t.Alone st := fun t ht => hf t (by simp [ht])
      cases turn with
      | another op =>
        obtain ⟨f1, f2⟩ := hf (.another op) (by simp)
        refine ih _ _ l (specStep_WF hz hL op) (step_sim hz hL h op f1) hf' ?_
        rcases alone_stream hz L st op f2 with hs | hs
        · rw [hs]; exact hl
        · rw [hs]; simp
      | mine net cancelled =>
        obtain ⟨L', hL', h', hc⟩ := delete_sim hL h other st e net cancelled
        rcases hc with rfl | ⟨h1, h2, rfl⟩
        · have hu := unchanged_of hL h hL h' rfl
          obtain ⟨i1, i2, i3⟩ := ih _ L' l hL' h' hf' hl
          have hsh : DelAttempt.shrank st ⟨s, (deleteOver net other (imDeleteAt cancelled) s st e).1,
              (deleteOver net other (imDeleteAt cancelled) s st e).2⟩ = false := by
            simp only [DelAttempt.shrank, hu.2.2.2 st, ne_eq, not_true, decide_false]
          refine ⟨?_, ?_, ?_⟩
          · simp only [deletions, List.filter_cons, hsh, Bool.false_eq_true, if_false]; exact i1
          · intro a ha
            simp only [deletions, List.mem_cons] at ha
            rcases ha with rfl | ha
            · exact fun _ => hu
            · exact i2 a ha
          · intro a ha
            simp only [deletions, List.mem_cons] at ha
            rcases ha with rfl | ha
            · intro r hr hn
              exact absurd (by rw [hu.1]; exact hr) hn
            · exact i3 a ha
        · have hrest := deletions_empty hz other st e turns _ _ hL' h' hf' (delete_len L st)
          have hsh : DelAttempt.shrank st ⟨s, (deleteOver net other (imDeleteAt cancelled) s st e).1,
              (deleteOver net other (imDeleteAt cancelled) s st e).2⟩ = true := by
            have : totalEventsInStream s st false ≠
                totalEventsInStream (deleteOver net other (imDeleteAt cancelled) s st e).1 st false := by
              rw [total_spec h, total_spec h', delete_len, h1]
              intro hx
              exact h2 (Outcome.ok.inj hx)
            simpa [DelAttempt.shrank] using this
          have hnil : (deletions z other st e (deleteOver net other (imDeleteAt cancelled) s st e).1 turns).filter
              (·.shrank st) = [] := by
            rw [List.filter_eq_nil_iff]
            intro a ha
            simp only [DelAttempt.shrank, (hrest a ha).1.2.2.2 st, ne_eq, not_true, decide_false, Bool.false_eq_true,
              not_false_eq_true]
          refine ⟨?_, ?_, ?_⟩
          · simp only [deletions, List.filter_cons, hsh, if_true, hnil, List.length_cons, List.length_nil]
            omega
          · intro a ha
            simp only [deletions, List.mem_cons] at ha
            rcases ha with rfl | ha
            · intro hx; rw [hsh] at hx; cases hx
            · exact fun _ => (hrest a ha).1
          · intro a ha
            simp only [deletions, List.mem_cons] at ha
            rcases ha with rfl | ha
            · intro r hr hn
              rw [events_spec h] at hr
              rw [events_spec h'] at hn
              simp only [cut, Log.delete, List.mem_filter, Nat.zero_le, ge_iff_le, decide_true, and_true, decide_eq_true_eq,
                not_and, Classical.not_not] at hr hn
              exact hl r (by simp only [Log.stream, List.mem_filter, decide_eq_true_eq]; exact ⟨hr, hn hr⟩)
            · intro r hr hn
              exact absurd (by rw [(hrest a ha).1.1]; exact hr) hn
  refine key turns _ _ _ hL h hf (fun r hr => ?_)
  rw [events_spec h]
  simp only [Log.stream, List.mem_filter] at hr
  simpa [cut] using hr.1

/-- What the client is told of one attempt. -/
theorem delete_told (hq : Quiet other) {s : IM.State} {L L' : Log} (hL : L.WF) (h : Sim z s L) (st : Str) (e : Nat)
    (net : Net) (cancelled : Bool) (hp : (DelTurn.mine net cancelled).Plain)
    (h' : Sim z (deleteOver net other (imDeleteAt cancelled) s st e).1 L')
    (ht : (deleteOver net other (imDeleteAt cancelled) s st e).2 = .ok () ∨
      (deleteOver net other (imDeleteAt cancelled) s st e).2 = .err (.store .notFound)) : L'.streamLen st = 0 := by
  have hno : ∀ t, contains (tCode ++ t) tErrNotFound = false → deleteError (tCode ++ t) ≠ .store .notFound := by
    intro t hx
    unfold deleteError
    rw [hx]
    repeat' split
    all_goals simp_all
  by_cases hv : Valid st
  · cases net with
    | noRequest t =>
      simp only [deleteOver, hv, decide_true, Bool.not_true, Bool.false_eq_true, if_false, reduceCtorEq, false_or,
        CResult.err.injEq] at ht
      exact absurd ht (hno t hp)
    | noReply t =>
      simp only [deleteOver, hv, decide_true, Bool.not_true, Bool.false_eq_true, if_false, reduceCtorEq, false_or,
        CResult.err.injEq] at ht
      exact absurd ht (hno t hp)
    | fine =>
      rw [deleteOver_fine] at ht h'
      obtain ⟨c1, c2, _, c4, _⟩ := C42_delete other hq (imDeleteAt cancelled) s st e hv
      rw [c2, c4] at ht
      rw [c1] at h'
      have hLs : L'.streamLen st = (match totalEventsInStream (imDeleteAt cancelled s st e).1 st false with
          | .ok n => n | _ => 0) := by rw [total_spec h']
      rw [hLs]
      obtain ⟨d1, d2, d3, d4⟩ := deleteStream_spec hL h st e cancelled
      cases cancelled with
      | true => rw [imDeleteAt, d1 rfl] at ht; simp at ht
      | false =>
        by_cases h0 : L.streamLen st = 0
        · rw [show (imDeleteAt false s st e).1 = (deleteStream s st e false).1 from rfl, total_spec (d4 rfl h0).1]
          exact h0
        · by_cases hx : e = L.streamLen st
          · rw [show (imDeleteAt false s st e).1 = (deleteStream s st e false).1 from rfl, total_spec (d3 rfl h0 hx).2]
            exact delete_len L st
          · rw [imDeleteAt, d2 rfl h0 hx] at ht; simp at ht
  · simp [deleteOver, hv] at ht

/-- **C137**, what the client learns: when one of its calls succeeds, or is answered that the stream is not found, the stream has
no events any more; and if nobody else saves to it, it has none after every later call. -/
theorem C137_learned (hz : z.Lawful) (hq : Quiet other) (ops : List Op) (hg : ∀ op ∈ ops, op.Guarded z) (st : Str) (e : Nat)
    (turns : List DelTurn) (hf : ∀ t ∈ turns, t.Fair z ∧ t.Plain) (pre post : List DelAttempt) (a : DelAttempt)
    (has : deletions z other st e (run z ops) turns = pre ++ a :: post)
    (ht : a.told = .ok () ∨ a.told = .err (.store .notFound)) :
    totalEventsInStream a.after st false = .ok 0 ∧
    ((∀ t ∈ turns, t.Alone st) → ∀ b ∈ post, Unchanged z b.before b.after ∧ totalEventsInStream b.after st false = .ok 0) := by
  obtain ⟨hL, h⟩ := run_sim hz ops hg
  generalize run z ops = s at h has
  generalize specRun z ops = L at hL h
  induction turns generalizing s L pre with
  | nil => simp [deletions] at has
  | cons turn turns ih =>
    have hf' : ∀ t ∈ turns, t.Fair z ∧ t.Plain := fun t ht => hf t (by simp [ht])
    cases turn with
    | another op =>
      obtain ⟨i1, i2⟩ := ih hf' pre _ has _ (specStep_WF hz hL op) (step_sim hz hL h op (hf (.another op) (by simp)).1)
      exact ⟨i1, fun hal => i2 (fun t ht => hal t (by simp [ht]))⟩
    | mine net cancelled =>
      obtain ⟨L', hL', h', _⟩ := delete_sim hL h other st e net cancelled
      cases pre with
      | nil =>
        simp only [deletions, List.nil_append, List.cons.injEq] at has
        obtain ⟨rfl, rfl⟩ := has
        have h0 := delete_told hq hL h st e net cancelled (hf (.mine net cancelled) (by simp)).2 h' ht
        exact ⟨by rw [total_spec h', h0], fun hal => deletions_empty hz other st e turns _ _ hL' h'
          (fun t ht => ⟨(hf' t ht).1, hal t (by simp [ht])⟩) h0⟩
      | cons b pre =>
        simp only [deletions, List.cons_append, List.cons.injEq] at has
        obtain ⟨i1, i2⟩ := ih hf' pre _ has.2 _ hL' h'
        exact ⟨i1, fun hal => i2 (fun t ht => hal t (by simp [ht]))⟩

/-- The first reply is lost, somebody saves to another stream, the second call learns that the stream is gone, and the third has
nothing to do. -/
example :
    let ops : List Op := [.save [65, 33, 49] none none [demoRemEr, demoRemEr]]
    let turns : List DelTurn := [.mine (.noRequest tClosing) false, .mine (.noReply tClosing) false,
      .another (.save [65, 33, 50] none none [⟨⟨[65], [50], [69], demoRemData.text⟩, nullText, [117], 7⟩]), .mine .fine false,
      .mine .fine true]
    (∀ t ∈ turns, t.Alone [65, 33, 49] ∧ t.Plain) ∧
    (deletions (serializer unbound) demoOther [65, 33, 49] 2 (run (serializer unbound) ops) turns).map
      (fun a => (a.told, a.shrank [65, 33, 49])) =
      [(.err (.rpc (tCode ++ tClosing)), false), (.err (.rpc (tCode ++ tClosing)), true), (.err (.store .notFound), false),
       (.err (.rpc (tCode ++ (tUnknownDesc ++ tContextCanceled))), false)] := by
  refine ⟨?_, by decide +kernel⟩
  intro t ht
  simp only [List.mem_cons, List.not_mem_nil, or_false] at ht
  rcases ht with rfl | rfl | rfl | rfl | rfl
  · exact ⟨trivial, by show contains _ _ = false; decide +kernel⟩
  · exact ⟨trivial, by show contains _ _ = false; decide +kernel⟩
  · exact ⟨by show (_ : Str) ≠ _; decide, trivial⟩
  · exact ⟨trivial, trivial⟩
  · exact ⟨trivial, trivial⟩

end RangeDB.Rem

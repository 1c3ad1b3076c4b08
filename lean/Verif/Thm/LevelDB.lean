import Verif.Proof.LevelDB
import Verif.Base.Demo

/-! # Properties of the LevelDB store: C11 to C15 -/

namespace RangeDB.LD

open Demo KV

variable {N : Names} {z : Serializer}

/-! ## C11 -/

/-- **C11**, calls. After every history on names none of which clash (`Names`; those without
`$!` never do) that saves fewer than 2^64 events in all,
the next save and the next delete return exactly what the specification says; a successful save hands
exactly its records to the broadcaster, a failed one nothing. -/
theorem C11_calls (hz : z.Lawful) (ops : List Op) (hn : ∀ op ∈ ops, op.NamesIn N) :
    (∀ st expected cancelAt ers, (Op.save st expected cancelAt ers).NamesIn N →
      (ops.map Op.size).sum + ers.length < 2 ^ 64 →
      (saveEvents z (run z ops) st expected cancelAt ers).out
        = aSaveOut z (aRun z ops) st expected cancelAt ers ∧
      (saveEvents z (run z ops) st expected cancelAt ers).broadcast =
        (if aSaveOut z (aRun z ops) st expected cancelAt ers
            = .ok ((aRun z ops).log.streamLen st + ers.length) then
          (numbered st (aRun z ops).log.last ((aRun z ops).log.streamLen st) ers).map z.view else [])) ∧
    (∀ st expected cancelled, N.streams st → (ops.map Op.size).sum < 2 ^ 64 →
      (deleteStream z (run z ops) st expected cancelled).2
        = aDeleteOut (aRun z ops) st expected cancelled) := by
  refine ⟨?_, ?_⟩
  · intro st expected cancelAt ers hno hb
    obtain ⟨⟨hs, hw, htx, hmx, hst⟩, hle⟩ := run_simA hz ops hn (by omega)
    generalize run z ops = s at *
    generalize aRun z ops = A at *
    by_cases hne : ers = []
    · subst hne; simp [saveEvents, aSaveOut]
    · have hlen : ¬ ers.length < 1 := by
        cases ers with
        | nil => exact absurd rfl hne
        | cons a b => simp
      unfold aSaveOut
      rw [if_neg hne]
      cases hl : A.leaked with
      | true =>
        cases hmu : s.muxHeld with
        | true => simp [saveEvents, hmu, hne]
        | false => simp [saveEvents, hmu, hne, htx, hl]
      | false =>
        have hmu : s.muxHeld = false := by
          rw [hmx]; cases hx : A.stuck with
          | false => rfl
          | true => rw [hst hx] at hl; simp at hl
        have hsp := saveEvents_spec hz hw hs hmu (htx.trans hl) hno.1 expected cancelAt ers hno.2
          (by omega) hne
        simp only [Bool.false_eq_true, if_false]
        cases hp : batchProblem z A.log st expected cancelAt ers with
        | none => exact ⟨(hsp.1 hp).1, by simpa using (hsp.1 hp).2.2⟩
        | some je =>
          obtain ⟨j, e⟩ := je
          rw [hsp.2 j e hp]
          simp
  · intro st expected cancelled hno hb
    obtain ⟨⟨hs, hw, htx, hmx, hst⟩, hle⟩ := run_simA hz ops hn hb
    generalize run z ops = s at *
    generalize aRun z ops = A at *
    unfold aDeleteOut
    cases cancelled with
    | true => simp [deleteStream]
    | false =>
      simp only [Bool.false_eq_true, if_false]
      cases hl : A.leaked with
      | true =>
        cases hmu : s.muxHeld with
        | true => simp [deleteStream, hmu]
        | false => simp [deleteStream, hmu, htx, hl]
      | false =>
        have hmu : s.muxHeld = false := by
          rw [hmx]; cases hx : A.stuck with
          | false => rfl
          | true => rw [hst hx] at hl; simp at hl
        have hsp := deleteStream_spec hw hs hmu (htx.trans hl) hno expected
        simp only [Bool.false_eq_true, if_false]
        by_cases h0 : A.log.streamLen st = 0
        · rw [if_pos h0, hsp.1 h0]
        · rw [if_neg h0]
          by_cases hx : expected = A.log.streamLen st
          · rw [if_neg (by simp [hx])]
            obtain ⟨db', h1, _⟩ := hsp.2.2 h0 hx
            rw [h1]
          · rw [if_pos hx, hsp.2.1 h0 hx]

/-- **C11**, reads. After every such history, unless a writer hangs, every read returns what the
specified log holds: all live records from `g` on in global order, those of the requested types, those
of the stream from `n` on (or `ErrStreamNotFound`), and the number of live events of the stream; a
cancelled reader gets a prefix and then `context.Canceled`. -/
theorem C11_reads (hz : z.Lawful) (ops : List Op) (hn : ∀ op ∈ ops, op.NamesIn N)
    (hb : (ops.map Op.size).sum < 2 ^ 64) :
    ((aRun z ops).stuck = false →
      (∀ c g, g < 2 ^ 64 → events z (run z ops) c g
        = .ok (cut c ((aRun z ops).log.recs.filter (fun r => r.gsn ≥ g)))) ∧
      (∀ g types, g < 2 ^ 64 → types.Nodup → (∀ t ∈ types, N.types t) →
        eventsByAggregateTypes z (run z ops) (fun _ => none) g types
          = .ok ⟨(aRun z ops).log.recs.filter
              (fun r => decide (r.aggType ∈ types) && decide (r.gsn ≥ g)), none⟩) ∧
      (∀ c g t, g < 2 ^ 64 → N.types t →
        eventsByAggregateTypes z (run z ops) c g [t]
          = .ok (cut (c t) (((aRun z ops).log.recs.filter (fun r => r.aggType = t)).filter
              (fun r => r.gsn ≥ g)))) ∧
      (∀ c n st, N.streams st → eventsByStream z (run z ops) c n st
        = .ok (if (aRun z ops).log.streamLen st = 0 then ⟨[], some .notFound⟩
            else cut c (((aRun z ops).log.stream st).filter (fun r => r.seq ≥ n))))) ∧
    (∀ st, N.streams st →
      totalEventsInStream (run z ops) st false = .ok ((aRun z ops).log.streamLen st)) ∧
    (aRun z ops).log.WF := by
  obtain ⟨⟨hs, hw, htx, hmx, hst⟩, hle⟩ := run_simA hz ops hn hb
  refine ⟨fun hk => ?_, ?_, hw⟩
  · have hmu : (run z ops).muxHeld = false := hmx.trans hk
    refine ⟨?_, ?_, ?_, ?_⟩
    · intro c g hg
      simp only [events, hmu, Bool.false_eq_true, if_false, lookup_all hs hw c g hg]
    · intro g types hg hd ht
      exact eventsByAggregateTypes_spec hs hw g hg types hd ht hmu
    · intro c g t hg ht
      simp only [eventsByAggregateTypes, hmu, Bool.false_eq_true, false_and, if_false,
        lookup_type hs hw (c t) g hg ht]
    · intro c n st hno
      simp only [eventsByStream, hmu, Bool.false_eq_true, if_false, prefix_stream hs hw c n hno]
  · intro st hno
    simp only [totalEventsInStream, Bool.false_eq_true, if_false, seqNumber_spec hs hw hno]

/-- **C11** in terms of reads only: a successful save appends exactly its events to what `Events(0)`
returned, numbered consecutively; any failed save changes nothing at all. -/
theorem C11_save_appends (hz : z.Lawful) (ops : List Op) (hn : ∀ op ∈ ops, op.NamesIn N) (st : Str)
    (expected cancelAt : Option Nat) (ers : List EventRecord)
    (hno : (Op.save st expected cancelAt ers).NamesIn N)
    (hb : (ops.map Op.size).sum + ers.length < 2 ^ 64) (old : Iter) (n : Nat)
    (hold : events z (run z ops) none 0 = .ok old)
    (hlen : totalEventsInStream (run z ops) st false = .ok n) :
    (∀ k, (saveEvents z (run z ops) st expected cancelAt ers).out = .ok k →
      k = n + ers.length ∧ (∀ e, expected = some e → e = n) ∧
      ∃ last, (∀ r ∈ old.recs, r.gsn ≤ last) ∧
        events z (saveEvents z (run z ops) st expected cancelAt ers).state none 0
          = .ok ⟨old.recs ++ (numbered st last n ers).map z.view, none⟩ ∧
        (saveEvents z (run z ops) st expected cancelAt ers).broadcast
          = (numbered st last n ers).map z.view) ∧
    (∀ e, (saveEvents z (run z ops) st expected cancelAt ers).out = .err e →
      (saveEvents z (run z ops) st expected cancelAt ers).state = run z ops ∧
      (saveEvents z (run z ops) st expected cancelAt ers).broadcast = []) := by
  have hrd := C11_reads hz ops hn (by omega)
  obtain ⟨hsim, hle⟩ := run_simA hz ops hn (by omega)
  obtain ⟨hs, hw, htx, hmx, hst⟩ := hsim
  have hmu : (run z ops).muxHeld = false := by
    cases hx : (run z ops).muxHeld with
    | false => rfl
    | true => simp [events, hx] at hold
  have hstk : (aRun z ops).stuck = false := hmx.symm.trans hmu
  have hev := (hrd.1 hstk).1 none 0 (by omega)
  have hall : (aRun z ops).log.recs.filter (fun r => decide (r.gsn ≥ 0)) = (aRun z ops).log.recs :=
    List.filter_eq_self.mpr (by simp)
  rw [hall, hold] at hev
  simp only [cut, Outcome.ok.injEq] at hev
  have hn' := (hrd.2.1 st hno.1).symm.trans hlen
  simp only [Outcome.ok.injEq] at hn'
  subst hn'
  subst hev
  by_cases hne : ers = []
  · subst hne; simp [saveEvents]
  · have hlen : ¬ ers.length < 1 := by
      cases ers with
      | nil => exact absurd rfl hne
      | cons a b => simp
    cases hl : (aRun z ops).leaked with
    | true => simp [saveEvents, hmu, hne, htx, hl]
    | false =>
      have hsp := saveEvents_spec hz hw hs hmu (htx.trans hl) hno.1 expected cancelAt ers hno.2
        (by omega) hne
      cases hp : batchProblem z (aRun z ops).log st expected cancelAt ers with
      | some je =>
        obtain ⟨j, e⟩ := je
        rw [hsp.2 j e hp]
        simp
      | none =>
        obtain ⟨h1, ⟨db', h2, h3⟩, h4⟩ := hsp.1 hp
        rw [h1, h2, h4]
        refine ⟨?_, by simp⟩
        intro k hk
        simp only [Outcome.ok.injEq] at hk
        refine ⟨hk.symm, ?_, (aRun z ops).log.last, fun r hr => (hw.bounded r hr).2, ?_, rfl⟩
        · intro e he
          cases ers with
          | nil => exact absurd rfl hne
          | cons er ers =>
            subst he
            apply Classical.byContradiction
            intro hx
            by_cases hc : ctxDone cancelAt 0 = true
            · simp [batchProblem, firstProblem, problem, differs, hc] at hp
            · simp [batchProblem, firstProblem, problem, differs, hc, hx] at hp
        · simp only [events, hmu, Bool.false_eq_true, if_false]
          rw [lookup_all h3 (hw.append hz st ers) none 0 (by omega),
            List.filter_eq_self.mpr (by simp)]
          rfl

example : ∀ op ∈ [Op.save sA none none [evA [1], evA [2]], .save sB (some 0) none [evB [3]],
    .delete sA 2 false, .save sA none none [evA [4]]], op.NamesIn .plain := by
  intro op hop
  simp only [List.mem_cons, List.not_mem_nil, or_false] at hop
  rcases hop with rfl | rfl | rfl | rfl <;> simp [Op.NamesIn, Names.plain, evA, evB, ev, sA, sB, NoSep]

example : (match events demo (run demo [.save sA none none [evA [1], evA [2]],
      .save sB (some 0) none [evB [3]], .delete sA 2 false, .save sA none none [evA [4]]]) none 2 with
    | .ok it => it.recs.map (fun r => (r.gsn, r.seq)) | _ => []) = [(3, 1), (4, 1)] := by decide

/-! ## C12 -/

/-- The full claim of **C12** for reads of a stream. -/
def C12_full : Prop :=
  ∀ (z : Serializer), z.Lawful → ∀ (ops : List Op) (st : Str) (it : Iter),
    eventsByStream z (run z ops) none 0 st = .ok it → ∀ r ∈ it.recs, r.streamName = st

/-- The stream name "a$!b". -/
def sAB : Str := [97, 36, 33, 98]

/-- **C12 is false** without the restriction on names: `EventsByStream("a")` returns the event of stream
"a$!b". -/
theorem C12_false : ¬ C12_full := by
  intro h
  have := h demo demo_lawful [.save sAB none none [ev [97] [36] [1]]] [97]
    ⟨[mkRecord sAB 1 1 (ev [97] [36] [1])], none⟩ (by decide)
    (mkRecord sAB 1 1 (ev [97] [36] [1])) (by simp)
  exact absurd this (by decide)

/-- The same defect lets a delete addressed to stream "a" remove the event of stream "a$!b". -/
theorem C12_false_delete :
    (deleteStream demo (run demo [.save sAB none none [ev [97] [36] [1]]]) [97] 1 false).2 = .ok () ∧
    events demo (deleteStream demo (run demo [.save sAB none none [ev [97] [36] [1]]]) [97] 1 false).1
      none 0 = .ok ⟨[], none⟩ := by decide

/-- **C12**, what holds: with names none of which clash, (1) a stream read returns records of that stream
only, (2) a type read returns records of that type only, and (3) a save or delete addressed to one
stream, successful or not, leaves every other stream's reads unchanged. Missing: clashing names, for
which the claim is false. -/
theorem C12_partial (hz : z.Lawful) (ops : List Op) (hn : ∀ op ∈ ops, op.NamesIn N)
    (hb : (ops.map Op.size).sum < 2 ^ 64) :
    (∀ c n st it, N.streams st → eventsByStream z (run z ops) c n st = .ok it →
      ∀ r ∈ it.recs, r.streamName = st) ∧
    (∀ c g t it, g < 2 ^ 64 → N.types t →
      eventsByAggregateTypes z (run z ops) c g [t] = .ok it → ∀ r ∈ it.recs, r.aggType = t) ∧
    (∀ op : Op, op.NamesIn N → (ops.map Op.size).sum + op.size < 2 ^ 64 →
      (step z (run z ops) op).muxHeld = false →
      ∀ st', N.streams st' →
      (match op with | .save st _ _ _ => st | .delete st _ _ => st) ≠ st' →
      (∀ c n, eventsByStream z (step z (run z ops) op) c n st'
        = eventsByStream z (run z ops) c n st') ∧
      totalEventsInStream (step z (run z ops) op) st' false
        = totalEventsInStream (run z ops) st' false) := by
  have hrd := C11_reads hz ops hn hb
  obtain ⟨hsim, hle⟩ := run_simA hz ops hn hb
  have hcut : ∀ c (l : List Record) r, r ∈ (cut c l).recs → r ∈ l := by
    intro c l r hr
    unfold cut at hr
    cases c with
    | none => exact hr
    | some k =>
      simp only at hr
      split at hr
      · exact hr
      · exact List.mem_of_mem_take hr
  have hstk : ∀ {α : Type} (o : Outcome α) (it : α),
      (if (run z ops).muxHeld = true then .blocked else o) = .ok it → (aRun z ops).stuck = false := by
    intro α o it h
    rw [← hsim.mux]
    cases hx : (run z ops).muxHeld with
    | false => rfl
    | true => simp [hx] at h
  refine ⟨?_, ?_, ?_⟩
  · intro c n st it hno hit r hr
    have hk := hstk _ _ hit
    rw [(hrd.1 hk).2.2.2 c n st hno] at hit
    simp only [Outcome.ok.injEq] at hit
    subst hit
    split at hr
    · simp at hr
    · have := hcut _ _ _ hr
      have h2 := (List.mem_filter.mp this).1
      simpa using (List.mem_filter.mp h2).2
  · intro c g t it hg hno hit r hr
    have hk : (aRun z ops).stuck = false := by
      rw [← hsim.mux]
      cases hx : (run z ops).muxHeld with
      | false => rfl
      | true => simp [eventsByAggregateTypes, hx] at hit
    rw [(hrd.1 hk).2.2.1 c g t hg hno] at hit
    simp only [Outcome.ok.injEq] at hit
    subst hit
    have := hcut _ _ _ hr
    have h2 := (List.mem_filter.mp this).1
    simpa using (List.mem_filter.mp h2).2
  · intro op hop hbo hmx st' hno hne
    have hst := step_simA hz hsim op hop (by omega)
    have hm0 : (run z ops).muxHeld = false := by
      cases hx : (run z ops).muxHeld with
      | false => rfl
      | true =>
        exfalso
        have : (step z (run z ops) op).muxHeld = true := by
          cases op with
          | save st e c ers =>
            simp only [step, saveEvents, hx, if_true]
            split <;> exact hx
          | delete st e c =>
            simp only [step, deleteStream, hx, if_true]
            split <;> exact hx
        rw [this] at hmx; simp at hmx
    have hstr : (aStep z (aRun z ops) op).log.stream st' = (aRun z ops).log.stream st' := by
      cases op with
      | save st e c ers =>
        simp only [aStep]
        split
        · rfl
        · split
          · rfl
          · split
            · exact Log.stream_append_other hz _ ers (fun h => hne h.symm)
            · rfl
      | delete st e c =>
        simp only [aStep]
        split
        · rfl
        · split
          · rfl
          · split
            · rfl
            · exact Log.stream_delete_other _ (fun h => hne h.symm)
    have hlen' : (aStep z (aRun z ops) op).log.streamLen st' = (aRun z ops).log.streamLen st' :=
      congrArg List.length hstr
    refine ⟨?_, ?_⟩
    · intro c n
      simp only [eventsByStream, hmx, hm0, Bool.false_eq_true, if_false,
        prefix_stream hst.1.sim hst.1.wf c n hno, prefix_stream hsim.sim hsim.wf c n hno,
        hstr, hlen']
    · simp only [totalEventsInStream, Bool.false_eq_true, if_false,
        seqNumber_spec hst.1.sim hst.1.wf hno, seqNumber_spec hsim.sim hsim.wf hno,
        hlen']

/-- A non-trivial case: names that are prefixes of each other. -/
example : NoSep [97] = true ∧ NoSep [97, 36] = true ∧ NoSep [97, 33] = true := by decide

/-! ## C13 -/

/-- The loop of the small-step program, run to its end. -/
theorem loop_steps (st : Str) (cancelAt : Option Nat) (e0 : Option Nat) (ers0 : List EventRecord)
    (disk : DB) : ∀ (todo : List EventRecord) (view : DB) (i : Nat) (pt pid : Str)
      (exp : Option Nat) (pend : List Str) (last n : Nat),
      saveSteps z st e0 cancelAt ers0 disk n = ⟨disk, .loop view i pt pid exp pend last todo⟩ →
      (∀ m, n ≤ m → (saveSteps z st e0 cancelAt ers0 disk m).disk = disk ∨
        ∃ db p l, saveLoop z st cancelAt i view pt pid exp pend last todo = .ok (db, p, l) ∧
          (saveSteps z st e0 cancelAt ers0 disk m).disk = db) ∧
      (∃ m, n ≤ m ∧ saveSteps z st e0 cancelAt ers0 disk m =
        match saveLoop z st cancelAt i view pt pid exp pend last todo with
        | .error e => ⟨disk, .done (.error e)⟩
        | .ok (db, p, l) => ⟨db, .broadcasting p l⟩) := by
  have hdone : ∀ (m : Nat) (d : DB) r, saveSteps z st e0 cancelAt ers0 disk m = ⟨d, .done r⟩ →
      ∀ m', m ≤ m' → saveSteps z st e0 cancelAt ers0 disk m' = ⟨d, .done r⟩ := by
    intro m d r h m' hm
    obtain ⟨k, rfl⟩ := Nat.exists_eq_add_of_le hm
    clear hm
    induction k with
    | zero => exact h
    | succ k ih => rw [← Nat.add_assoc, saveSteps, ih]; rfl
  have hbc : ∀ (m : Nat) (d : DB) p l, saveSteps z st e0 cancelAt ers0 disk m = ⟨d, .broadcasting p l⟩ →
      ∀ m', m ≤ m' → (saveSteps z st e0 cancelAt ers0 disk m').disk = d ∧
        ((∃ p', (saveSteps z st e0 cancelAt ers0 disk m').pc = .broadcasting p' l) ∨
         (saveSteps z st e0 cancelAt ers0 disk m').pc = .done (.ok l)) := by
    intro m d p l h m' hm
    obtain ⟨k, rfl⟩ := Nat.exists_eq_add_of_le hm
    clear hm
    induction k with
    | zero => rw [Nat.add_zero, h]; exact ⟨rfl, Or.inl ⟨p, rfl⟩⟩
    | succ k ih =>
      rw [← Nat.add_assoc]
      obtain ⟨h1, ⟨p', h2⟩ | h2⟩ := ih
      · cases p' with
        | nil => simp [saveSteps, Proc.step, h1, h2]
        | cons x xs => simp [saveSteps, Proc.step, h1, h2]
      · simp [saveSteps, Proc.step, h1, h2]
  intro todo
  induction todo with
  | nil =>
    intro view i pt pid exp pend last n h
    have h1 : saveSteps z st e0 cancelAt ers0 disk (n + 1) = ⟨view, .broadcasting pend last⟩ := by
      simp [saveSteps, h, Proc.step]
    refine ⟨?_, n + 1, by omega, by rw [h1]; rfl⟩
    intro m hm
    rcases Nat.eq_or_lt_of_le hm with rfl | hlt
    · rw [h]; exact Or.inl rfl
    · exact Or.inr ⟨view, pend, last, rfl, (hbc _ _ _ _ h1 m hlt).1⟩
  | cons er todo ih =>
    intro view i pt pid exp pend last n h
    have hfail : ∀ e, saveSteps z st e0 cancelAt ers0 disk (n + 1) = ⟨disk, .done (.error e)⟩ →
        ∀ m, n ≤ m → (saveSteps z st e0 cancelAt ers0 disk m).disk = disk := by
      intro e h1 m hm
      rcases Nat.eq_or_lt_of_le hm with rfl | hlt
      · rw [h]
      · rw [hdone _ _ _ h1 m hlt]
    simp only [saveLoop]
    by_cases c1 : pt ≠ [] ∧ pt ≠ er.event.aggType
    · have h1 : saveSteps z st e0 cancelAt ers0 disk (n + 1)
          = ⟨disk, .done (.error .unmatchedType)⟩ := by
        simp only [saveSteps, h, Proc.step]; rw [if_pos c1]
      rw [if_pos c1]
      exact ⟨fun m hm => Or.inl (hfail _ h1 m hm), n + 1, by omega, h1⟩
    rw [if_neg c1]
    by_cases c2 : pid ≠ [] ∧ pid ≠ er.event.aggId
    · have h1 : saveSteps z st e0 cancelAt ers0 disk (n + 1)
          = ⟨disk, .done (.error .unmatchedId)⟩ := by
        simp only [saveSteps, h, Proc.step]; rw [if_neg c1, if_pos c2]
      rw [if_pos c2]
      exact ⟨fun m hm => Or.inl (hfail _ h1 m hm), n + 1, by omega, h1⟩
    rw [if_neg c2]
    cases hse : saveEvent z view st exp (ctxDone cancelAt i) er with
    | error e =>
      have h1 : saveSteps z st e0 cancelAt ers0 disk (n + 1) = ⟨disk, .done (.error e)⟩ := by
        simp only [saveSteps, h, Proc.step]; rw [if_neg c1, if_neg c2, hse]
      exact ⟨fun m hm => Or.inl (hfail _ h1 m hm), n + 1, by omega, h1⟩
    | ok r =>
      obtain ⟨view', data, seq⟩ := r
      have h1 : saveSteps z st e0 cancelAt ers0 disk (n + 1) = ⟨disk, .loop view' (i + 1)
          er.event.aggType er.event.aggId (exp.map (· + 1)) (pend ++ [data]) seq todo⟩ := by
        simp only [saveSteps, h, Proc.step]; rw [if_neg c1, if_neg c2, hse]
      obtain ⟨g1, m, hm1, hm2⟩ := ih _ _ _ _ _ _ _ _ h1
      refine ⟨?_, m, by omega, hm2⟩
      intro m' hm'
      rcases Nat.eq_or_lt_of_le hm' with rfl | hlt
      · rw [h]; exact Or.inl rfl
      · exact g1 m' hlt

/-- **C13**, saves. Stop a save on a usable store after any number `n` of steps: the disk holds either
exactly what it held before the call, or exactly what the completed, successful call leaves. -/
theorem C13_save (s : State) (hm : s.muxHeld = false) (ht : s.txOpen = false) (st : Str)
    (expected cancelAt : Option Nat) (ers : List EventRecord) (n : Nat) :
    (saveSteps z st expected cancelAt ers s.db n).disk = s.db ∨
    ∃ k, (saveEvents z s st expected cancelAt ers).out = .ok k ∧
      (saveSteps z st expected cancelAt ers s.db n).disk
        = (saveEvents z s st expected cancelAt ers).state.db := by
  cases n with
  | zero => exact Or.inl rfl
  | succ n =>
    by_cases hlen : ers.length < 1
    · left
      have h1 : ∀ k, (saveSteps z st expected cancelAt ers s.db (k + 1))
          = ⟨s.db, .done (.error .missingEvents)⟩ := by
        intro k
        induction k with
        | zero => simp only [saveSteps, Proc.step]; rw [if_pos hlen]
        | succ k ih => rw [saveSteps, ih]; rfl
      rw [h1]
    · have h1 : saveSteps z st expected cancelAt ers s.db 1
          = ⟨s.db, .loop s.db 0 [] [] expected [] 0 ers⟩ := by
        simp only [saveSteps, Proc.step]; rw [if_neg hlen]
      have := (loop_steps st cancelAt expected ers s.db ers s.db 0 [] [] expected [] 0 1 h1).1
        (n + 1) (by omega)
      rcases this with h | ⟨db, p, l, h2, h3⟩
      · exact Or.inl h
      · right
        refine ⟨l, ?_, ?_⟩
        · simp only [saveEvents, if_neg hlen, hm, ht, Bool.false_eq_true, if_false, h2]
        · rw [h3]; simp only [saveEvents, if_neg hlen, hm, ht, Bool.false_eq_true, if_false, h2]

/-- The small-step program and `saveEvents` agree: it ends, with the same outcome and, on disk, the same
database; in particular a call that has returned successfully is durable. -/
theorem C13_save_returns (s : State) (hm : s.muxHeld = false) (ht : s.txOpen = false) (st : Str)
    (expected cancelAt : Option Nat) (ers : List EventRecord) :
    ∃ n, (saveSteps z st expected cancelAt ers s.db n).disk
        = (saveEvents z s st expected cancelAt ers).state.db ∧
      (match (saveSteps z st expected cancelAt ers s.db n).pc with
       | .done (.ok k) => (saveEvents z s st expected cancelAt ers).out = .ok k
       | .done (.error e) => (saveEvents z s st expected cancelAt ers).out = .err e
       | _ => False) := by
  by_cases hlen : ers.length < 1
  · refine ⟨1, ?_, ?_⟩
    · simp only [saveSteps, Proc.step, saveEvents]; rw [if_pos hlen, if_pos hlen]
    · simp only [saveSteps, Proc.step, saveEvents]; rw [if_pos hlen, if_pos hlen]
  · have h1 : saveSteps z st expected cancelAt ers s.db 1
        = ⟨s.db, .loop s.db 0 [] [] expected [] 0 ers⟩ := by
      simp only [saveSteps, Proc.step]; rw [if_neg hlen]
    obtain ⟨m, _, hm2⟩ :=
      (loop_steps st cancelAt expected ers s.db ers s.db 0 [] [] expected [] 0 1 h1).2
    simp only [saveEvents, if_neg hlen, hm, ht, Bool.false_eq_true, if_false]
    cases hl : saveLoop z st cancelAt 0 s.db [] [] expected [] 0 ers with
    | error e =>
      rw [hl] at hm2
      refine ⟨m, ?_, ?_⟩ <;> rw [hm2]
    | ok r =>
      obtain ⟨db, p, l⟩ := r
      rw [hl] at hm2
      have hb : ∀ (p : List Str) (m : Nat), saveSteps z st expected cancelAt ers s.db m
            = ⟨db, .broadcasting p l⟩ →
          ∃ m', saveSteps z st expected cancelAt ers s.db m' = ⟨db, .done (.ok l)⟩ := by
        intro p
        induction p with
        | nil => intro m h; exact ⟨m + 1, by simp [saveSteps, h, Proc.step]⟩
        | cons x xs ih => intro m h; exact ih (m + 1) (by simp [saveSteps, h, Proc.step])
      obtain ⟨m', h'⟩ := hb p m hm2
      refine ⟨m', ?_, ?_⟩ <;> rw [h']

/-- **C13**, deletes. -/
theorem C13_delete (s : State) (hm : s.muxHeld = false) (ht : s.txOpen = false) (st : Str)
    (expected : Nat) (n : Nat) :
    (deleteSteps z st expected s.db n).disk = s.db ∨
    ((deleteStream z s st expected false).2 = .ok () ∧
      (deleteSteps z st expected s.db n).disk = (deleteStream z s st expected false).1.db) := by
  -- the invariant of the small-step program
  have hinv : ∀ n, (match (deleteSteps z st expected s.db n).pc with
      | .start => (deleteSteps z st expected s.db n).disk = s.db
      | .loop cnt batch todo => (deleteSteps z st expected s.db n).disk = s.db ∧
          deleteLoop z cnt batch todo = deleteLoop z 0 [] (DbIter.each
            ((DbIter.new s.db (getStreamKeyPrefix st)).items.length + 1)
            (DbIter.new s.db (getStreamKeyPrefix st)))
      | .written view => (deleteSteps z st expected s.db n).disk = s.db ∧
          deleteStream z s st expected false = ({ s with db := view }, .ok ())
      | .done (.ok _) => deleteStream z s st expected false
          = ({ s with db := (deleteSteps z st expected s.db n).disk }, .ok ())
      | .done (.error _) => (deleteSteps z st expected s.db n).disk = s.db) := by
    intro n
    induction n with
    | zero => rfl
    | succ n ih =>
      simp only [deleteSteps]
      generalize deleteSteps z st expected s.db n = p at ih
      obtain ⟨disk, pc⟩ := p
      cases pc with
      | start => simp only at ih; subst ih; simp [DelProc.step]
      | loop cnt batch todo =>
        simp only at ih
        obtain ⟨rfl, ih⟩ := ih
        cases todo with
        | nil =>
          simp only [DelProc.step]
          simp only [deleteLoop] at ih
          by_cases h0 : cnt = 0
          · rw [if_pos h0]
          · rw [if_neg h0]
            by_cases hx : cnt ≠ expected
            · rw [if_pos hx]
            · rw [if_neg hx]
              refine ⟨rfl, ?_⟩
              simp only [deleteStream, hm, ht, Bool.false_eq_true, if_false, ← ih, if_neg h0, if_neg hx]
        | cons kv todo =>
          obtain ⟨k, v⟩ := kv
          simp only [DelProc.step]
          simp only [deleteLoop] at ih
          cases hd : z.deser v with
          | none => simp
          | some r =>
            rw [hd] at ih
            exact ⟨rfl, ih⟩
      | written view => simp only at ih; obtain ⟨rfl, ih⟩ := ih; simpa [DelProc.step] using ih
      | done r =>
        cases r with
        | ok u => simpa [DelProc.step] using ih
        | error e => simpa [DelProc.step] using ih
  have := hinv n
  split at this
  · exact Or.inl this
  · exact Or.inl this.1
  · exact Or.inl this.1
  · right; rw [this]; exact ⟨rfl, rfl⟩
  · exact Or.inl this

/-- **C13** in terms of reads: crash a save at any step in any reachable state and reopen the store;
then `Events(0)` returns either what it returned before, or that followed by the whole batch. -/
theorem C13_crash_reads (hz : z.Lawful) (ops : List Op) (hn : ∀ op ∈ ops, op.NamesIn N) (st : Str)
    (expected cancelAt : Option Nat) (ers : List EventRecord)
    (hno : (Op.save st expected cancelAt ers).NamesIn N)
    (hb : (ops.map Op.size).sum + ers.length < 2 ^ 64) (hm : (run z ops).muxHeld = false)
    (ht : (run z ops).txOpen = false) (n len : Nat) (old : Iter)
    (hold : events z (run z ops) none 0 = .ok old)
    (hlen : totalEventsInStream (run z ops) st false = .ok len) :
    events z (reopen (saveSteps z st expected cancelAt ers (run z ops).db n).disk) none 0 = .ok old ∨
    ∃ last, events z (reopen (saveSteps z st expected cancelAt ers (run z ops).db n).disk) none 0
      = .ok ⟨old.recs ++ (numbered st last len ers).map z.view, none⟩ := by
  rcases C13_save (z := z) (run z ops) hm ht st expected cancelAt ers n with h | ⟨k, h1, h2⟩
  · left
    rw [h, ← hold]
    simp [events, reopen, hm]
  · right
    obtain ⟨_, _, last, _, h3, _⟩ :=
      (C11_save_appends hz ops hn st expected cancelAt ers hno hb old len hold hlen).1 k h1
    refine ⟨last, ?_⟩
    rw [h2, ← h3]
    have hmx : (saveEvents z (run z ops) st expected cancelAt ers).state.muxHeld = false := by
      cases hx : (saveEvents z (run z ops) st expected cancelAt ers).state.muxHeld with
      | false => rfl
      | true => simp [events, hx] at h3
    simp [events, reopen, hmx]

/-- **C13**, the state after the crash: crash a save at any step, started in any state in which the store is
not blocked (C14), and reopen the store. It is then in the state before the save, or in the state in which a
successful save would have left it; in particular it is not blocked, and every later call does what it would
have done then. -/
theorem C13_crash_state (s : State) (hm : s.muxHeld = false) (ht : s.txOpen = false) (st : Str)
    (expected cancelAt : Option Nat) (ers : List EventRecord) (n : Nat) :
    (reopen (saveSteps z st expected cancelAt ers s.db n).disk = s ∨
    ∃ k, (saveEvents z s st expected cancelAt ers).out = .ok k ∧
      reopen (saveSteps z st expected cancelAt ers s.db n).disk
        = (saveEvents z s st expected cancelAt ers).state) ∧
    ∀ st' expected' cancelAt' ers',
      (saveEvents z (reopen (saveSteps z st expected cancelAt ers s.db n).disk) st' expected' cancelAt' ers').out
        ≠ .blocked := by
  have hs : s = ⟨s.db, false, false⟩ := by
    cases s; simp_all
  constructor
  · rcases C13_save (z := z) s hm ht st expected cancelAt ers n with h | ⟨k, h1, h2⟩
    · left; rw [h, hs]; rfl
    · right
      refine ⟨k, h1, ?_⟩
      rw [h2]
      simp only [saveEvents] at h1 ⊢
      by_cases hl : ers.length < 1
      · rw [if_pos hl] at h1; simp at h1
      · rw [if_neg hl] at h1 ⊢
        simp only [hm, ht, Bool.false_eq_true, if_false] at h1 ⊢
        split at h1
        · simp at h1
        · simp [reopen, hm, ht]
  · intro st' e' c' ers'
    simp only [saveEvents, reopen, Bool.false_eq_true, if_false]
    split
    · simp
    · split <;> simp

/-- After a crash in the middle of a batch, the batch can be saved again. -/
example : (saveEvents demo (reopen (saveSteps demo sA none none [evA [1], evA [2]] [] 3).disk) sA none none
    [evA [1], evA [2]]).out = .ok 2 := by decide

/-- A crash after the two writes of a batch, before its commit, loses both. -/
example : events demo (reopen (saveSteps demo sA none none [evA [1], evA [2]] [] 3).disk) none 0
      = .ok ⟨[], none⟩ ∧
    (match events demo (reopen (saveSteps demo sA none none [evA [1], evA [2]] [] 4).disk) none 0 with
      | .ok it => it.recs.length | _ => 0) = 2 := by decide

/-! ## C14 -/

/-- The full claim of **C14**: no call ever blocks (with no concurrent calls). -/
def C14_full : Prop :=
  ∀ (z : Serializer), z.Lawful → ∀ (ops : List Op) (st : Str) (e c : Option Nat)
    (ers : List EventRecord), (saveEvents z (run z ops) st e c ers).out ≠ .blocked

/-- **C14 is false**: after deleting a stream that does not exist, the next save blocks forever, and
then every read does. -/
theorem C14_false : ¬ C14_full := by
  intro h
  exact h demo demo_lawful [.delete sA 0 false] sA none none [evA [1]] (by decide)

theorem C14_false_reads :
    events demo (run demo [.save sA none none [evA [1]], .delete sA 7 false,
      .save sB none none [evB [1]]]) none 0 = .blocked := by decide

/-- **C14**, what holds: a failed save changes nothing, and as long as no delete has failed with an
error other than a cancelled context, no save, delete or read blocks. Missing: failed deletes, after
which the claim is false. -/
theorem C14_partial (ops : List Op)
    (hd : ∀ pre st e post, ops = pre ++ Op.delete st e false :: post →
      (deleteStream z (run z pre) st e false).2 = .ok ()) :
    (∀ st e c ers, (saveEvents z (run z ops) st e c ers).out ≠ .blocked ∧
      (∀ x, (saveEvents z (run z ops) st e c ers).out = .err x →
        (saveEvents z (run z ops) st e c ers).state = run z ops)) ∧
    (∀ st e c, (deleteStream z (run z ops) st e c).2 ≠ .blocked) ∧
    (∀ c g, events z (run z ops) c g ≠ .blocked) := by
  have hinv : (run z ops).txOpen = false ∧ (run z ops).muxHeld = false := by
    suffices H : ∀ (n : Nat) (pre : List Op), pre.length = n → (∃ post, ops = pre ++ post) →
        (run z pre).txOpen = false ∧ (run z pre).muxHeld = false from
      H ops.length ops rfl ⟨[], by simp⟩
    intro n
    induction n with
    | zero =>
      intro pre hp _
      rw [List.length_eq_zero_iff.mp hp]
      exact ⟨rfl, rfl⟩
    | succ n ih =>
      intro pre hp hpost
      obtain ⟨post, hpost⟩ := hpost
      have hne : pre ≠ [] := by rintro rfl; simp at hp
      obtain ⟨pre', op, rfl⟩ : ∃ pre' op, pre = pre' ++ [op] :=
        ⟨_, _, (List.dropLast_concat_getLast hne).symm⟩
      have hop : ops = pre' ++ op :: post := by rw [hpost]; simp
      have h0 := ih pre' (by simpa using hp) ⟨op :: post, hop⟩
      have hrun : run z (pre' ++ [op]) = step z (run z pre') op := by simp [run]
      rw [hrun]
      generalize hs : run z pre' = s at *
      cases op with
      | save st e c ers =>
        simp only [step, saveEvents, h0.1, h0.2, Bool.false_eq_true, if_false]
        split
        · exact h0
        · split
          · exact h0
          · exact ⟨rfl, rfl⟩
      | delete st e c =>
        cases c with
        | true => simp only [step, deleteStream, if_true]; exact h0
        | false =>
          have := hd pre' st e post hop
          rw [hs] at this
          simp only [step]
          simp only [deleteStream, h0.1, h0.2, Bool.false_eq_true, if_false] at this ⊢
          split at this
          · simp at this
          · rename_i cnt batch heq
            split at this
            · simp at this
            · rename_i h1
              split at this
              · simp at this
              · rename_i h2
                rw [if_neg h1, if_neg h2]
                exact ⟨rfl, rfl⟩
  obtain ⟨htx, hmx⟩ := hinv
  refine ⟨?_, ?_, ?_⟩
  · intro st e c ers
    simp only [saveEvents, htx, hmx, Bool.false_eq_true, if_false]
    split
    · simp
    · split
      · simp
      · simp
  · intro st e c
    cases c with
    | true => simp [deleteStream]
    | false =>
      simp only [deleteStream, htx, hmx, Bool.false_eq_true, if_false]
      split
      · simp
      · split
        · simp
        · split <;> simp
  · intro c g
    simp [events, hmx]

example : (deleteStream demo (run demo [.save sA none none [evA [1], evA [2]]]) sA 2 false).2 = .ok () := by
  decide

end RangeDB.LD

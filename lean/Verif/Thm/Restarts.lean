import Verif.Proof.Restarts
import Verif.Base.Demo

/-!
# Theorems: a LevelDB store through restarts and crashes (C156), and a client that repeats its save meanwhile (C157)
-/

namespace RangeDB.LD

open Demo KV

variable {N : Names} {z : Serializer}

/-- **C156**: a directory is opened by one process after the other; each may be killed at any moment, within a call or not. Then
the store is one of those that `Life` allows (every call that returned counts, a call in which the process was killed counts as
a whole or not at all): every save and delete returns what it returns there, and every read that returns returns its content. -/
theorem C156 (hz : z.Lawful) (parts : List Part) (hn : ∀ p ∈ parts, p.NamesIn N) (hb : (parts.map Part.size).sum < 2 ^ 64) :
    ∃ A, Life z parts A ∧ A.log.WF ∧
      (∀ st expected cancelAt ers, (Op.save st expected cancelAt ers).NamesIn N →
        (parts.map Part.size).sum + ers.length < 2 ^ 64 →
        (saveEvents z (live z parts) st expected cancelAt ers).out = aSaveOut z A st expected cancelAt ers) ∧
      (∀ st expected cancelled, N.streams st →
        (deleteStream z (live z parts) st expected cancelled).2 = aDeleteOut A st expected cancelled) ∧
      (∀ st, N.streams st → totalEventsInStream (live z parts) st false = .ok (A.log.streamLen st)) ∧
      (A.stuck = false →
        (∀ c g, g < 2 ^ 64 → events z (live z parts) c g = .ok (cut c (A.log.recs.filter (fun r => r.gsn ≥ g)))) ∧
        (∀ g types, g < 2 ^ 64 → types.Nodup → (∀ t ∈ types, N.types t) →
          eventsByAggregateTypes z (live z parts) (fun _ => none) g types =
            .ok ⟨A.log.recs.filter (fun r => decide (r.aggType ∈ types) && decide (r.gsn ≥ g)), none⟩) ∧
        (∀ c n st, N.streams st → eventsByStream z (live z parts) c n st =
          .ok (if A.log.streamLen st = 0 then ⟨[], some .notFound⟩
            else cut c ((A.log.stream st).filter (fun r => r.seq ≥ n))))) := by
  obtain ⟨A, hl, hs, hle⟩ := live_sim hz parts hn hb
  refine ⟨A, hl, hs.wf, fun st e c ers hno hb' => simA_save hz hs st e c ers hno (by omega),
    fun st e c hst => simA_delete hs st e c hst, fun st hst => simA_total hs hst, fun hk => ⟨?_, ?_, ?_⟩⟩
  · intro c g hg
    rw [simA_events hs c g hg, hk]
    rfl
  · intro g types hg hd ht
    exact eventsByAggregateTypes_spec hs.sim hs.wf g hg types hd ht (hs.mux.trans hk)
  · intro c n st hst
    simp only [eventsByStream, hs.mux, hk, Bool.false_eq_true, if_false, prefix_stream hs.sim hs.wf c n hst]

/-- **C156**, nothing is lost: a record that could once be read is read ever after, with the same numbers and bytes, through all
crashes and restarts, unless somebody tries to delete its stream. -/
theorem C156_kept (hz : z.Lawful) (before after : List Part) (hn : ∀ p ∈ before ++ after, p.NamesIn N)
    (hb : ((before ++ after).map Part.size).sum < 2 ^ 64) (it it' : Iter) (r : Record)
    (h1 : events z (live z before) none 0 = .ok it) (hr : r ∈ it.recs) (hk : ∀ p ∈ after, p.Keeps r.streamName)
    (h2 : events z (live z (before ++ after)) none 0 = .ok it') : r ∈ it'.recs := by
  rw [List.map_append, List.sum_append] at hb
  obtain ⟨A, hl, hs, hle⟩ := live_sim hz before (fun p hp => hn p (by simp [hp])) (by omega)
  obtain ⟨A', _, hs', _, hkeep⟩ := parts_sim hz after hs hl (fun p hp => hn p (by simp [hp])) (by omega)
  have hA' : live z (before ++ after) = after.foldl (Part.step z) (live z before) := by simp [live]
  rw [← hA'] at hs'
  rw [simA_events hs none 0 (by decide)] at h1
  rw [simA_events hs' none 0 (by decide)] at h2
  cases hk1 : A.stuck with
  | true => rw [hk1] at h1; simp at h1
  | false =>
    cases hk2 : A'.stuck with
    | true => rw [hk2] at h2; simp at h2
    | false =>
      rw [hk1] at h1
      rw [hk2] at h2
      simp only [Bool.false_eq_true, if_false, Outcome.ok.injEq, ge_iff_le, Nat.zero_le, decide_true, cut] at h1 h2
      subst h1 h2
      simp only [List.mem_filter, and_true] at hr ⊢
      exact hkeep r hr hk

/-- **C156**, a save that returned without an error is not lost: its events are read after any further restarts and crashes. -/
theorem C156_acknowledged (hz : z.Lawful) (before after : List Part) (st : Str) (expected cancelAt : Option Nat)
    (ers : List EventRecord) (hn : ∀ p ∈ before ++ .call (.save st expected cancelAt ers) :: after, p.NamesIn N)
    (hb : ((before ++ .call (.save st expected cancelAt ers) :: after).map Part.size).sum < 2 ^ 64) (k : Nat)
    (hok : (saveEvents z (live z before) st expected cancelAt ers).out = .ok k) (hk : ∀ p ∈ after, p.Keeps st) (it : Iter)
    (h : events z (live z (before ++ .call (.save st expected cancelAt ers) :: after)) none 0 = .ok it) :
    ∃ last len, k = len + ers.length ∧ ∀ r ∈ (numbered st last len ers).map z.view, r ∈ it.recs := by
  simp only [List.map_append, List.map_cons, List.sum_append, List.sum_cons] at hb
  have hsz : (Part.call (.save st expected cancelAt ers)).size = ers.length := rfl
  rw [hsz] at hb
  have hno : (Op.save st expected cancelAt ers).NamesIn N := hn (.call (.save st expected cancelAt ers)) (by simp) _ rfl
  obtain ⟨A, hl, hs, hle⟩ := live_sim hz before (fun p hp => hn p (by simp [hp])) (by omega)
  have hout := simA_save hz hs st expected cancelAt ers hno (by omega)
  rw [hok] at hout
  unfold aSaveOut at hout
  split at hout
  · simp at hout
  · rename_i hne
    split at hout
    · simp at hout
    · rename_i hlk
      split at hout
      · rename_i hp
        simp only [Outcome.ok.injEq] at hout
        refine ⟨A.log.last, A.log.streamLen st, hout, fun r hr => ?_⟩
        have h0 := step_simA hz hs (.save st expected cancelAt ers) hno (by simp only [Op.size]; omega)
        have ha : (aStep z A (.save st expected cancelAt ers)).log = A.log.append z.view st ers := by
          simp only [aStep, if_neg hne, if_neg hlk, hp]
        obtain ⟨A', _, hs', _, hkeep⟩ := parts_sim hz after h0.1 (hl.call (.save st expected cancelAt ers))
          (fun p hp => hn p (by simp [hp])) (by have := h0.2; simp only [Op.size] at this; omega)
        have hA' : live z (before ++ .call (.save st expected cancelAt ers) :: after) =
            after.foldl (Part.step z) (step z (live z before) (.save st expected cancelAt ers)) := by simp [live, Part.step]
        rw [← hA'] at hs'
        rw [simA_events hs' none 0 (by decide)] at h
        cases hk2 : A'.stuck with
        | true => rw [hk2] at h; simp at h
        | false =>
          rw [hk2] at h
          simp only [Bool.false_eq_true, if_false, Outcome.ok.injEq, ge_iff_le, Nat.zero_le, decide_true, cut] at h
          subst h
          simp only [List.mem_filter, and_true]
          refine hkeep r (by rw [ha]; simp [Log.append, hr]) (fun p hp => ?_)
          obtain ⟨r0, hr0, rfl⟩ := List.mem_map.mp hr
          have : (z.view r0).streamName = st := by
            rw [hz.streamName]
            exact numbered_stream hr0
          rw [this]
          exact hk p hp
      · simp at hout

/-- **C156**, after a restart or a crash the store works: no save, delete or read waits for ever, whatever had gone wrong
before (C14). -/
theorem C156_works (z : Serializer) (before : List Part) (p : Part) (hp : p = .restart ∨ ∃ op n, p = .crash op n) :
    (∀ st expected cancelAt ers, (saveEvents z (live z (before ++ [p])) st expected cancelAt ers).out ≠ .blocked) ∧
    (∀ st expected cancelled, (deleteStream z (live z (before ++ [p])) st expected cancelled).2 ≠ .blocked) ∧
    (∀ c g, events z (live z (before ++ [p])) c g ≠ .blocked) ∧
    (∀ c g types, eventsByAggregateTypes z (live z (before ++ [p])) c g types ≠ .blocked) ∧
    (∀ c n st, eventsByStream z (live z (before ++ [p])) c n st ≠ .blocked) := by
  have hs : ∃ db, live z (before ++ [p]) = reopen db := by
    rw [live, List.foldl_append]
    rcases hp with rfl | ⟨op, n, rfl⟩
    · exact ⟨_, rfl⟩
    · rcases crashed_cases (z := z) (before.foldl (Part.step z) init) op n with h | h
      · exact ⟨_, h⟩
      · exact ⟨_, h⟩
  obtain ⟨db, hs⟩ := hs
  rw [hs]
  refine ⟨?_, ?_, ?_, ?_, ?_⟩
  · intro st e c ers
    simp only [saveEvents, reopen, Bool.false_eq_true, if_false]
    split
    · simp
    · split <;> simp
  · intro st e c
    simp only [deleteStream, reopen, Bool.false_eq_true, if_false]
    repeat' split
    all_goals simp
  · intro c g
    simp [events, reopen]
  · intro c g types
    simp [eventsByAggregateTypes, reopen]
  · intro c n st
    simp [eventsByStream, reopen]

/-- A life: two events, a failed delete (after which the store hangs, C14), a restart, a batch in which the process is killed
before its commit, one in which it is killed after it, and one more event. -/
def demoLife : List Part :=
  [.call (.save sA none none [evA [1], evA [2]]), .call (.delete sB 0 false), .call (.save sA none none [evA [3]]), .restart,
   .crash (.save sA (some 2) none [evA [4], evA [5]]) 3, .crash (.save sA (some 2) none [evA [6], evA [7]]) 4,
   .call (.save sA (some 4) none [evA [8]])]

example : (∀ p ∈ demoLife, p.NamesIn Names.plain) ∧ (demoLife.map Part.size).sum < 2 ^ 64 ∧
    (∀ p ∈ demoLife.drop 1, p.Keeps sA) ∧
    (match events demo (live demo demoLife) none 0 with
      | .ok it => it.recs.map (fun r => (r.gsn, r.seq, r.data))
      | _ => []) = [(1, 1, [1]), (2, 2, [2]), (3, 3, [6]), (4, 4, [7]), (5, 5, [8])] := by
  refine ⟨?_, by decide, ?_, by decide⟩
  · intro p hp op ho
    simp only [demoLife, List.mem_cons, List.not_mem_nil, or_false] at hp
    rcases hp with rfl | rfl | rfl | rfl | rfl | rfl | rfl <;>
      simp only [Part.op, Option.some.injEq, reduceCtorEq] at ho <;> subst ho <;>
      simp [Op.NamesIn, Names.plain, sA, sB, evA, ev, NoSep]
  · intro p hp e c ho
    simp only [demoLife, List.drop_succ_cons, List.drop_zero, List.mem_cons, List.not_mem_nil, or_false] at hp
    rcases hp with rfl | rfl | rfl | rfl | rfl | rfl <;> simp [Part.op, sA, sB] at ho

end RangeDB.LD

namespace RangeDB.Rem

open RangeDB.Json RangeDB.Http

variable {N : Names} {z : Serializer} {other : Err → Str}

theorem part_streamLen {A A' : AState} {st : Str} {p : LD.Part} (hk : p.Keeps st) (hz : z.Lawful)
    (h : A'.log = A.log ∨ ∃ op, p.op = some op ∧ A'.log = (aStep z A op).log) :
    A.log.streamLen st ≤ A'.log.streamLen st := by
  rcases h with h | ⟨op, ho, h⟩
  · rw [h]; exact Nat.le_refl _
  · rw [h]
    cases op with
    | save name e c ers =>
      simp only [aStep]
      repeat' split
      all_goals first | exact Nat.le_refl _ | skip
      by_cases hn : name = st
      · subst hn
        simp only [Log.streamLen_append_self hz]
        omega
      · simp only [Log.streamLen, Log.stream_append_other hz A.log ers (Ne.symm hn)]
        exact Nat.le_refl _
    | delete name e c =>
      have hn : name ≠ st := by
        rintro rfl
        exact hk e c ho
      simp only [aStep]
      repeat' split
      all_goals first | exact Nat.le_refl _ | skip
      simp only [Log.streamLen, stream_delete A.log hn]
      exact Nat.le_refl _

theorem part_streamLen_eq {A A' : AState} {st : Str} {p : LD.Part} (hk : p.Elsewhere st) (hz : z.Lawful)
    (h : A'.log = A.log ∨ ∃ op, p.op = some op ∧ A'.log = (aStep z A op).log) :
    A'.log.streamLen st = A.log.streamLen st := by
  rcases h with h | ⟨op, ho, h⟩
  · rw [h]
  · rw [h]
    cases op with
    | save name e c ers =>
      have hn : name ≠ st := by
        rintro rfl
        exact hk.2 e c ers ho
      simp only [aStep]
      repeat' split
      all_goals first | rfl | skip
      simp only [Log.streamLen, Log.stream_append_other hz A.log ers (Ne.symm hn)]
    | delete name e c =>
      have hn : name ≠ st := by
        rintro rfl
        exact hk.1 e c ho
      simp only [aStep]
      repeat' split
      all_goals first | rfl | skip
      simp only [Log.streamLen, stream_delete A.log hn]

/-- Every part of a life is part of some life. -/
theorem part_step (hz : z.Lawful) {s : LD.State} {A : AState} (h : LD.SimA N z s A) (p : LD.Part) (hn : p.NamesIn N)
    (hb : A.log.last + p.size < 2 ^ 64) :
    ∃ A', LD.SimA N z (p.step z s) A' ∧ A'.log.last ≤ A.log.last + p.size ∧
      (A'.log = A.log ∨ ∃ op, p.op = some op ∧ A'.log = (aStep z A op).log) := by
  cases p with
  | call op =>
    have := LD.step_simA hz h op (hn op rfl) hb
    exact ⟨_, this.1, this.2, Or.inr ⟨op, rfl, rfl⟩⟩
  | restart => exact ⟨_, h.reopen, by simp [AState.reopened], Or.inl rfl⟩
  | crash op n =>
    simp only [LD.Part.step]
    rcases LD.crashed_cases (z := z) s op n with h1 | h1
    · exact ⟨A.reopened, by rw [h1]; exact h.reopen, by simp [AState.reopened], Or.inl rfl⟩
    · have := LD.step_simA hz h op (hn op rfl) hb
      exact ⟨(aStep z A op).reopened, by rw [h1]; exact this.1.reopen, this.2, Or.inr ⟨op, rfl, rfl⟩⟩

/-- Once the stream is longer than expected, no attempt changes the disk. -/
theorem lattempts_late (hz : z.Lawful) (other : Err → Str) (fl : Str → Option Str) (st : Str) (hst : N.streams st) (e : Nat) :
    ∀ (turns : List LTurn) (s : LD.State) (A : AState), LD.SimA N z s A → (∀ t ∈ turns, t.Fair N st) →
      A.log.last + (turns.map LTurn.size).sum < 2 ^ 64 → e < A.log.streamLen st →
      ∀ a ∈ lattempts z other fl st (some e) s turns, a.grew st = false ∧ a.after.db = a.before.db ∧ ∀ n, a.told ≠ .ok n
  | [], _, _, _, _, _, _ => by simp [lattempts]
  | .mine t :: turns, s, A, h, hf, hb, he => by
    simp only [List.map_cons, List.sum_cons, LTurn.size] at hb
    obtain ⟨A', h', hle, hc⟩ := lsave_sim hz other fl h st hst e t (hf (.mine t) (by simp)) (by omega)
    rcases hc with ⟨hdb, hlog, hno⟩ | ⟨hx, _⟩
    · intro a ha
      rcases List.mem_cons.mp ha with rfl | ha
      · exact ⟨by simp [LAttempt.grew, LD.simA_total h hst, LD.simA_total h' hst, hlog], hdb, hno⟩
      · exact lattempts_late hz other fl st hst e turns _ A' h' (fun t ht => hf t (by simp [ht])) (by omega)
          (by rw [hlog]; exact he) a ha
    · omega
  | .another p :: turns, s, A, h, hf, hb, he => by
    simp only [List.map_cons, List.sum_cons, LTurn.size] at hb
    have hfo := hf (.another p) (by simp)
    obtain ⟨A', h', hle, hc⟩ := part_step hz h p hfo.1 (by omega)
    exact lattempts_late hz other fl st hst e turns _ A' h' (fun t ht => hf t (by simp [ht])) (by omega)
      (Nat.lt_of_lt_of_le he (part_streamLen hfo.2 hz hc))

/-- **C157**: a client of a remote store whose server keeps its events in LevelDB repeats an `OptimisticSave`; connections break,
and the server is killed and started again, at whatever moments, in its own calls and in those of others. As long as nobody
deletes the stream, at most one of the calls changes what is on the server's disk, and only that one can be answered with
success. -/
theorem C157_once (hz : z.Lawful) (other : Err → Str) (fl : Str → Option Str) (parts : List LD.Part)
    (hn : ∀ p ∈ parts, p.NamesIn N) (st : Str) (hst : N.streams st) (e : Nat) (turns : List LTurn)
    (hf : ∀ t ∈ turns, t.Fair N st) (hb : (parts.map LD.Part.size).sum + (turns.map LTurn.size).sum < 2 ^ 64) :
    let as := lattempts z other fl st (some e) (LD.live z parts) turns
    (as.filter (·.grew st)).length ≤ 1 ∧
    (∀ a ∈ as, a.grew st = false → a.after.db = a.before.db) ∧
    (∀ a ∈ as, ∀ n, a.told = .ok n → a.grew st = true) := by
  have key : ∀ (turns : List LTurn) (s : LD.State) (A : AState), LD.SimA N z s A → (∀ t ∈ turns, t.Fair N st) →
      A.log.last + (turns.map LTurn.size).sum < 2 ^ 64 →
      ((lattempts z other fl st (some e) s turns).filter (·.grew st)).length ≤ 1 ∧
      (∀ a ∈ lattempts z other fl st (some e) s turns, a.grew st = false → a.after.db = a.before.db) ∧
      (∀ a ∈ lattempts z other fl st (some e) s turns, ∀ n, a.told = .ok n → a.grew st = true) := by
    intro turns
    induction turns with
    | nil => intros; simp [lattempts]
    | cons turn turns ih =>
      intro s A h hf hb
      simp only [List.map_cons, List.sum_cons] at hb
      cases turn with
      | another p =>
        simp only [LTurn.size] at hb
        have hfo := hf (.another p) (by simp)
        obtain ⟨A', h', hle, _⟩ := part_step hz h p hfo.1 (by omega)
        exact ih _ A' h' (fun t ht => hf t (by simp [ht])) (by omega)
      | mine t =>
        simp only [LTurn.size] at hb
        obtain ⟨A', h', hle, hc⟩ := lsave_sim hz other fl h st hst e t (hf (.mine t) (by simp)) (by omega)
        have hgrew : LAttempt.grew st ⟨s, (lsave z other fl s st (some e) t).1, (lsave z other fl s st (some e) t).2⟩ =
            decide (A.log.streamLen st ≠ A'.log.streamLen st) := by
          simp [LAttempt.grew, LD.simA_total h hst, LD.simA_total h' hst]
        rcases hc with ⟨hdb, hlog, hno⟩ | ⟨hx, hlt⟩
        · obtain ⟨i1, i2, i3⟩ := ih _ A' h' (fun t ht => hf t (by simp [ht])) (by omega)
          rw [hlog] at hgrew
          simp only [ne_eq, not_true, decide_false] at hgrew
          refine ⟨?_, ?_, ?_⟩
          · simp only [lattempts, List.filter_cons, hgrew, Bool.false_eq_true, if_false]
            exact i1
          · intro a ha
            rcases List.mem_cons.mp ha with rfl | ha
            · exact fun _ => hdb
            · exact i2 a ha
          · intro a ha n hn
            rcases List.mem_cons.mp ha with rfl | ha
            · exact absurd hn (hno n)
            · exact i3 a ha n hn
        · have hlate := lattempts_late hz other fl st hst e turns _ A' h' (fun t ht => hf t (by simp [ht])) (by omega)
            (by omega)
          have hgrew : LAttempt.grew st ⟨s, (lsave z other fl s st (some e) t).1, (lsave z other fl s st (some e) t).2⟩ =
              true := by
            rw [hgrew, decide_eq_true_eq]
            omega
          refine ⟨?_, ?_, ?_⟩
          · simp only [lattempts, List.filter_cons, hgrew, if_true, List.length_cons]
            rw [List.filter_eq_nil_iff.mpr (fun a ha => by simp [(hlate a ha).1])]
            simp
          · intro a ha
            rcases List.mem_cons.mp ha with rfl | ha
            · exact fun hn => by rw [hgrew] at hn; simp at hn
            · exact fun _ => (hlate a ha).2.1
          · intro a ha n hn
            rcases List.mem_cons.mp ha with rfl | ha
            · exact hgrew
            · exact absurd hn ((hlate a ha).2.2 n)
  obtain ⟨A, _, hs, hle⟩ := LD.live_sim hz parts hn (by omega)
  exact key turns _ A hs hf (by omega)

/-- **C157**, what a refusal says: if nobody else uses the stream and the client started from its end, a call that is refused
because of the sequence number tells it that one of its earlier calls is on the server's disk. -/
theorem C157_learned (hz : z.Lawful) (hq : Quiet other) (fl : Str → Option Str) (parts : List LD.Part)
    (hn : ∀ p ∈ parts, p.NamesIn N) (st : Str) (hst : N.streams st) (e : Nat)
    (he : LD.totalEventsInStream (LD.live z parts) st false = .ok e) (turns : List LTurn)
    (hf : ∀ t ∈ turns, t.Fair N st ∧ t.Alone st)
    (hb : (parts.map LD.Part.size).sum + (turns.map LTurn.size).sum < 2 ^ 64) (pre post : List LAttempt) (a : LAttempt)
    (has : lattempts z other fl st (some e) (LD.live z parts) turns = pre ++ a :: post) (x y : Nat)
    (ht : a.told = .err (.store (.unexpected x y))) : ∃ b ∈ pre, b.grew st = true := by
  have key : ∀ (turns : List LTurn) (s : LD.State) (A : AState) (pre : List LAttempt), LD.SimA N z s A →
      (∀ t ∈ turns, t.Fair N st ∧ t.Alone st) → A.log.last + (turns.map LTurn.size).sum < 2 ^ 64 → A.log.streamLen st = e →
      lattempts z other fl st (some e) s turns = pre ++ a :: post → ∃ b ∈ pre, b.grew st = true := by
    intro turns
    induction turns with
    | nil => intro s A pre _ _ _ _ h; simp [lattempts] at h
    | cons turn turns ih =>
      intro s A pre h hf hb hlen has
      have hf' : ∀ t ∈ turns, t.Fair N st ∧ t.Alone st := fun t ht => hf t (by simp [ht])
      simp only [List.map_cons, List.sum_cons] at hb
      cases turn with
      | another p =>
        simp only [LTurn.size] at hb
        obtain ⟨hfo, hao⟩ := hf (.another p) (by simp)
        obtain ⟨A', h', hle, hc⟩ := part_step hz h p hfo.1 (by omega)
        exact ih _ A' pre h' hf' (by omega) (by rw [part_streamLen_eq hao hz hc, hlen]) has
      | mine t =>
        simp only [LTurn.size] at hb
        obtain ⟨hft, hat⟩ := hf (.mine t) (by simp)
        cases pre with
        | nil =>
          exfalso
          simp only [lattempts, List.nil_append, List.cons.injEq] at has
          obtain ⟨rfl, -⟩ := has
          obtain ⟨fate, c, ers⟩ := t
          cases fate with
          | killed n status =>
            have := refusal_store hq (.noReply status) (fun s st e ers => (LD.crashed z s (.save st e c ers) n, .blocked)) fl s
              st (some e) ers hat x y ht
            simp at this
          | net net =>
            obtain ⟨rfl, ers', hnames, x', y', ho⟩ := refusal_store hq net
              (fun s st e ers => ((LD.saveEvents z s st e c ers).state, (LD.saveEvents z s st e c ers).out)) fl s
              st (some e) ers (by cases net <;> first | trivial | exact hat) x y ht
            have hl : ers'.length = ers.length := by simpa using congrArg List.length hnames
            have hno : (Op.save st (some e) c ers').NamesIn N := ⟨hst, names_of hnames hft⟩
            simp only at ho hb
            rw [LD.simA_save hz h st (some e) c ers' hno (by omega)] at ho
            unfold aSaveOut at ho
            split at ho
            · simp at ho
            · split at ho
              · simp at ho
              · split at ho
                · simp at ho
                · rename_i j w hp
                  simp only [Outcome.err.injEq] at ho
                  subst ho
                  rw [batchProblem, ← hlen] at hp
                  exact firstProblem_expected _ _ _ _ _ _ _ _ _ _ _ hp
        | cons b pre =>
          simp only [lattempts, List.cons_append, List.cons.injEq] at has
          obtain ⟨rfl, has⟩ := has
          obtain ⟨A', h', hle, hc⟩ := lsave_sim hz other fl h st hst e t hft (by omega)
          rcases hc with ⟨_, hlog, _⟩ | ⟨hx, hlt⟩
          · obtain ⟨b, hb, hgr⟩ := ih _ A' pre h' hf' (by omega) (by rw [hlog, hlen]) has
            exact ⟨b, by simp [hb], hgr⟩
          · refine ⟨_, List.mem_cons_self, ?_⟩
            simp only [LAttempt.grew, LD.simA_total h hst, LD.simA_total h' hst, ne_eq, Outcome.ok.injEq, decide_eq_true_eq]
            omega
  obtain ⟨A, _, hs, hle⟩ := LD.live_sim hz parts hn (by omega)
  rw [LD.simA_total hs hst] at he
  exact key turns _ A pre hs hf (by omega) (Outcome.ok.inj he) has

/-- The first call is killed before its commit, the second after it; then somebody else saves, and the third is refused. -/
example : ((lattempts (serializer unbound) demoOther demoFl [65, 33, 49] (some 0) LD.init
      [.mine ⟨.killed 1 tClosing, none, [demoRemEr]⟩, .mine ⟨.killed 3 tClosing, none, [demoRemEr]⟩,
       .another (.call (.save [66, 33, 49] none none [demoRemEr])), .another .restart,
       .mine ⟨.net .fine, none, [demoRemEr]⟩]).map
        (fun a => (a.told, LD.totalEventsInStream a.after [65, 33, 49] false))) =
      [(.err (.rpc (tCode ++ tClosing)), .ok 0), (.err (.rpc (tCode ++ tClosing)), .ok 1),
       (.err (.store (.unexpected 0 1)), .ok 1)] := by decide +kernel

/-- The turns of the example meet the hypotheses. -/
example : (∀ t ∈ [LTurn.mine ⟨.killed 1 tClosing, none, [demoRemEr]⟩, .another .restart], t.Fair Names.plain [65, 33, 49] ∧
    t.Alone [65, 33, 49]) ∧ Names.plain.streams [65, 33, 49] := by
  refine ⟨?_, show NoSep _ = true by decide⟩
  intro t ht
  simp only [List.mem_cons, List.not_mem_nil, or_false] at ht
  rcases ht with rfl | rfl
  · refine ⟨?_, by show contains (tCode ++ tClosing) tErrUnexpected = false; decide +kernel⟩
    intro er her
    simp only [List.mem_singleton] at her
    subst her
    show NoSep _ = true
    decide
  · exact ⟨⟨fun op h => by simp [LD.Part.op] at h, fun _ _ h => by simp [LD.Part.op] at h⟩,
      fun _ _ h => by simp [LD.Part.op] at h, fun _ _ _ h => by simp [LD.Part.op] at h⟩

end RangeDB.Rem

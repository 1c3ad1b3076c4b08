import Verif.Spec.BrokenCalls
import Verif.Thm.Remote
import Verif.Thm.Optimistic

/-!
# Theorems: calls of the remote store over connections that break (C136)
-/

namespace RangeDB.Rem

open RangeDB.Json RangeDB.Http RangeDB.IM

/-- Over a connection that works, the call is `save`. -/
theorem saveOver_fine {σ : Type} (other : Err → Str) (store : σ → Str → Option Nat → List EventRecord → σ × Outcome Nat)
    (fl : Str → Option Str) (s : σ) (stream : Str) (expected : Option Nat) (ers : List EventRecord) :
    saveOver .fine other store fl s stream expected ers = save other store fl s stream expected ers := rfl

/-- **C136**, one call, any store of the server: whatever becomes of it, the server's store is as it was or as the call that
arrives leaves it; and a client that is told of success got the reply of the store. -/
theorem C136_either {σ : Type} (net : Net) (other : Err → Str)
    (store : σ → Str → Option Nat → List EventRecord → σ × Outcome Nat) (fl : Str → Option Str) (s : σ) (stream : Str)
    (expected : Option Nat) (ers : List EventRecord) :
    let p := saveOver net other store fl s stream expected ers
    let q := save other store fl s stream expected ers
    (p.1 = s ∨ p.1 = q.1) ∧ ∀ n, p.2 = .ok n → p = q := by
  intro p q
  by_cases hlen : ers.length < 1
  · have hp : p = q := by simp only [p, q, saveOver, save, if_pos hlen]
    exact ⟨Or.inr (by rw [hp]), fun _ _ => hp⟩
  · cases hce : clientEvents [] [] ers with
    | error e =>
      have hp : p = q := by simp only [p, q, saveOver, save, if_neg hlen, hce]
      exact ⟨Or.inr (by rw [hp]), fun _ _ => hp⟩
    | ok es =>
      by_cases hv : (!(decide (Valid stream) && es.all PbEvent.sendable)) = true
      · have hp : p = q := by simp only [p, q, saveOver, save, if_neg hlen, hce, if_pos hv]
        exact ⟨Or.inr (by rw [hp]), fun _ _ => hp⟩
      · simp only [p, q, saveOver, save, if_neg hlen, hce, if_neg hv]
        cases net with
        | fine => exact ⟨Or.inr rfl, fun _ _ => rfl⟩
        | noRequest t => exact ⟨Or.inl rfl, fun n h => by simp at h⟩
        | noReply t => exact ⟨Or.inr rfl, fun n h => by simp at h⟩

/-- The claim: a save through the remote store that returned an error has saved nothing, provided that this is so of the
server's store. -/
def C136_full : Prop :=
  ∀ (net : Net) (other : Err → Str) (fl : Str → Option Str) (ops : List Op) (stream : Str) (expected : Option Nat)
    (ers : List EventRecord) (e : CErr),
    (saveOver net other (imSaveAt (serializer unbound) none) fl (run (serializer unbound) ops) stream expected ers).2 = .err e →
    SameReads (serializer unbound) (run (serializer unbound) ops)
      (saveOver net other (imSaveAt (serializer unbound) none) fl (run (serializer unbound) ops) stream expected ers).1

/-- `Unavailable desc = transport is closing` -/
def tClosing : Str :=
  [85, 110, 97, 118, 97, 105, 108, 97, 98, 108, 101, 32, 100, 101, 115, 99, 32, 61, 32, 116, 114, 97, 110, 115, 112, 111, 114,
   116, 32, 105, 115, 32, 99, 108, 111, 115, 105, 110, 103]

/-- It is false if the reply is lost. -/
theorem C136_false : ¬ C136_full := by
  intro h
  have := (h (.noReply tClosing) demoOther demoFl [] [65, 33, 49] none [demoRemEr] (.rpc (tCode ++ tClosing))
    (by decide +kernel)).2.2.2 [65, 33, 49] false
  exact absurd this (by decide +kernel)

/-- **C136 is false of a repeated `Save`**: the client, told of a broken connection, saves again, and the event is stored twice. -/
theorem C136_twice :
    ((attempts (serializer unbound) demoOther demoFl [65, 33, 49] none IM.init
      [.mine ⟨.noReply tClosing, none, [demoRemEr]⟩, .mine ⟨.fine, none, [demoRemEr]⟩]).map
        (fun a => (a.told, totalEventsInStream a.after [65, 33, 49] false))) =
      [(.err (.rpc (tCode ++ tClosing)), .ok 1), (.ok 2, .ok 2)] := by decide +kernel

/-! ## Repeating an optimistic save -/

variable {z : Serializer}

/-- What the server's store is handed keeps the aggregate of every event. -/
theorem clientEvents_names : ∀ (ers : List EventRecord) (t i : Str) (es : List PbEvent), clientEvents t i ers = .ok es →
    es.map (fun e => (e.aggType, e.aggId)) = ers.map (fun er => (er.event.aggType, er.event.aggId))
  | [], _, _, es, h => by simp only [clientEvents, Except.ok.injEq] at h; subst h; rfl
  | er :: ers, t, i, es, h => by
    simp only [clientEvents] at h
    repeat' split at h
    all_goals first | (simp at h; done) | skip
    rename_i es' h'
    simp only [Except.ok.injEq] at h
    subst h
    simp [clientEvents_names ers _ _ es' h']

theorem serverEvents_names {fl : Str → Option Str} : ∀ (es : List PbEvent) (ers : List EventRecord),
    serverEvents fl es = .ok ers → ers.map (fun er => (er.event.aggType, er.event.aggId)) = es.map (fun e => (e.aggType, e.aggId))
  | [], ers, h => by simp only [serverEvents, Except.ok.injEq] at h; subst h; rfl
  | e :: es, ers, h => by
    simp only [serverEvents] at h
    repeat' split at h
    all_goals first | (simp at h; done) | skip
    all_goals
      rename_i ers' h'
      simp only [Except.ok.injEq] at h
      subst h
      simp [serverEvents_names es ers' h']

/-- What an attempt does on the server: nothing, or a save of events of the same aggregates. -/
theorem saveOver_step (net : Net) (other : Err → Str) (cancelAt : Option Nat) (fl : Str → Option Str) (s : IM.State)
    (stream : Str) (expected : Option Nat) (ers : List EventRecord)
    (hn : ∀ er ∈ ers, stream = getStream er.event.aggType er.event.aggId) :
    (saveOver net other (imSaveAt z cancelAt) fl s stream expected ers).1 = s ∧
      (∀ n, (saveOver net other (imSaveAt z cancelAt) fl s stream expected ers).2 ≠ .ok n) ∨
    ∃ ers', (∀ er ∈ ers', stream = getStream er.event.aggType er.event.aggId) ∧ ers'.length = ers.length ∧
      (saveOver net other (imSaveAt z cancelAt) fl s stream expected ers).1 =
        step z s (.save stream expected cancelAt ers') ∧
      ∀ n, (saveOver net other (imSaveAt z cancelAt) fl s stream expected ers).2 = .ok n →
        (saveEvents z s stream expected cancelAt ers').out = .ok n := by
  unfold saveOver
  split
  · exact Or.inl ⟨rfl, by simp⟩
  · split
    · exact Or.inl ⟨rfl, by simp⟩
    · rename_i es hes
      split
      · exact Or.inl ⟨rfl, by simp⟩
      · cases hse : serverEvents fl es with
        | error t =>
          refine Or.inl ?_
          cases net <;> simp [serverSave, hse]
        | ok ers' =>
          have hnames := (serverEvents_names es ers' hse).trans (clientEvents_names ers [] [] es hes)
          have hlen : ers'.length = ers.length := by simpa using congrArg List.length hnames
          have hst : ∀ er ∈ ers', stream = getStream er.event.aggType er.event.aggId := by
            intro er her
            have : (er.event.aggType, er.event.aggId) ∈ ers.map (fun er => (er.event.aggType, er.event.aggId)) := by
              rw [← hnames]; exact List.mem_map_of_mem her
            obtain ⟨x, hx, hxe⟩ := List.mem_map.mp this
            rw [Prod.mk.injEq] at hxe
            rw [← hxe.1, ← hxe.2]
            exact hn x hx
          cases net with
          | noRequest t => exact Or.inl ⟨rfl, by simp⟩
          | noReply t => exact Or.inr ⟨ers', hst, hlen, by simp [serverSave, hse, imSaveAt, step], by simp⟩
          | fine =>
            refine Or.inr ⟨ers', hst, hlen, by simp [serverSave, hse, imSaveAt, step], ?_⟩
            intro n hn
            simp only [serverSave, hse, imSaveAt] at hn
            cases ho : (saveEvents z s stream expected cancelAt ers').out <;> rw [ho] at hn <;> simp at hn
            rw [hn]

/-- An optimistic save changes nothing that is read, or finds the stream as long as expected and makes it longer. -/
theorem spec_attempt (hz : z.Lawful) (L : Log) (st : Str) (e : Nat) (cancelAt : Option Nat) (ers : List EventRecord) :
    (specStep z L (.save st (some e) cancelAt ers)).recs = L.recs ∨
    L.streamLen st = e ∧ L.streamLen st < (specStep z L (.save st (some e) cancelAt ers)).streamLen st := by
  have happ : ∀ l : List EventRecord, (L.append z.view st l).recs = L.recs ∨
      L.streamLen st < (L.append z.view st l).streamLen st := by
    intro l
    cases l with
    | nil => exact Or.inl (by simp [Log.append, numbered])
    | cons a l => exact Or.inr (by rw [Log.streamLen_append_self hz]; simp)
  cases ers with
  | nil => exact Or.inl rfl
  | cons er ers =>
    by_cases hlen : L.streamLen st = e
    · simp only [specStep, List.cons_ne_nil, if_false]
      split
      · exact (happ _).imp id (fun h => ⟨hlen, h⟩)
      · rename_i j x _
        unfold afterFail
        split
        · exact Or.inl rfl
        · exact Or.inl rfl
        · exact (happ _).imp id (fun h => ⟨hlen, h⟩)
    · refine Or.inl ?_
      have hp : ∃ x, batchProblem z L st (some e) cancelAt (er :: ers) = some (0, x) := by
        simp only [batchProblem, firstProblem, problem, differs, Bool.false_eq_true, if_false]
        split
        · exact ⟨_, rfl⟩
        · rename_i h
          exfalso
          split at h
          · simp at h
          · rw [if_pos (Ne.symm hlen)] at h
            simp at h
      obtain ⟨x, hp⟩ := hp
      simp only [specStep, List.cons_ne_nil, if_false, hp]
      unfold afterFail
      split
      · rfl
      · rfl
      · simp [Log.append, numbered]

theorem unchanged_of {s s' : IM.State} {L L' : Log} (hL : L.WF) (h : Sim z s L) (hL' : L'.WF) (h' : Sim z s' L')
    (hr : L'.recs = L.recs) : Unchanged z s s' := by
  have hlen : ∀ n, L'.streamLen n = L.streamLen n := fun n => by simp [Log.streamLen, Log.stream, hr]
  have hstr : ∀ n, L'.stream n = L.stream n := fun n => by simp [Log.stream, hr]
  refine ⟨fun c g => ?_, fun c n st => ?_, fun g ts hd => ?_, fun st => ?_⟩
  · rw [events_spec h, events_spec h', hr]
  · rw [eventsByStream_spec h, eventsByStream_spec h', hlen, hstr]
  · rw [eventsByAggregateTypes_spec h hL g ts hd, eventsByAggregateTypes_spec h' hL' g ts hd, hr]
  · rw [total_spec h, total_spec h', hlen]

/-- One attempt, on the log. -/
theorem attempt_sim (hz : z.Lawful) {s : IM.State} {L : Log} (hL : L.WF) (h : Sim z s L) (other : Err → Str)
    (fl : Str → Option Str) (st : Str) (e : Nat) (t : Try) (hf : (Turn.mine t).Fair z st) :
    ∃ L', L'.WF ∧ Sim z (saveOver t.net other (imSaveAt z t.cancelAt) fl s st (some e) t.ers).1 L' ∧
      (L'.recs = L.recs ∧
        (∀ n, (saveOver t.net other (imSaveAt z t.cancelAt) fl s st (some e) t.ers).2 ≠ .ok n) ∨
       L.streamLen st = e ∧ L.streamLen st < L'.streamLen st) := by
  rcases saveOver_step (z := z) t.net other t.cancelAt fl s st (some e) t.ers hf with ⟨h1, h2⟩ | ⟨ers', h1, h2, h3, h4⟩
  · exact ⟨L, hL, by rw [h1]; exact h, Or.inl ⟨rfl, h2⟩⟩
  · have hg : Op.Guarded z (.save st (some e) t.cancelAt ers') := Or.inl h1
    refine ⟨specStep z L (.save st (some e) t.cancelAt ers'), specStep_WF hz hL _, ?_, ?_⟩
    · rw [h3]; exact step_sim hz hL h _ hg
    · by_cases hs : L.streamLen st = e ∧
          L.streamLen st < (specStep z L (.save st (some e) t.cancelAt ers')).streamLen st
      · exact Or.inr hs
      · refine Or.inl ⟨(spec_attempt hz L st e t.cancelAt ers').resolve_right hs, fun n hn => hs ?_⟩
        have hok := h4 n hn
        have hne : ers' ≠ [] := by
          rintro rfl
          simp [saveEvents] at hok
        have hspec := saveEvents_spec hz hL h st (some e) t.cancelAt ers' (Or.inl h1) hne
        cases hp : batchProblem z L st (some e) t.cancelAt ers' with
        | none =>
          have hgrow : L.streamLen st < (specStep z L (.save st (some e) t.cancelAt ers')).streamLen st := by
            simp only [specStep, if_neg hne, hp, Log.streamLen_append_self hz]
            have := List.length_pos_iff.mpr hne
            omega
          refine ⟨?_, hgrow⟩
          rcases spec_attempt hz L st e t.cancelAt ers' with h0 | h0
          · simp [Log.streamLen, Log.stream, h0] at hgrow
          · exact h0.1
        | some p =>
          obtain ⟨j, x⟩ := p
          rw [(hspec.2 j x hp).1] at hok
          simp at hok

theorem another_grows (L : Log) (st : Str) (op : Op) (hf : (Turn.another op).Fair z st) :
    L.streamLen st ≤ (specStep z L op).streamLen st := by
  obtain ⟨x, hx⟩ := specStep_grows z L st op (by cases op <;> simp_all [Turn.Fair, Op.Keeps])
  simp [Log.streamLen, hx]

/-- Once the stream is longer than expected, no attempt changes it. -/
theorem attempts_late (hz : z.Lawful) (other : Err → Str) (fl : Str → Option Str) (st : Str) (e : Nat) :
    ∀ (turns : List Turn) (s : IM.State) (L : Log), L.WF → Sim z s L → (∀ t ∈ turns, t.Fair z st) → e < L.streamLen st →
      ∀ a ∈ attempts z other fl st (some e) s turns, a.grew st = false ∧ Unchanged z a.before a.after ∧ ∀ n, a.told ≠ .ok n
  | [], _, _, _, _, _, _ => by simp [attempts]
  | .mine t :: turns, s, L, hL, h, hf, he => by
    obtain ⟨L', hL', h', hc⟩ := attempt_sim hz hL h other fl st e t (hf _ (by simp))
    rcases hc with ⟨hr, hno⟩ | ⟨hx, _⟩
    · intro a ha
      rcases List.mem_cons.mp ha with rfl | ha
      · have hu := unchanged_of hL h hL' h' hr
        refine ⟨?_, hu, hno⟩
        simp only [Attempt.grew, hu.2.2.2 st, ne_eq, not_true, decide_false]
      · exact attempts_late hz other fl st e turns _ L' hL' h' (fun t ht => hf t (by simp [ht]))
          (by rw [show L'.streamLen st = L.streamLen st by simp [Log.streamLen, Log.stream, hr]]; exact he) a ha
    · omega
  | .another op :: turns, s, L, hL, h, hf, he => by
    have hfo := hf (.another op) (by simp)
    exact attempts_late hz other fl st e turns _ _ (specStep_WF hz hL op) (step_sim hz hL h op hfo.1)
      (fun t ht => hf t (by simp [ht])) (Nat.lt_of_lt_of_le he (another_grows L st op hfo))

/-- **C136**, an optimistic save that is repeated any number of times, whatever happens to the calls and their replies, and
whatever others do meanwhile short of deleting the stream: at most one of the calls changes the store, all others change no
read; and at most one is answered with success: the one that changed it. -/
theorem C136_once (hz : z.Lawful) (other : Err → Str) (fl : Str → Option Str) (ops : List Op) (hg : ∀ op ∈ ops, op.Guarded z)
    (st : Str) (e : Nat) (turns : List Turn) (hf : ∀ t ∈ turns, t.Fair z st) :
    let as := attempts z other fl st (some e) (run z ops) turns
    (as.filter (·.grew st)).length ≤ 1 ∧
    (∀ a ∈ as, a.grew st = false → Unchanged z a.before a.after) ∧
    (∀ a ∈ as, ∀ n, a.told = .ok n → a.grew st = true) := by
  have key : ∀ (turns : List Turn) (s : IM.State) (L : Log), L.WF → Sim z s L → (∀ t ∈ turns, t.Fair z st) →
      ((attempts z other fl st (some e) s turns).filter (·.grew st)).length ≤ 1 ∧
      (∀ a ∈ attempts z other fl st (some e) s turns, a.grew st = false → Unchanged z a.before a.after) ∧
      (∀ a ∈ attempts z other fl st (some e) s turns, ∀ n, a.told = .ok n → a.grew st = true) := by
    intro turns
    induction turns with
    | nil => intros; simp [attempts]
    | cons turn turns ih =>
      intro s L hL h hf
      cases turn with
      | another op =>
        have hfo := hf (.another op) (by simp)
        exact ih _ _ (specStep_WF hz hL op) (step_sim hz hL h op hfo.1) (fun t ht => hf t (by simp [ht]))
      | mine t =>
        obtain ⟨L', hL', h', hc⟩ := attempt_sim hz hL h other fl st e t (hf _ (by simp))
        rcases hc with ⟨hr, hno⟩ | ⟨hx, hlt⟩
        · have hu := unchanged_of hL h hL' h' hr
          obtain ⟨i1, i2, i3⟩ := ih _ L' hL' h' (fun t ht => hf t (by simp [ht]))
          have hgrew : Attempt.grew st ⟨s, (saveOver t.net other (imSaveAt z t.cancelAt) fl s st (some e) t.ers).1,
              (saveOver t.net other (imSaveAt z t.cancelAt) fl s st (some e) t.ers).2⟩ = false := by
            simp only [Attempt.grew, hu.2.2.2 st, ne_eq, not_true, decide_false]
          refine ⟨?_, ?_, ?_⟩
          · simp only [attempts, List.filter_cons, hgrew, Bool.false_eq_true, if_false]
            exact i1
          · intro a ha
            rcases List.mem_cons.mp ha with rfl | ha
            · exact fun _ => hu
            · exact i2 a ha
          · intro a ha n hn
            rcases List.mem_cons.mp ha with rfl | ha
            · exact absurd hn (hno n)
            · exact i3 a ha n hn
        · have hlate := attempts_late hz other fl st e turns _ L' hL' h' (fun t ht => hf t (by simp [ht])) (by omega)
          have hgrew : Attempt.grew st ⟨s, (saveOver t.net other (imSaveAt z t.cancelAt) fl s st (some e) t.ers).1,
              (saveOver t.net other (imSaveAt z t.cancelAt) fl s st (some e) t.ers).2⟩ = true := by
            simp only [Attempt.grew, total_spec h, total_spec h', ne_eq, Outcome.ok.injEq, decide_eq_true_eq]
            omega
          refine ⟨?_, ?_, ?_⟩
          · simp only [attempts, List.filter_cons, hgrew, if_true, List.length_cons]
            rw [List.filter_eq_nil_iff.mpr (fun a ha => by simp [(hlate a ha).1])]
            simp
          · intro a ha
            rcases List.mem_cons.mp ha with rfl | ha
            · exact fun hn => by rw [hgrew] at hn; simp at hn
            · exact fun _ => (hlate a ha).2.1
          · intro a ha n hn
            rcases List.mem_cons.mp ha with rfl | ha
            · exact hgrew
            · exact absurd hn ((hlate a ha).2.2 n)
  obtain ⟨hL, hs⟩ := run_sim hz ops hg
  exact key turns _ _ hL hs hf

theorem firstProblem_expected (ser : Record → Option Str) (st : Str) (c : Option Nat) : ∀ (ers : List EventRecord)
    (g q i : Nat) (prev : Option EventRecord) (j x y : Nat),
    firstProblem ser st c g q (some q) i prev ers ≠ some (j, .unexpected x y)
  | [], _, _, _, _, _, _, _ => by simp [firstProblem]
  | er :: ers, g, q, i, prev, j, x, y => by
    simp only [firstProblem, problem, ne_eq, not_true, if_false, Option.map_some]
    have ih := firstProblem_expected ser st c ers (g + 1) (q + 1) (i + 1) (some er) j x y
    repeat' split
    all_goals first | exact ih | skip
    all_goals
      rename_i h
      repeat' split at h
      all_goals simp at h
      all_goals (subst h; simp)

theorem serverEvents_quiet {fl : Str → Option Str} : ∀ (es : List PbEvent) (t : Str), serverEvents fl es = .error t →
    contains (tCode ++ t) tErrUnexpected = false
  | [], t, h => by simp [serverEvents] at h
  | e :: es, t, h => by
    simp only [serverEvents] at h
    split at h
    · simp only [Except.error.injEq] at h; subst h; decide +kernel
    · split at h
      · simp only [Except.error.injEq] at h; subst h; decide +kernel
      · split at h
        · rename_i t' h'
          simp only [Except.error.injEq] at h
          subst h
          exact serverEvents_quiet es _ h'
        · simp at h

theorem saveError_quiet {b : Bool} {t : Str} (h : contains t tErrUnexpected = false) (x y : Nat) :
    saveError b t ≠ .store (.unexpected x y) := by
  unfold saveError
  simp only [h, Bool.and_false, Bool.false_eq_true, if_false]
  split <;> simp

/-- A refusal comes from the server's store. -/
theorem told_unexpected (hq : Quiet other) (t : Try) (ha : (Turn.mine t).Alone st) (fl : Str → Option Str) (s : IM.State)
    (expected : Option Nat) (hf : (Turn.mine t).Fair z st) (x y : Nat)
    (h : (saveOver t.net other (imSaveAt z t.cancelAt) fl s st expected t.ers).2 = .err (.store (.unexpected x y))) :
    ∃ ers', ers' ≠ [] ∧ (∀ er ∈ ers', st = getStream er.event.aggType er.event.aggId) ∧
      ∃ x' y', (saveEvents z s st expected t.cancelAt ers').out = .err (.unexpected x' y') := by
  unfold saveOver at h
  split at h
  · simp at h
  · rename_i hlen
    split at h
    · rename_i e he
      exfalso
      simp only [CResult.err.injEq] at h
      subst h
      have : ∀ (ers : List EventRecord) (a b : Str), clientEvents a b ers ≠ .error (.store (.unexpected x y)) := by
        intro ers
        induction ers with
        | nil => intro a b; simp [clientEvents]
        | cons er ers ih =>
          intro a b
          simp only [clientEvents]
          repeat' split
          all_goals first | simp | skip
          rename_i h
          intro hc
          subst hc
          exact ih _ _ h
      exact this _ _ _ he
    · rename_i es hes
      split at h
      · simp at h
      · obtain ⟨net, c, ers⟩ := t
        cases net with
        | noRequest u =>
          simp only [CResult.err.injEq] at h
          exact absurd h (saveError_quiet ha x y)
        | noReply u =>
          simp only [CResult.err.injEq] at h
          exact absurd h (saveError_quiet ha x y)
        | fine =>
          cases hse : serverEvents fl es with
          | error u =>
            simp only [serverSave, hse, CResult.err.injEq] at h
            exact absurd h (saveError_quiet (serverEvents_quiet es u hse) x y)
          | ok ers' =>
            have hnames := (serverEvents_names es ers' hse).trans (clientEvents_names ers [] [] es hes)
            have hl : ers'.length = ers.length := by simpa using congrArg List.length hnames
            refine ⟨ers', ?_, ?_, ?_⟩
            · rintro rfl
              simp only [List.length_nil] at hl
              simp only at hlen
              omega
            · intro er her
              have : (er.event.aggType, er.event.aggId) ∈ ers.map (fun er => (er.event.aggType, er.event.aggId)) := by
                rw [← hnames]; exact List.mem_map_of_mem her
              obtain ⟨w, hw, hwe⟩ := List.mem_map.mp this
              rw [Prod.mk.injEq] at hwe
              rw [← hwe.1, ← hwe.2]
              exact hf w hw
            · simp only [serverSave, hse, imSaveAt] at h ⊢
              cases ho : (saveEvents z s st expected c ers').out with
              | err e =>
                rw [ho] at h
                simp only [CResult.err.injEq, saveError, internal_canceled hq, Bool.false_eq_true, if_false,
                  internal_unexpected] at h
                by_cases hc : (expected.isSome && contains (errText other e) tErrUnexpected) = true
                · rw [Bool.and_eq_true] at hc
                  obtain ⟨x', y', rfl⟩ := (errText_unexpected hq e).mp hc.2
                  exact ⟨x', y', rfl⟩
                · rw [if_neg hc] at h; simp at h
              | _ => rw [ho] at h; simp at h

/-- **C136**, what a refusal says: if nobody else uses the stream and the client started from its end, a call that is refused
because of the sequence number tells it that one of its earlier calls, whose reply it did not get, was carried out. -/
theorem C136_learned (hz : z.Lawful) (hq : Quiet other) (fl : Str → Option Str) (ops : List Op)
    (hg : ∀ op ∈ ops, op.Guarded z) (st : Str) (e : Nat) (he : totalEventsInStream (run z ops) st false = .ok e)
    (turns : List Turn) (hf : ∀ t ∈ turns, t.Fair z st ∧ t.Alone st) (pre post : List Attempt) (a : Attempt)
    (has : attempts z other fl st (some e) (run z ops) turns = pre ++ a :: post) (x y : Nat)
    (ht : a.told = .err (.store (.unexpected x y))) : ∃ b ∈ pre, b.grew st = true := by
  have key : ∀ (turns : List Turn) (s : IM.State) (L : Log) (pre : List Attempt), L.WF → Sim z s L →
      (∀ t ∈ turns, t.Fair z st ∧ t.Alone st) → L.streamLen st = e →
      attempts z other fl st (some e) s turns = pre ++ a :: post → ∃ b ∈ pre, b.grew st = true := by
    intro turns
    induction turns with
    | nil => intro s L pre _ _ _ _ h; simp [attempts] at h
    | cons turn turns ih =>
      intro s L pre hL h hf hlen has
      have hf' : ∀ t ∈ turns, t.Fair z st ∧ t.Alone st := fun t ht => hf t (by simp [ht])
      cases turn with
      | another op =>
        obtain ⟨hfo, hao⟩ := hf (.another op) (by simp)
        refine ih _ _ pre (specStep_WF hz hL op) (step_sim hz hL h op hfo.1) hf' ?_ has
        rw [← hlen]
        cases op with
        | save name ex c ers =>
          have hn : name ≠ st := hao
          have happ : ∀ l, (L.append z.view name l).streamLen st = L.streamLen st := by
            intro l
            simp only [Log.streamLen, Log.stream_append_other hz L l (Ne.symm hn)]
          simp only [specStep]
          split
          · rfl
          · split
            · exact happ _
            · unfold afterFail
              split
              · rfl
              · rfl
              · exact happ _
        | delete name ex c =>
          have hn : name ≠ st := hao
          simp only [specStep]
          split
          · simp only [Log.streamLen, stream_delete L hn]
          · rfl
      | mine t =>
        obtain ⟨hft, hat⟩ := hf (.mine t) (by simp)
        cases pre with
        | nil =>
          exfalso
          simp only [attempts, List.nil_append, List.cons.injEq] at has
          obtain ⟨rfl, -⟩ := has
          obtain ⟨ers', hne, hst, x', y', ho⟩ := told_unexpected hq t hat fl s (some e) hft x y ht
          have hspec := saveEvents_spec hz hL h st (some e) t.cancelAt ers' (Or.inl hst) hne
          cases hp : batchProblem z L st (some e) t.cancelAt ers' with
          | none => rw [(hspec.1 hp).1] at ho; simp at ho
          | some p =>
            obtain ⟨j, w⟩ := p
            rw [(hspec.2 j w hp).1] at ho
            simp only [Outcome.err.injEq] at ho
            subst ho
            rw [batchProblem, ← hlen] at hp
            exact firstProblem_expected _ _ _ _ _ _ _ _ _ _ _ hp
        | cons b pre =>
          simp only [attempts, List.cons_append, List.cons.injEq] at has
          obtain ⟨rfl, has⟩ := has
          obtain ⟨L', hL', h', hc⟩ := attempt_sim hz hL h other fl st e t hft
          rcases hc with ⟨hr, _⟩ | ⟨hx, hlt⟩
          · obtain ⟨b, hb, hgr⟩ := ih _ L' pre hL' h' hf'
              (by rw [← hlen]; simp [Log.streamLen, Log.stream, hr]) has
            exact ⟨b, by simp [hb], hgr⟩
          · refine ⟨_, List.mem_cons_self, ?_⟩
            simp only [Attempt.grew, total_spec h, total_spec h', ne_eq, Outcome.ok.injEq, decide_eq_true_eq]
            omega
  obtain ⟨hL, hs⟩ := run_sim hz ops hg
  rw [total_spec hs] at he
  exact key turns _ _ pre hL hs hf (Outcome.ok.inj he) has

/-- The texts of the broken connections of the example do not look like refusals. -/
example : (Turn.mine ⟨.noReply tClosing, none, [demoRemEr]⟩).Alone [65, 33, 49] ∧
    (Turn.mine ⟨.noReply tClosing, none, [demoRemEr]⟩).Fair (serializer unbound) [65, 33, 49] := by
  refine ⟨by show contains (tCode ++ tClosing) tErrUnexpected = false; decide +kernel, ?_⟩
  intro er her
  simp only [List.mem_singleton] at her
  subst her
  rfl

/-- A client whose first call is lost on its way, whose second is carried out without a reply, and whose third is refused;
somebody else saves to another stream. -/
example : ((attempts (serializer unbound) demoOther demoFl [65, 33, 49] (some 0) IM.init
      [.mine ⟨.noRequest tClosing, none, [demoRemEr]⟩, .mine ⟨.noReply tClosing, none, [demoRemEr]⟩,
       .another (.save [66, 33, 49] none none [demoRemEr]), .mine ⟨.fine, none, [demoRemEr]⟩]).map
        (fun a => (a.told, a.grew [65, 33, 49]))) =
      [(.err (.rpc (tCode ++ tClosing)), false), (.err (.rpc (tCode ++ tClosing)), true),
       (.err (.store (.unexpected 0 1)), false)] := by decide +kernel

end RangeDB.Rem

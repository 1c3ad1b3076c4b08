import Verif.Spec.Restarts
import Verif.Thm.LevelDB
import Verif.Thm.BrokenCalls

/-! # Restarts and crashes: helper lemmas -/

namespace RangeDB.LD

open Demo KV

variable {N : Names} {z : Serializer}

theorem SimA.reopen {s : State} {A : AState} (h : SimA N z s A) : SimA N z (reopen s.db) A.reopened :=
  ⟨h.sim, h.wf, rfl, rfl, fun h => by simp [AState.reopened] at h⟩

theorem SimA.free {s : State} {A : AState} (h : SimA N z s A) (hl : A.leaked = false) : s.muxHeld = false := by
  rw [h.mux]
  cases hx : A.stuck with
  | false => rfl
  | true => rw [h.stuck hx] at hl; simp at hl

/-- A crash leaves what was before, or what the call leaves. -/
theorem crashed_cases (s : State) (op : Op) (n : Nat) :
    crashed z s op n = LD.reopen s.db ∨ crashed z s op n = LD.reopen (step z s op).db := by
  unfold crashed
  split
  · exact Or.inl rfl
  · rename_i h
    rw [Bool.or_eq_true, not_or, Bool.not_eq_true, Bool.not_eq_true] at h
    cases op with
    | save st expected cancelAt ers =>
      rcases C13_save (z := z) s h.1 h.2 st expected cancelAt ers n with h1 | ⟨k, _, h1⟩
      · exact Or.inl (by simp only [h1])
      · exact Or.inr (by simp only [h1, step])
    | delete st expected cancelled =>
      cases cancelled with
      | true => exact Or.inl rfl
      | false =>
        simp only [Bool.false_eq_true, if_false]
        rcases C13_delete (z := z) s h.1 h.2 st expected n with h1 | ⟨_, h1⟩
        · exact Or.inl (by rw [h1])
        · exact Or.inr (by rw [h1]; rfl)

/-- One part of the life. -/
theorem part_sim (hz : z.Lawful) {s : State} {A : AState} (h : SimA N z s A) {parts : List Part} (hl : Life z parts A)
    (p : Part) (hn : p.NamesIn N) (hb : A.log.last + p.size < 2 ^ 64) :
    ∃ A', Life z (parts ++ [p]) A' ∧ SimA N z (p.step z s) A' ∧ A'.log.last ≤ A.log.last + p.size ∧
      (A'.log = A.log ∨ ∃ op, p.op = some op ∧ A'.log = (aStep z A op).log) := by
  cases p with
  | call op =>
    have := step_simA hz h op (hn op rfl) hb
    exact ⟨_, .call op hl, this.1, this.2, Or.inr ⟨op, rfl, rfl⟩⟩
  | restart => exact ⟨_, .restart hl, h.reopen, by simp [AState.reopened], Or.inl rfl⟩
  | crash op n =>
    simp only [Part.step]
    rcases crashed_cases (z := z) s op n with h1 | h1
    · exact ⟨_, .lost op n hl, by rw [h1]; exact h.reopen, by simp [AState.reopened], Or.inl rfl⟩
    · have := step_simA hz h op (hn op rfl) hb
      exact ⟨_, .kept op n hl, by rw [h1]; exact this.1.reopen, this.2, Or.inr ⟨op, rfl, rfl⟩⟩

theorem parts_sim (hz : z.Lawful) : ∀ (parts : List Part) {pre : List Part} {s : State} {A : AState}, SimA N z s A →
    Life z pre A → (∀ p ∈ parts, p.NamesIn N) → A.log.last + (parts.map Part.size).sum < 2 ^ 64 →
    ∃ A', Life z (pre ++ parts) A' ∧ SimA N z (parts.foldl (Part.step z) s) A' ∧
      A'.log.last ≤ A.log.last + (parts.map Part.size).sum ∧
      ∀ r ∈ A.log.recs, (∀ p ∈ parts, p.Keeps r.streamName) → r ∈ A'.log.recs
  | [], pre, s, A, h, hl, _, _ => ⟨A, by simpa using hl, h, by simp, fun r hr _ => hr⟩
  | p :: parts, pre, s, A, h, hl, hn, hb => by
    simp only [List.map_cons, List.sum_cons] at hb ⊢
    obtain ⟨A1, h1, h2, h3, h4⟩ := part_sim hz h hl p (hn p (by simp)) (by omega)
    obtain ⟨A2, i1, i2, i3, i4⟩ := parts_sim hz parts h2 h1 (fun q hq => hn q (by simp [hq])) (by omega)
    refine ⟨A2, by simpa using i1, i2, by omega, fun r hr hk => ?_⟩
    refine i4 r ?_ (fun q hq => hk q (by simp [hq]))
    rcases h4 with h4 | ⟨op, ho, h4⟩
    · rw [h4]; exact hr
    · rw [h4]
      cases op with
      | save st expected cancelAt ers =>
        simp only [aStep]
        split
        · exact hr
        · split
          · exact hr
          · split
            · simp [Log.append, hr]
            · exact hr
      | delete st expected cancelled =>
        simp only [aStep]
        split
        · exact hr
        · split
          · exact hr
          · split
            · exact hr
            · have hne : r.streamName ≠ st := by
                rintro rfl
                exact hk p (by simp) expected cancelled ho
              simp [Log.delete, hr, hne]

theorem live_sim (hz : z.Lawful) (parts : List Part) (hn : ∀ p ∈ parts, p.NamesIn N)
    (hb : (parts.map Part.size).sum < 2 ^ 64) :
    ∃ A, Life z parts A ∧ SimA N z (live z parts) A ∧ A.log.last ≤ (parts.map Part.size).sum := by
  obtain ⟨A, h1, h2, h3, _⟩ := parts_sim hz parts (simA_init (N := N) (z := z)) .start hn
    (by simpa [AState.init, Log.empty] using hb)
  exact ⟨A, by simpa using h1, h2, by simpa [AState.init, Log.empty] using h3⟩

theorem simA_total {s : State} {A : AState} (h : SimA N z s A) {st : Str} (hst : N.streams st) :
    totalEventsInStream s st false = .ok (A.log.streamLen st) := by
  simp only [totalEventsInStream, Bool.false_eq_true, if_false, seqNumber_spec h.sim h.wf hst]

theorem simA_save (hz : z.Lawful) {s : State} {A : AState} (h : SimA N z s A) (st : Str) (expected cancelAt : Option Nat)
    (ers : List EventRecord) (hno : (Op.save st expected cancelAt ers).NamesIn N) (hb : A.log.last + ers.length < 2 ^ 64) :
    (saveEvents z s st expected cancelAt ers).out = aSaveOut z A st expected cancelAt ers := by
  by_cases hne : ers = []
  · subst hne; simp [saveEvents, aSaveOut]
  · unfold aSaveOut
    rw [if_neg hne]
    cases hl : A.leaked with
    | true =>
      cases hmu : s.muxHeld with
      | true => simp [saveEvents, hmu, hne]
      | false => simp [saveEvents, hmu, hne, h.tx, hl]
    | false =>
      have hsp := saveEvents_spec hz h.wf h.sim (h.free hl) (h.tx.trans hl) hno.1 expected cancelAt ers hno.2 (by omega) hne
      simp only [Bool.false_eq_true, if_false]
      cases hp : batchProblem z A.log st expected cancelAt ers with
      | none => exact (hsp.1 hp).1
      | some je =>
        obtain ⟨j, e⟩ := je
        rw [hsp.2 j e hp]

theorem simA_delete {s : State} {A : AState} (h : SimA N z s A) (st : Str) (expected : Nat) (cancelled : Bool)
    (hst : N.streams st) : (deleteStream z s st expected cancelled).2 = aDeleteOut A st expected cancelled := by
  unfold aDeleteOut
  cases cancelled with
  | true => simp [deleteStream]
  | false =>
    simp only [Bool.false_eq_true, if_false]
    cases hl : A.leaked with
    | true =>
      cases hmu : s.muxHeld with
      | true => simp [deleteStream, hmu]
      | false => simp [deleteStream, hmu, h.tx, hl]
    | false =>
      have hsp := deleteStream_spec h.wf h.sim (h.free hl) (h.tx.trans hl) hst expected
      simp only [Bool.false_eq_true, if_false]
      by_cases h0 : A.log.streamLen st = 0
      · rw [if_pos h0, hsp.1 h0]
      · rw [if_neg h0]
        by_cases hx : expected = A.log.streamLen st
        · rw [if_neg (by simp [hx])]
          obtain ⟨db', h1, _⟩ := hsp.2.2 h0 hx
          rw [h1]
        · rw [if_pos hx, hsp.2.1 h0 hx]

theorem simA_events {s : State} {A : AState} (h : SimA N z s A) (c : Option Nat) (g : Nat) (hg : g < 2 ^ 64) :
    events z s c g = if A.stuck then .blocked else .ok (cut c (A.log.recs.filter (fun r => r.gsn ≥ g))) := by
  cases hk : A.stuck with
  | true => simp [events, h.mux, hk]
  | false => simp only [events, h.mux, hk, Bool.false_eq_true, if_false, lookup_all h.sim h.wf c g hg]

/-- An optimistic save changes neither the disk nor the log, or finds the stream as long as expected and makes it longer. -/
theorem save_step (hz : z.Lawful) {s : State} {A : AState} (h : SimA N z s A) (st : Str) (e : Nat) (cancelAt : Option Nat)
    (ers : List EventRecord) (hno : (Op.save st (some e) cancelAt ers).NamesIn N) (hb : A.log.last + ers.length < 2 ^ 64) :
    ((step z s (.save st (some e) cancelAt ers)).db = s.db ∧ (aStep z A (.save st (some e) cancelAt ers)).log = A.log ∧
      ∀ n, (saveEvents z s st (some e) cancelAt ers).out ≠ .ok n) ∨
    (A.log.streamLen st = e ∧ A.log.streamLen st < (aStep z A (.save st (some e) cancelAt ers)).log.streamLen st) := by
  have hout := simA_save hz h st (some e) cancelAt ers hno hb
  simp only [step, aStep]
  by_cases hne : ers = []
  · subst hne
    exact Or.inl ⟨by simp [saveEvents], by simp, by simp [saveEvents]⟩
  · simp only [if_neg hne]
    unfold aSaveOut at hout
    rw [if_neg hne] at hout
    cases hl : A.leaked with
    | true =>
      rw [hl] at hout
      simp only [if_true] at hout ⊢
      refine Or.inl ⟨?_, trivial, by simp [hout]⟩
      cases hmu : s.muxHeld with
      | true => simp [saveEvents, hmu, hne]
      | false => simp [saveEvents, hmu, hne, h.tx, hl]
    | false =>
      have hsp := saveEvents_spec hz h.wf h.sim (h.free hl) (h.tx.trans hl) hno.1 (some e) cancelAt ers hno.2 (by omega) hne
      simp only [Bool.false_eq_true, if_false]
      cases hp : batchProblem z A.log st (some e) cancelAt ers with
      | some je =>
        obtain ⟨j, x⟩ := je
        rw [hsp.2 j x hp]
        exact Or.inl ⟨rfl, rfl, by simp⟩
      | none =>
        refine Or.inr ⟨?_, ?_⟩
        · have := Rem.spec_attempt hz A.log st e cancelAt ers
          simp only [specStep, if_neg hne, hp] at this
          rcases this with h0 | h0
          · exfalso
            have := congrArg List.length h0
            cases ers with
            | nil => exact hne rfl
            | cons a b => simp [Log.append, numbered] at this
          · exact h0.1
        · simp only [Log.streamLen_append_self hz]
          have := List.length_pos_iff.mpr hne
          omega

end RangeDB.LD

namespace RangeDB.Rem

open RangeDB.Json RangeDB.Http

variable {N : Names} {z : Serializer} {other : Err → Str}

/-- What a call does on the server, for any store. -/
theorem saveOver_store {σ : Type} (net : Net) (other : Err → Str)
    (store : σ → Str → Option Nat → List EventRecord → σ × Outcome Nat) (fl : Str → Option Str) (s : σ)
    (stream : Str) (expected : Option Nat) (ers : List EventRecord) :
    (saveOver net other store fl s stream expected ers).1 = s ∧
      (∀ n, (saveOver net other store fl s stream expected ers).2 ≠ .ok n) ∨
    ∃ ers', ers'.map (fun er => (er.event.aggType, er.event.aggId)) = ers.map (fun er => (er.event.aggType, er.event.aggId)) ∧
      (saveOver net other store fl s stream expected ers).1 = (store s stream expected ers').1 ∧
      ∀ n, (saveOver net other store fl s stream expected ers).2 = .ok n → (store s stream expected ers').2 = .ok n := by
  unfold saveOver
  split
  · exact Or.inl ⟨rfl, by simp⟩
  · split
    · exact Or.inl ⟨rfl, by simp⟩
    · rename_i es hes
      split
      · exact Or.inl ⟨rfl, by simp⟩
      · cases hse : serverEvents fl es with
        | error t =>
          refine Or.inl ?_
          cases net <;> simp [serverSave, hse]
        | ok ers' =>
          have hnames := (serverEvents_names es ers' hse).trans (clientEvents_names ers [] [] es hes)
          cases net with
          | noRequest t => exact Or.inl ⟨rfl, by simp⟩
          | noReply t => exact Or.inr ⟨ers', hnames, by simp [serverSave, hse], by simp⟩
          | fine =>
            refine Or.inr ⟨ers', hnames, by simp [serverSave, hse], ?_⟩
            intro n hn
            simp only [serverSave, hse] at hn
            cases ho : (store s stream expected ers').2 <;> rw [ho] at hn <;> simp at hn
            rw [hn]

/-- A refusal comes from the store. -/
theorem refusal_store {σ : Type} (hq : Quiet other) (net : Net)
    (store : σ → Str → Option Nat → List EventRecord → σ × Outcome Nat) (fl : Str → Option Str) (s : σ)
    (stream : Str) (expected : Option Nat) (ers : List EventRecord)
    (ha : match net with
      | .fine => True
      | .noRequest status => contains (tCode ++ status) tErrUnexpected = false
      | .noReply status => contains (tCode ++ status) tErrUnexpected = false) (x y : Nat)
    (h : (saveOver net other store fl s stream expected ers).2 = .err (.store (.unexpected x y))) :
    net = .fine ∧ ∃ ers', ers'.map (fun er => (er.event.aggType, er.event.aggId)) =
        ers.map (fun er => (er.event.aggType, er.event.aggId)) ∧
      ∃ x' y', (store s stream expected ers').2 = .err (.unexpected x' y') := by
  unfold saveOver at h
  split at h
  · simp at h
  · rename_i hlen
    split at h
    · rename_i e he
      exfalso
      simp only [CResult.err.injEq] at h
      subst h
      have : ∀ (ers : List EventRecord) (a b : Str), clientEvents a b ers ≠ .error (.store (.unexpected x y)) := by
        intro ers
        induction ers with
        | nil => intro a b; simp [clientEvents]
        | cons er ers ih =>
          intro a b
          simp only [clientEvents]
          repeat' split
          all_goals first | simp | skip
          rename_i h
          intro hc
          subst hc
          exact ih _ _ h
      exact this _ _ _ he
    · rename_i es hes
      split at h
      · simp at h
      · cases net with
        | noRequest u =>
          simp only [CResult.err.injEq] at h
          exact absurd h (saveError_quiet ha x y)
        | noReply u =>
          simp only [CResult.err.injEq] at h
          exact absurd h (saveError_quiet ha x y)
        | fine =>
          refine ⟨rfl, ?_⟩
          cases hse : serverEvents fl es with
          | error u =>
            simp only [serverSave, hse, CResult.err.injEq] at h
            exact absurd h (saveError_quiet (serverEvents_quiet es u hse) x y)
          | ok ers' =>
            refine ⟨ers', (serverEvents_names es ers' hse).trans (clientEvents_names ers [] [] es hes), ?_⟩
            simp only [serverSave, hse] at h
            cases ho : (store s stream expected ers').2 with
            | err e =>
              rw [ho] at h
              simp only [CResult.err.injEq, saveError, internal_canceled hq, Bool.false_eq_true, if_false,
                internal_unexpected] at h
              by_cases hc : (expected.isSome && contains (errText other e) tErrUnexpected) = true
              · rw [Bool.and_eq_true] at hc
                obtain ⟨x', y', rfl⟩ := (errText_unexpected hq e).mp hc.2
                exact ⟨x', y', rfl⟩
              · rw [if_neg hc] at h; simp at h
            | _ => rw [ho] at h; simp at h

theorem names_of {ers ers' : List EventRecord}
    (h : ers'.map (fun er => (er.event.aggType, er.event.aggId)) = ers.map (fun er => (er.event.aggType, er.event.aggId)))
    (hn : ∀ er ∈ ers, N.types er.event.aggType) : ∀ er ∈ ers', N.types er.event.aggType := by
  intro er her
  have : (er.event.aggType, er.event.aggId) ∈ ers.map (fun er => (er.event.aggType, er.event.aggId)) := by
    rw [← h]; exact List.mem_map_of_mem her
  obtain ⟨w, hw, hwe⟩ := List.mem_map.mp this
  rw [Prod.mk.injEq] at hwe
  rw [← hwe.1]
  exact hn w hw

/-- One call of the client. -/
theorem lsave_sim (hz : z.Lawful) (other : Err → Str) (fl : Str → Option Str) {s : LD.State} {A : AState}
    (h : LD.SimA N z s A) (st : Str) (hst : N.streams st) (e : Nat) (t : LTry) (hn : ∀ er ∈ t.ers, N.types er.event.aggType)
    (hb : A.log.last + t.ers.length < 2 ^ 64) :
    ∃ A', LD.SimA N z (lsave z other fl s st (some e) t).1 A' ∧ A'.log.last ≤ A.log.last + t.ers.length ∧
      ((lsave z other fl s st (some e) t).1.db = s.db ∧ A'.log = A.log ∧
        (∀ n, (lsave z other fl s st (some e) t).2 ≠ .ok n) ∨
       A.log.streamLen st = e ∧ A.log.streamLen st < A'.log.streamLen st) := by
  unfold lsave
  split
  · rename_i net _
    rcases saveOver_store net other (fun s st e ers => ((LD.saveEvents z s st e t.cancelAt ers).state,
      (LD.saveEvents z s st e t.cancelAt ers).out)) fl s st (some e) t.ers with ⟨h1, h2⟩ | ⟨ers', h1, h2, h3⟩
    · exact ⟨A, by rw [h1]; exact h, by omega, Or.inl ⟨by rw [h1], rfl, h2⟩⟩
    · have hlen : ers'.length = t.ers.length := by simpa using congrArg List.length h1
      have hno : (Op.save st (some e) t.cancelAt ers').NamesIn N := ⟨hst, names_of h1 hn⟩
      have hs := LD.step_simA hz h (.save st (some e) t.cancelAt ers') hno (by simp only [Op.size]; omega)
      refine ⟨_, by rw [h2]; exact hs.1, by have := hs.2; simp only [Op.size] at this; omega, ?_⟩
      rcases LD.save_step hz h st e t.cancelAt ers' hno (by omega) with ⟨g1, g2, g3⟩ | g
      · exact Or.inl ⟨by rw [h2]; exact g1, g2, fun n hn => g3 n (h3 n hn)⟩
      · exact Or.inr g
  · rename_i n status _
    rcases saveOver_store (.noReply status) other (fun s st e ers => (LD.crashed z s (.save st e t.cancelAt ers) n, .blocked))
      fl s st (some e) t.ers with ⟨h1, h2⟩ | ⟨ers', h1, h2, h3⟩
    · exact ⟨A, by rw [h1]; exact h, by omega, Or.inl ⟨by rw [h1], rfl, h2⟩⟩
    · have hlen : ers'.length = t.ers.length := by simpa using congrArg List.length h1
      have hno : (Op.save st (some e) t.cancelAt ers').NamesIn N := ⟨hst, names_of h1 hn⟩
      have hno' : ∀ m, (saveOver (.noReply status) other
          (fun s st e ers => (LD.crashed z s (.save st e t.cancelAt ers) n, .blocked)) fl s st (some e) t.ers).2 ≠ .ok m := by
        intro m hm
        have := h3 m hm
        simp at this
      rcases LD.crashed_cases (z := z) s (.save st (some e) t.cancelAt ers') n with hc | hc
      · exact ⟨A.reopened, by rw [h2]; simp only [hc]; exact h.reopen, by simp [AState.reopened],
          Or.inl ⟨by rw [h2]; simp only [hc]; rfl, rfl, hno'⟩⟩
      · have hs := LD.step_simA hz h (.save st (some e) t.cancelAt ers') hno (by simp only [Op.size]; omega)
        refine ⟨(aStep z A (.save st (some e) t.cancelAt ers')).reopened, by rw [h2]; simp only [hc]; exact hs.1.reopen,
          by have := hs.2; simp only [Op.size] at this; simp only [AState.reopened]; omega, ?_⟩
        rcases LD.save_step hz h st e t.cancelAt ers' hno (by omega) with ⟨g1, g2, g3⟩ | g
        · exact Or.inl ⟨by rw [h2]; simp only [hc]; exact g1, g2, hno'⟩
        · exact Or.inr g

end RangeDB.Rem

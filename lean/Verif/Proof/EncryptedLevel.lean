import Verif.Spec.EncryptedLevel
import Verif.Thm.Encrypted
import Verif.Proof.Restarts

/-! # The encrypted store over LevelDB: helper lemmas -/

namespace RangeDB.EL

open RangeDB.Key RangeDB.Cry RangeDB.ES

variable {σ : Type} {K : Store σ} {inv : σ → Prop} {has : σ → Str → Str → Prop} {dead : σ → Str → Prop}
  {alive : Str → Prop} {ok : Call → Prop} {enc : Encryptor} {C : Codec} {z : Serializer} {N : Names} {w : World σ}

/-- How the specified stores are related: what would be held without encryption, and what is held. -/
structure ARel (C : Codec) (K : Store σ) (inv : σ → Prop) (has : σ → Str → Str → Prop) (dead : σ → Str → Prop)
    (alive : Str → Prop) (enc : Encryptor) (w : World σ) (Ap Ae : AState) : Prop where
  log : LRel C K inv has dead alive enc w Ap.log Ae.log
  leaked : Ae.leaked = Ap.leaked
  stuck : Ae.stuck = Ap.stuck

theorem ARel.run (R : Regime K inv has dead alive ok) (hw : inv w.ks) {Ap Ae : AState}
    (h : ARel C K inv has dead alive enc w Ap Ae) (os : List Cry.Op) (ho : ∀ c, Cry.Op.call c ∈ os → ok c) :
    ARel C K inv has dead alive enc (opRun K enc w os) Ap Ae := ⟨h.log.run R hw os ho, h.leaked, h.stuck⟩

theorem ARel.reopened {Ap Ae : AState} (h : ARel C K inv has dead alive enc w Ap Ae) :
    ARel C K inv has dead alive enc w Ap.reopened Ae.reopened := ⟨h.log, rfl, rfl⟩

theorem ARel.save (hz : z.Lawful) (hf : Faithful z) {Ap Ae : AState} (h : ARel C K inv has dead alive enc w Ap Ae)
    {ers ers' : List EventRecord} (he : Rel2 (ERel C K inv has dead alive enc w) ers ers') (st : Str)
    (expected cancelAt : Option Nat) :
    ARel C K inv has dead alive enc w (aStep z Ap (.save st expected cancelAt ers))
      (aStep z Ae (.save st expected cancelAt ers')) ∧
    aSaveOut z Ae st expected cancelAt ers' = aSaveOut z Ap st expected cancelAt ers := by
  simp only [aStep, aSaveOut, he.nil_iff, h.leaked, h.log.batchProblem hf he, he.length, h.log.streamLen]
  refine ⟨?_, trivial⟩
  split
  · exact h
  · split
    · exact ⟨h.log, rfl, rfl⟩
    · split
      · exact ⟨h.log.append hz hf he, rfl, h.stuck⟩
      · exact h

theorem ARel.delete {Ap Ae : AState} (h : ARel C K inv has dead alive enc w Ap Ae) (st : Str) (expected : Nat)
    (cancelled : Bool) :
    ARel C K inv has dead alive enc w (aStep z Ap (.delete st expected cancelled))
      (aStep z Ae (.delete st expected cancelled)) ∧
    aDeleteOut Ae st expected cancelled = aDeleteOut Ap st expected cancelled := by
  simp only [aStep, aDeleteOut, h.leaked, h.log.streamLen]
  refine ⟨?_, trivial⟩
  split
  · exact h
  · split
    · exact ⟨h.log, rfl, rfl⟩
    · split
      · exact ⟨h.log, rfl, h.stuck⟩
      · refine ⟨⟨h.log.1, h.log.2.filter ?_⟩, rfl, h.stuck⟩
        rintro a b ⟨d, rfl, _⟩; rfl

/-- The invariant of an encrypted store that would be `Ap` if it were not encrypted. -/
def Holds (N : Names) (C : Codec) (K : Store σ) (inv : σ → Prop) (has : σ → Str → Str → Prop) (dead : σ → Str → Prop)
    (alive : Str → Prop) (enc : Encryptor) (z : Serializer) (s : State σ) (Ap : AState) : Prop :=
  WInv inv s.world ∧ ∃ Ae, LD.SimA N z s.parent Ae ∧ ARel C K inv has dead alive enc s.world Ap Ae

/-- Conditions on one turn. -/
def TurnOk (C : Codec) (alive : Str → Prop) (ok : Call → Prop) (t : Turn) : Prop :=
  (∀ er ∈ t.events, ∀ p, C.asP er.event.evType er.event.data = some p → Plain p ∧ alive p.subject) ∧
  ∀ c, t = .world (.call c) → ok c

theorem aStep_keeps (A : AState) (op : Op) (r : Record) (hr : r ∈ A.log.recs)
    (hk : ∀ expected cancelled, op ≠ .delete r.streamName expected cancelled) : r ∈ (aStep z A op).log.recs := by
  cases op with
  | save st expected cancelAt ers =>
    simp only [aStep]
    split
    · exact hr
    · split
      · exact hr
      · split
        · simp [Log.append, hr]
        · exact hr
  | delete st expected cancelled =>
    simp only [aStep]
    split
    · exact hr
    · split
      · exact hr
      · split
        · exact hr
        · have hne : r.streamName ≠ st := by
            rintro rfl
            exact hk expected cancelled rfl
          simp [Log.delete, hr, hne]

/-- The parts of the life of the plain store that one turn makes. -/
def partsOf (C : Codec) (K : Store σ) (enc : Encryptor) (s : State σ) : Turn → List LD.Part
  | .save st expected cancelAt ers =>
    if (encBatch C K enc s.world ers).2.2 = .ok then [.call (.save st expected cancelAt ers)] else []
  | .delete st expected cancelled => [.call (.delete st expected cancelled)]
  | .world _ => []
  | .restart => [.restart]
  | .killedEncrypting _ _ => [.restart]
  | .killedSaving st expected cancelAt ers n =>
    if (encBatch C K enc s.world ers).2.2 = .ok then [.crash (.save st expected cancelAt ers) n] else [.restart]
  | .killedDeleting st expected cancelled n => [.crash (.delete st expected cancelled) n]

theorem plainParts_cons (keep : σ → σ) (s : State σ) (t : Turn) (ts : List Turn) :
    plainParts C K enc z keep s (t :: ts) = partsOf C K enc s t ++ plainParts C K enc z keep (step C K enc z keep s t) ts := by
  cases t <;> rfl

theorem envEq_types {ers ers' : List EventRecord} (h : Rel2 EnvEq ers ers') {P : Str → Prop}
    (hp : ∀ er ∈ ers, P er.event.aggType) : ∀ er ∈ ers', P er.event.aggType := by
  induction h with
  | nil => intro er h; simp at h
  | @cons a b _ _ h _ ih =>
    obtain ⟨d, rfl⟩ := h
    intro er her
    rcases List.mem_cons.mp her with rfl | her
    · exact hp a (by simp)
    · exact ih (fun e he => hp e (by simp [he])) er her

/-- One turn. -/
theorem turn_holds (R : Regime K inv has dead alive ok) (he : enc.Lawful) (hz : z.Lawful) (hf : Faithful z) {s : State σ}
    {Ap : AState} {pre : List LD.Part} (h : Holds N C K inv has dead alive enc z s Ap) (hl : LD.Life z pre Ap) (t : Turn)
    (hn : t.NamesIn N) (ht : TurnOk C alive ok t) (hb : Ap.log.last + t.events.length < 2 ^ 64) :
    ∃ Ap', LD.Life z (pre ++ partsOf C K enc s t) Ap' ∧ Holds N C K inv has dead alive enc z (step C K enc z id s t) Ap' ∧
      Ap'.log.last ≤ Ap.log.last + t.events.length ∧
      ∀ r ∈ Ap.log.recs, t.Keeps r.streamName → r ∈ Ap'.log.recs := by
  obtain ⟨hw, Ae, hsim, hr⟩ := h
  cases t with
  | save st expected cancelAt ers =>
    obtain ⟨os, h1, h2⟩ := encBatch_world (K := K) (enc := enc) C s.world ers
    have hbo := fun w' ers' => encBatch_ok R he C ers ht.1 (w' := w') (ers' := ers') hw
    have henv := encBatch_env (K := K) (enc := enc) C ers s.world
    have hw' := R.winv he hw os
    have hr' := hr.run R hw.1 os (fun c hc => absurd hc (h1 c))
    simp only [partsOf, step, save]
    generalize encBatch C K enc s.world ers = x at *
    obtain ⟨w1, ers', e⟩ := x
    simp only at h2; subst h2
    cases e with
    | panic => exact ⟨Ap, by simpa using hl, ⟨hw', Ae, hsim, hr'⟩, by omega, fun r hr _ => hr⟩
    | err e => exact ⟨Ap, by simpa using hl, ⟨hw', Ae, hsim, hr'⟩, by omega, fun r hr _ => hr⟩
    | ok =>
      have hrel := hbo _ _ rfl
      have hno : (Op.save st expected cancelAt ers').NamesIn N := ⟨hn.1 st rfl, envEq_types henv hn.2⟩
      have hlen := hrel.length
      simp only [Turn.events] at hb ⊢
      have h3 := LD.step_simA hz hsim (.save st expected cancelAt ers') hno
        (by simp only [Op.size]; rw [hr.log.1]; omega)
      have h4 := (hr'.save hz hf hrel st expected cancelAt).1
      refine ⟨aStep z Ap (.save st expected cancelAt ers), by simpa using hl.call _, ⟨hw', _, h3.1, h4⟩, ?_, ?_⟩
      · have := h3.2
        rw [h4.log.1, hr.log.1] at this
        simp only [Op.size] at this
        omega
      · exact fun r hr hk => aStep_keeps Ap _ r hr (by simp)
  | delete st expected cancelled =>
    have h3 := LD.step_simA hz hsim (.delete st expected cancelled) (hn.1 st rfl)
      (by simp only [Op.size]; rw [hr.log.1]; simp only [Turn.events, List.length_nil] at hb; omega)
    have h4 := (hr.delete (z := z) st expected cancelled).1
    refine ⟨aStep z Ap (.delete st expected cancelled), hl.call _, ⟨hw, _, h3.1, h4⟩, ?_, ?_⟩
    · have := h3.2
      rw [h4.log.1, hr.log.1] at this
      simpa [Turn.events, Op.size] using this
    · intro r hr hk
      refine aStep_keeps Ap _ r hr (fun e c hc => ?_)
      injection hc with h5 h6 h7
      subst h5
      exact (hk expected cancelled 0).1 rfl
  | world o =>
    refine ⟨Ap, by simpa [partsOf] using hl, ⟨R.winv he hw [o], Ae, hsim, hr.run R hw.1 [o] ?_⟩, by simp [Turn.events],
      fun r hr _ => hr⟩
    intro c hc
    simp only [List.mem_singleton] at hc
    subst hc
    exact ht.2 c rfl
  | restart => exact ⟨Ap.reopened, hl.restart, ⟨hw, Ae.reopened, hsim.reopen, hr.reopened⟩, by simp [AState.reopened], fun r hr _ => hr⟩
  | killedEncrypting ers k =>
    obtain ⟨os, h1, h2⟩ := encBatch_world (K := K) (enc := enc) C s.world (ers.take k)
    have hw' := R.winv he hw os
    have hr' := hr.run R hw.1 os (fun c hc => absurd hc (h1 c))
    rw [← h2] at hw' hr'
    exact ⟨Ap.reopened, hl.restart, ⟨hw', Ae.reopened, hsim.reopen, hr'.reopened⟩, by simp [AState.reopened],
      fun r hr _ => hr⟩
  | killedSaving st expected cancelAt ers n =>
    obtain ⟨os, h1, h2⟩ := encBatch_world (K := K) (enc := enc) C s.world ers
    have hbo := fun w' ers' => encBatch_ok R he C ers ht.1 (w' := w') (ers' := ers') hw
    have henv := encBatch_env (K := K) (enc := enc) C ers s.world
    have hw' := R.winv he hw os
    have hr' := hr.run R hw.1 os (fun c hc => absurd hc (h1 c))
    simp only [partsOf, step]
    generalize encBatch C K enc s.world ers = x at *
    obtain ⟨w1, ers', e⟩ := x
    simp only at h2; subst h2
    cases e with
    | panic =>
      exact ⟨Ap.reopened, by simpa using hl.restart, ⟨hw', Ae.reopened, hsim.reopen, hr'.reopened⟩, by simp [AState.reopened],
        fun r hr _ => hr⟩
    | err e =>
      exact ⟨Ap.reopened, by simpa using hl.restart, ⟨hw', Ae.reopened, hsim.reopen, hr'.reopened⟩, by simp [AState.reopened],
        fun r hr _ => hr⟩
    | ok =>
      have hrel := hbo _ _ rfl
      have hno : (Op.save st expected cancelAt ers').NamesIn N := ⟨hn.1 st rfl, envEq_types henv hn.2⟩
      have hlen := hrel.length
      simp only [Turn.events] at hb ⊢
      simp only [if_true]
      rcases LD.crashed_cases (z := z) s.parent (.save st expected cancelAt ers') n with h5 | h5
      · rw [h5]
        exact ⟨Ap.reopened, hl.lost _ n, ⟨hw', Ae.reopened, hsim.reopen, hr'.reopened⟩, by simp [AState.reopened],
          fun r hr _ => hr⟩
      · rw [h5]
        have h3 := LD.step_simA hz hsim (.save st expected cancelAt ers') hno
          (by simp only [Op.size]; rw [hr.log.1]; omega)
        have h4 := (hr'.save hz hf hrel st expected cancelAt).1
        refine ⟨(aStep z Ap (.save st expected cancelAt ers)).reopened, hl.kept _ n, ⟨hw', _, h3.1.reopen, h4.reopened⟩, ?_, ?_⟩
        · have := h3.2
          rw [h4.log.1, hr.log.1] at this
          simp only [Op.size] at this
          simp only [AState.reopened]
          omega
        · exact fun r hr hk => aStep_keeps Ap _ r hr (by simp)
  | killedDeleting st expected cancelled n =>
    simp only [partsOf, step]
    rcases LD.crashed_cases (z := z) s.parent (.delete st expected cancelled) n with h5 | h5
    · rw [h5]
      exact ⟨Ap.reopened, hl.lost _ n, ⟨hw, Ae.reopened, hsim.reopen, hr.reopened⟩, by simp [AState.reopened],
        fun r hr _ => hr⟩
    · rw [h5]
      have h3 := LD.step_simA hz hsim (.delete st expected cancelled) (hn.1 st rfl)
        (by simp only [Op.size]; rw [hr.log.1]; simp only [Turn.events, List.length_nil] at hb; omega)
      have h4 := (hr.delete (z := z) st expected cancelled).1
      refine ⟨(aStep z Ap (.delete st expected cancelled)).reopened, hl.kept _ n, ⟨hw, _, h3.1.reopen, h4.reopened⟩, ?_, ?_⟩
      · have := h3.2
        rw [h4.log.1, hr.log.1] at this
        simpa [Turn.events, Op.size, AState.reopened] using this
      · intro r hr hk
        refine aStep_keeps Ap _ r hr (fun e c hc => ?_)
        injection hc with h5 h6 h7
        subst h5
        exact (hk expected cancelled n).2 rfl

/-- The number of events passed to the store. -/
def total (ts : List Turn) : Nat := (ts.map (fun t => t.events.length)).sum

theorem run_holds (R : Regime K inv has dead alive ok) (he : enc.Lawful) (hz : z.Lawful) (hf : Faithful z) :
    ∀ (ts : List Turn) {s : State σ} {Ap : AState} {pre : List LD.Part}, Holds N C K inv has dead alive enc z s Ap →
      LD.Life z pre Ap → (∀ t ∈ ts, t.NamesIn N) → (∀ t ∈ ts, TurnOk C alive ok t) → Ap.log.last + total ts < 2 ^ 64 →
      ∃ Ap', LD.Life z (pre ++ plainParts C K enc z id s ts) Ap' ∧
        Holds N C K inv has dead alive enc z (run C K enc z id s ts) Ap' ∧ Ap'.log.last ≤ Ap.log.last + total ts ∧
        ∀ r ∈ Ap.log.recs, (∀ t ∈ ts, t.Keeps r.streamName) → r ∈ Ap'.log.recs
  | [], s, Ap, pre, h, hl, _, _, _ => ⟨Ap, by simpa [plainParts] using hl, h, by simp [total], fun r hr _ => hr⟩
  | t :: ts, s, Ap, pre, h, hl, hn, ht, hb => by
    simp only [total, List.map_cons, List.sum_cons] at hb ⊢
    obtain ⟨A1, h1, h2, h3, h4⟩ := turn_holds R he hz hf h hl t (hn t (by simp)) (ht t (by simp)) (by omega)
    obtain ⟨A2, i1, i2, i3, i4⟩ := run_holds R he hz hf ts h2 h1 (fun q hq => hn q (by simp [hq]))
      (fun q hq => ht q (by simp [hq])) (by simp only [total]; omega)
    refine ⟨A2, by rw [plainParts_cons]; simpa using i1, i2, by simp only [total] at i3; omega, fun r hr hk => ?_⟩
    exact i4 r (h4 r hr (hk t (by simp))) (fun q hq => hk q (by simp [hq]))

/-- What a save returns. -/
theorem save_out (R : Regime K inv has dead alive ok) (he : enc.Lawful) (hz : z.Lawful) (hf : Faithful z) {s : State σ}
    {Ap Ae : AState} (hw : WInv inv s.world) (hsim : LD.SimA N z s.parent Ae)
    (hr : ARel C K inv has dead alive enc s.world Ap Ae) (st : Str) (expected cancelAt : Option Nat) (ers : List EventRecord)
    (hn : (Turn.save st expected cancelAt ers).NamesIn N)
    (ht : ∀ er ∈ ers, ∀ p, C.asP er.event.evType er.event.data = some p → Plain p ∧ alive p.subject)
    (hb : Ap.log.last + ers.length < 2 ^ 64) (hok : (encBatch C K enc s.world ers).2.2 = .ok) :
    (save C K enc z s st expected cancelAt ers).2 = .parent (aSaveOut z Ap st expected cancelAt ers) := by
  obtain ⟨os, h1, h2⟩ := encBatch_world (K := K) (enc := enc) C s.world ers
  have hbo := fun w' ers' => encBatch_ok R he C ers ht (w' := w') (ers' := ers') hw
  have henv := encBatch_env (K := K) (enc := enc) C ers s.world
  have hr' := hr.run R hw.1 os (fun c hc => absurd hc (h1 c))
  simp only [save]
  generalize encBatch C K enc s.world ers = x at *
  obtain ⟨w1, ers', e⟩ := x
  simp only at h2 hok; subst h2; subst hok
  have hrel := hbo _ _ rfl
  have hno : (Op.save st expected cancelAt ers').NamesIn N := ⟨hn.1 st rfl, envEq_types henv hn.2⟩
  have hlen := hrel.length
  simp only
  rw [LD.simA_save hz hsim st expected cancelAt ers' hno (by rw [hr.log.1]; omega), (hr'.save hz hf hrel st expected cancelAt).2]

/-- A save whose events could be encrypted. -/
theorem save_turn (R : Regime K inv has dead alive ok) (he : enc.Lawful) (hz : z.Lawful) (hf : Faithful z) {s : State σ}
    {Ap : AState} {pre : List LD.Part} (h : Holds N C K inv has dead alive enc z s Ap) (hl : LD.Life z pre Ap) (st : Str)
    (expected cancelAt : Option Nat) (ers : List EventRecord) (hn : (Turn.save st expected cancelAt ers).NamesIn N)
    (ht : TurnOk C alive ok (.save st expected cancelAt ers)) (hb : Ap.log.last + ers.length < 2 ^ 64)
    (hok : (encBatch C K enc s.world ers).2.2 = .ok) :
    Holds N C K inv has dead alive enc z (step C K enc z id s (.save st expected cancelAt ers))
      (aStep z Ap (.save st expected cancelAt ers)) ∧
    (aStep z Ap (.save st expected cancelAt ers)).log.last ≤ Ap.log.last + ers.length ∧
    LD.Life z (pre ++ partsOf C K enc s (.save st expected cancelAt ers)) (aStep z Ap (.save st expected cancelAt ers)) := by
  obtain ⟨hw, Ae, hsim, hr⟩ := h
  obtain ⟨os, h1, h2⟩ := encBatch_world (K := K) (enc := enc) C s.world ers
  have hbo := fun w' ers' => encBatch_ok R he C ers ht.1 (w' := w') (ers' := ers') hw
  have henv := encBatch_env (K := K) (enc := enc) C ers s.world
  have hw' := R.winv he hw os
  have hr' := hr.run R hw.1 os (fun c hc => absurd hc (h1 c))
  simp only [partsOf, step, save, hok, if_true]
  generalize encBatch C K enc s.world ers = x at *
  obtain ⟨w1, ers', e⟩ := x
  simp only at h2 hok; subst h2; subst hok
  have hrel := hbo _ _ rfl
  have hno : (Op.save st expected cancelAt ers').NamesIn N := ⟨hn.1 st rfl, envEq_types henv hn.2⟩
  have hlen := hrel.length
  have h3 := LD.step_simA hz hsim (.save st expected cancelAt ers') hno (by simp only [Op.size]; rw [hr.log.1]; omega)
  have h4 := (hr'.save hz hf hrel st expected cancelAt).1
  refine ⟨⟨hw', _, h3.1, h4⟩, ?_, hl.call _⟩
  have := h3.2
  rw [h4.log.1, hr.log.1] at this
  simp only [Op.size] at this
  omega

theorem start_holds {m0 : σ} (h0 : inv m0) {keys nonces : Str} (hk : Bytes keys) (hn : Bytes nonces) :
    Holds N C K inv has dead alive enc z (start m0 keys nonces) AState.init :=
  ⟨⟨h0, hk, hn⟩, AState.init, LD.simA_init, ⟨⟨rfl, .nil⟩, rfl, rfl⟩⟩

/-- The key store of a life, with a key store that is elsewhere: only the operations on it matter. -/
theorem run_world : ∀ (ts : List Turn) (s : State σ), ∃ os, (run C K enc z id s ts).world = opRun K enc s.world os ∧
    ∀ c, Cry.Op.call c ∈ os → Turn.world (.call c) ∈ ts
  | [], s => ⟨[], rfl, by simp⟩
  | t :: ts, s => by
    obtain ⟨o2, h1, h2⟩ := run_world ts (step C K enc z id s t)
    suffices h : ∃ os, (step C K enc z id s t).world = opRun K enc s.world os ∧ ∀ c, Cry.Op.call c ∈ os → t = .world (.call c) by
      obtain ⟨o1, h3, h4⟩ := h
      refine ⟨o1 ++ o2, ?_, fun c hc => ?_⟩
      · rw [← opRun_append, ← h3, ← h1]; rfl
      · rcases List.mem_append.mp hc with hc | hc
        · rw [h4 c hc]; simp
        · simp [h2 c hc]
    have hnone : ∃ os, s.world = opRun K enc s.world os ∧ ∀ c, Cry.Op.call c ∈ os → t = .world (.call c) := ⟨[], rfl, by simp⟩
    have henc : ∀ ers, ∃ os, (encBatch C K enc s.world ers).1 = opRun K enc s.world os ∧
        ∀ c, Cry.Op.call c ∈ os → t = .world (.call c) := fun ers => by
      obtain ⟨os, h3, h4⟩ := encBatch_world (K := K) (enc := enc) C s.world ers
      exact ⟨os, h4, fun c hc => absurd hc (h3 c)⟩
    cases t with
    | save st expected cancelAt ers =>
      have := henc ers
      simp only [step, save]
      generalize encBatch C K enc s.world ers = x at *
      obtain ⟨w1, e1, e⟩ := x
      cases e <;> exact this
    | delete => exact hnone
    | world o => exact ⟨[o], rfl, fun c hc => by simp only [List.mem_singleton] at hc; rw [hc]⟩
    | restart => exact hnone
    | killedEncrypting ers k => exact henc _
    | killedSaving st expected cancelAt ers n =>
      have := henc ers
      simp only [step]
      generalize encBatch C K enc s.world ers = x at *
      obtain ⟨w1, e1, e⟩ := x
      cases e <;> exact this
    | killedDeleting => exact hnone

/-! ## An empty in-memory key store -/

theorem engineDecrypt_new {w : World Mem} (hw : w.ks = Mem.new) (s f : Str) :
    (engineDecrypt mem enc w s f) = (w, .err .notFound) := by
  obtain ⟨ks, a, b⟩ := w
  simp only at hw
  subst hw
  rfl

/-- Decrypting what was encrypted under a key that is lost. -/
theorem decData_new (hC : C.Lawful) {inv : Mem → Prop} {has : Mem → Str → Str → Prop} {dead : Mem → Str → Prop} {w w' : World Mem}
    (hw : w'.ks = Mem.new) {rp re : Record} (h : RRel C mem inv has dead alive enc w rp re) :
    (personal C rp = true → ∃ d, decData C mem enc w' re.evType re.data = (w', some (d, some .notFound))) ∧
    (personal C rp = false → decData C mem enc w' re.evType re.data = (w', some (rp.data, none))) := by
  obtain ⟨d, rfl, hd⟩ := h
  rcases hd with ⟨h1, rfl⟩ | ⟨p, q, h1, rfl, h3, h4, h5, h6⟩
  · simp [personal, decData, h1]
  · have hq : C.asP rp.evType (C.ofP rp.evType rp.data q) = some q := hC.get_put _ _ _ _ h1 h3
    have hpq : C.ofP rp.evType (C.ofP rp.evType rp.data q) q = C.ofP rp.evType rp.data q := hC.put_get _ _ _ hq
    rcases h6 with ⟨e1, e2, rfl, e4⟩ | ⟨e1, e2, -⟩
    · have hp : C.ofP rp.evType rp.data q = rp.data := hC.put_get _ _ _ h1
      refine ⟨by simp [personal, h1, e1, e2], fun _ => ?_⟩
      have hg : genDecrypt mem enc w' q = (w', some (q, none)) := by
        obtain ⟨su, st, it, se, re'⟩ := q
        simp only at e1 e2 e4
        subst e1; subst e2; subst e4
        simp [genDecrypt, decFields, decInts]
      simp only [decData, hp, h1, hg]
    · refine ⟨fun _ => ?_, fun hx => ?_⟩
      · have hg : genDecrypt mem enc w' q = (w', some (q, some .notFound)) := by
          cases hs : q.strs with
          | nil =>
            cases hi : q.sers with
            | nil => simp [hs, hi] at e2
            | cons f fs => simp only [genDecrypt, hs, hi, decFields, decInts, engineDecrypt_new hw]
          | cons f fs => simp only [genDecrypt, hs, decFields, engineDecrypt_new hw]
        exact ⟨C.ofP rp.evType rp.data q, by simp only [decData, hq, hg, hpq]⟩
      · simp only [personal, h1] at hx
        rcases e1 with e1 | e1 <;> simp_all

theorem consume_new (hC : C.Lawful) {inv : Mem → Prop} {has : Mem → Str → Str → Prop} {dead : Mem → Str → Prop} {w w' : World Mem}
    (hw : w'.ks = Mem.new) (err : Option Err) {rp re : List Record} (h : Rel2 (RRel C mem inv has dead alive enc w) rp re) :
    ∀ (fuel : Nat), re.length + 2 ≤ fuel → ∀ cur : ResultRecord, cur.err = none →
      (consume C mem enc fuel w' ⟨⟨(Iter.mk re err).results, cur⟩, none⟩).2 = lost C ⟨rp, err⟩ := by
  induction h with
  | nil =>
    intro fuel hfuel cur hcur
    obtain ⟨fuel, rfl⟩ : ∃ n, fuel = n + 1 := ⟨fuel - 1, by omega⟩
    cases err with
    | none => simp [consume, DIter.next, RecordIterator.next, hcur, Iter.results, lost, DIter.error,
        RecordIterator.error, ResultRecord.zero]
    | some e => simp [consume, DIter.next, RecordIterator.next, hcur, Iter.results, lost, DIter.error,
        RecordIterator.error]
  | @cons a b as bs hab _ ih =>
    intro fuel hfuel cur hcur
    simp only [List.length_cons] at hfuel
    obtain ⟨fuel, rfl⟩ : ∃ n, fuel = n + 1 := ⟨fuel - 1, by omega⟩
    have hnext : DIter.next ⟨⟨(Iter.mk (b :: bs) err).results, cur⟩, none⟩ =
        (⟨⟨(Iter.mk bs err).results, ⟨some b, none⟩⟩, none⟩, true) := by
      simp [DIter.next, RecordIterator.next, hcur, Iter.results]
    obtain ⟨hd1, hd2⟩ := decData_new hC hw hab
    simp only [consume, hnext, DIter.record, RecordIterator.record]
    cases hs : personal C a with
    | true =>
      obtain ⟨d, hd⟩ := hd1 hs
      obtain ⟨fuel, rfl⟩ : ∃ n, fuel = n + 1 := ⟨fuel - 1, by omega⟩
      simp [hd, consume, DIter.next, lost, hs, DIter.error]
    | false =>
      obtain ⟨d0, hb0, _⟩ := hab
      have := ih fuel (by omega) ⟨some a, none⟩ rfl
      have hset : setCurrent ⟨(Iter.mk bs err).results, ⟨some b, none⟩⟩ { b with data := a.data } =
          ⟨(Iter.mk bs err).results, ⟨some a, none⟩⟩ := by
        rw [hb0]; rfl
      have hba : { b with data := a.data } = a := by rw [hb0]
      rw [hd2 hs]
      simp only
      rw [hset, hba]
      generalize consume C mem enc fuel w' _ = y at *
      obtain ⟨w2, g⟩ := y
      simp only at this ⊢; subst this
      simp [lost, hs]

/-- Reading everything when the keys are lost. -/
theorem readAll_new (hC : C.Lawful) {inv : Mem → Prop} {has : Mem → Str → Str → Prop} {dead : Mem → Str → Prop} {w w' : World Mem}
    (hw : w'.ks = Mem.new) (err : Option Err) {rp re : List Record} (h : Rel2 (RRel C mem inv has dead alive enc w) rp re) :
    (readAll C mem enc w' ⟨re, err⟩).2 = lost C ⟨rp, err⟩ :=
  consume_new hC hw err h _ (Nat.le_refl _) .zero rfl

/-- As long as no process ends it does not matter what a new process finds. -/
theorem run_keep (keep : σ → σ) : ∀ (ts : List Turn) (s : State σ), (∀ t ∈ ts, t.ends = false) →
    run C K enc z keep s ts = run C K enc z id s ts
  | [], _, _ => rfl
  | t :: ts, s, h => by
    have ht : step C K enc z keep s t = step C K enc z id s t := by
      have := h t (by simp)
      cases t <;> first | rfl | (simp [Turn.ends] at this)
    simp only [run, List.foldl_cons, ht]
    exact run_keep keep ts _ (fun q hq => h q (by simp [hq]))

end RangeDB.EL

import Verif.Proof.EncryptedLevel

/-!
# Theorems: the encrypted store over a LevelDB store, through restarts and crashes (C161)
-/

namespace RangeDB.EL

open RangeDB.Key RangeDB.Cry RangeDB.ES RangeDB.Demo

variable {σ : Type} {K : Store σ} {inv : σ → Prop} {has : σ → Str → Str → Prop} {dead : σ → Str → Prop}
  {alive : Str → Prop} {ok : Call → Prop} {enc : Encryptor} {C : Codec} {z : Serializer} {N : Names}

/-- Reads through the encrypted store `s` return what `f` makes of the log of `A`. -/
structure Reads (N : Names) (C : Codec) (K : Store σ) (enc : Encryptor) (z : Serializer) (s : State σ) (A : AState)
    (f : Iter → Got) : Prop where
  events : ∀ c g, g < 2 ^ 64 → EL.events C K enc z s c g = .ok (f (cut c (A.log.recs.filter (fun r => r.gsn ≥ g))))
  stream : ∀ c n st, N.streams st → EL.eventsByStream C K enc z s c n st =
    .ok (f (if A.log.streamLen st = 0 then ⟨[], some .notFound⟩ else cut c ((A.log.stream st).filter (fun r => r.seq ≥ n))))
  types : ∀ g types, g < 2 ^ 64 → types.Nodup → (∀ t ∈ types, N.types t) →
    EL.eventsByTypes C K enc z s (fun _ => none) g types =
      .ok (f ⟨A.log.recs.filter (fun r => decide (r.aggType ∈ types) && decide (r.gsn ≥ g)), none⟩)
  total : ∀ st, N.streams st → ∀ c, EL.totalEventsInStream s st c = if c then .err .canceled else .ok (A.log.streamLen st)

theorem reads_gen {s : State σ} {A Ae : AState} {w : World σ} {f : Iter → Got} (hsim : LD.SimA N z s.parent Ae)
    (hr : ARel C K inv has dead alive enc w A Ae) (hk : A.stuck = false)
    (hread : ∀ (err : Option Err) {rp re : List Record}, Rel2 (RRel C K inv has dead alive enc w) rp re →
      (readAll C K enc s.world ⟨re, err⟩).2 = f ⟨rp, err⟩) : Reads N C K enc z s A f := by
  have hmux : s.parent.muxHeld = false := by rw [hsim.mux, hr.stuck, hk]
  refine ⟨?_, ?_, ?_, ?_⟩
  · intro c g hg
    have hrel := hr.log.2.filter (p := fun r => decide (r.gsn ≥ g)) (q := fun r => decide (r.gsn ≥ g))
      (by rintro a b ⟨d, rfl, _⟩; rfl)
    obtain ⟨lp, le, err, e1, e2, e3⟩ := rel_cut hrel c
    simp only [EL.events, LD.simA_events hsim c g hg, hr.stuck, hk, Bool.false_eq_true, if_false, drain]
    rw [e1, e2]
    exact congrArg _ (hread err e3)
  · intro c n st hst
    simp only [EL.eventsByStream, LD.eventsByStream, hmux, Bool.false_eq_true, if_false,
      LD.prefix_stream hsim.sim hsim.wf c n hst, drain, hr.log.streamLen]
    split
    · exact congrArg _ (hread _ .nil)
    · have hrel := (hr.log.stream st).filter (p := fun r => decide (r.seq ≥ n))
        (q := fun r => decide (r.seq ≥ n)) (by rintro a b ⟨d, rfl, _⟩; rfl)
      obtain ⟨lp, le, err, e1, e2, e3⟩ := rel_cut hrel c
      rw [e1, e2]
      exact congrArg _ (hread err e3)
  · intro g types hg hd ht
    have hrel := hr.log.2.filter (p := fun r => decide (r.aggType ∈ types) && decide (r.gsn ≥ g))
      (q := fun r => decide (r.aggType ∈ types) && decide (r.gsn ≥ g))
      (by rintro a b ⟨d, rfl, _⟩; rfl)
    simp only [EL.eventsByTypes, LD.eventsByAggregateTypes_spec hsim.sim hsim.wf g hg types hd ht hmux, drain]
    exact congrArg _ (hread none hrel)
  · intro st hst c
    cases c with
    | true => rfl
    | false => simp only [EL.totalEventsInStream, LD.simA_total hsim hst, hr.log.streamLen]; rfl

theorem reads_of (R : Regime K inv has dead alive ok) (hC : C.Lawful) (he : enc.Lawful) {s : State σ} {A : AState}
    (h : Holds N C K inv has dead alive enc z s A) (hk : A.stuck = false) :
    Reads N C K enc z s A (decrypted (shredded C K s.world)) := by
  obtain ⟨hw, Ae, hsim, hr⟩ := h
  exact reads_gen hsim hr hk (fun err _ _ h => readAll_rel R hC he hw err h)

/-- The encrypted LevelDB store with key store `K` survives crashes and restarts: after any life in which no subject of an event is
deleted, it is one of the stores that `LD.Life` allows for the calls with the events as they were passed (every call that
returned counts, a call in which the process was killed counts as a whole or not at all). Every read that returns returns the
plain records of it, and every save whose events can be encrypted, and every delete, ends as it ends there. -/
def Survives (K : Store σ) (m0 : σ) : Prop :=
  ∀ (N : Names) (C : Codec) (enc : Encryptor) (z : Serializer) (keys nonces : Str) (ts : List Turn),
    C.Lawful → enc.Lawful → z.Lawful → Faithful z → Bytes keys → Bytes nonces → WellFormed C ts → NoShred C ts →
    (∀ t ∈ ts, t.NamesIn N) → total ts < 2 ^ 64 →
    ∃ A, LD.Life z (plainParts C K enc z id (start m0 keys nonces) ts) A ∧ A.log.WF ∧
      (A.stuck = false → Reads N C K enc z (run C K enc z id (start m0 keys nonces) ts) A asGot) ∧
      (A.stuck = true → ∀ c g, EL.events C K enc z (run C K enc z id (start m0 keys nonces) ts) c g = .blocked) ∧
      (∀ st expected cancelAt ers, WellFormed C (ts ++ [.save st expected cancelAt ers]) →
        NoShred C (ts ++ [.save st expected cancelAt ers]) → (Turn.save st expected cancelAt ers).NamesIn N →
        total ts + ers.length < 2 ^ 64 →
        (encBatch C K enc (run C K enc z id (start m0 keys nonces) ts).world ers).2.2 = .ok →
        (save C K enc z (run C K enc z id (start m0 keys nonces) ts) st expected cancelAt ers).2 =
          .parent (aSaveOut z A st expected cancelAt ers)) ∧
      (∀ st expected cancelled, N.streams st →
        (delete z (run C K enc z id (start m0 keys nonces) ts) st expected cancelled).2 = aDeleteOut A st expected cancelled)

theorem turnOk_of {ts all : List Turn} (hsub : ∀ t ∈ ts, t ∈ all) (hw : WellFormed C all) (hn : NoShred C all) :
    ∀ t ∈ ts, TurnOk C (fun s => ∀ now, Turn.world (.call (.delete now s)) ∉ all)
      (fun c => ∀ now s, (∀ now, Turn.world (.call (.delete now s)) ∉ all) → c ≠ .delete now s) t := by
  intro t ht
  refine ⟨fun er her p hp => ⟨hw t (hsub t ht) er her p hp, hn t (hsub t ht) er her p hp⟩, ?_⟩
  rintro c rfl now s ha rfl
  exact ha now (hsub _ ht)

theorem mem_cut {c : Option Nat} {l : List Record} {r : Record} (hr : r ∈ (cut c l).recs) : r ∈ l := by
  unfold cut at hr
  cases c with
  | none => exact hr
  | some c =>
    simp only at hr
    split at hr
    · exact hr
    · exact List.mem_of_mem_take hr

theorem plain_of (R : Regime K inv has (fun _ _ => False) alive ok) (hC : C.Lawful) (he : enc.Lawful) {s : State σ} {A : AState}
    (h : Holds N C K inv has (fun _ _ => False) alive enc z s A) (hk : A.stuck = false) : Reads N C K enc z s A asGot := by
  have hr := reads_of R hC he h hk
  have hsh : ∀ r ∈ A.log.recs, shredded C K s.world r = false := by
    intro r hr
    obtain ⟨hw, Ae, _, hrel⟩ := h
    obtain ⟨re, hre⟩ := rel2_mem hrel.log.2 hr
    exact not_shredded R hw.1 hre
  refine ⟨?_, ?_, ?_, hr.total⟩
  · intro c g hg
    rw [hr.events c g hg, decrypted_none]
    exact fun r hx => hsh r (List.mem_filter.mp (mem_cut hx)).1
  · intro c n st hst
    rw [hr.stream c n st hst, decrypted_none]
    split
    · simp
    · exact fun r hx => hsh r (List.mem_filter.mp (List.mem_filter.mp (mem_cut hx)).1).1
  · intro g types hg hd ht
    rw [hr.types g types hg hd ht, decrypted_none]
    exact fun r hx => hsh r (List.mem_filter.mp hx).1

theorem rel_map {w : World σ} {α : Type} (f : Record → α) (hf : ∀ (r : Record) d, f { r with data := d } = f r) {as bs : List Record}
    (h : Rel2 (RRel C K inv has dead alive enc w) as bs) : bs.map f = as.map f := by
  induction h with
  | nil => rfl
  | cons h _ ih =>
    obtain ⟨d, rfl, _⟩ := h
    simp [ih, hf]

theorem holds_wf {s : State σ} {A : AState} (h : Holds N C K inv has dead alive enc z s A) : A.log.WF := by
  obtain ⟨hw, Ae, hsim, hr⟩ := h
  have hg := rel_map (·.gsn) (fun _ _ => rfl) hr.log.2
  refine ⟨?_, ?_, ?_⟩
  · have := hsim.wf.sorted
    rw [← List.pairwise_map (f := fun r : Record => r.gsn) (R := (· < ·)), hg, List.pairwise_map] at this
    exact this
  · intro r hm
    have : r.gsn ∈ Ae.log.recs.map (·.gsn) := by rw [hg]; exact List.mem_map_of_mem hm
    obtain ⟨r', h1, h2⟩ := List.mem_map.mp this
    have := hsim.wf.bounded r' h1
    rw [hr.log.1, h2] at this
    exact this
  · intro name
    have := hsim.wf.contiguous name
    rw [rel_map (·.seq) (fun _ _ => rfl) (hr.log.stream name), hr.log.streamLen] at this
    exact this

theorem survives_of (hK : Keeps K inv has) {m0 : σ} (h0 : inv m0) : Survives K m0 := by
  intro N C enc z keys nonces ts hC he hz hf hk hn hwf hns hnm hb
  have R := keeps_regime hK (fun s => ∀ now, Turn.world (.call (.delete now s)) ∉ ts)
  obtain ⟨A, hl, hh, hle, -⟩ := run_holds (C := C) (enc := enc) (N := N) R he hz hf ts
    (start_holds (m0 := m0) h0 hk hn) .start hnm (turnOk_of (fun _ h => h) hwf hns)
    (by simpa [AState.init, Log.empty] using hb)
  have hle' : A.log.last ≤ total ts := by simpa [AState.init, Log.empty] using hle
  refine ⟨A, by simpa using hl, holds_wf hh, plain_of R hC he hh, ?_, ?_, ?_⟩
  · intro hst c g
    obtain ⟨hw, Ae, hsim, hr⟩ := hh
    simp only [EL.events, LD.events, hsim.mux, hr.stuck, hst, if_true, drain]
  · intro st expected cancelAt ers hwf' hns' hnm' hb' hok
    have hto : TurnOk C (fun s => ∀ now, Turn.world (.call (.delete now s)) ∉ ts)
        (fun c => ∀ now s, (∀ now, Turn.world (.call (.delete now s)) ∉ ts) → c ≠ .delete now s)
        (.save st expected cancelAt ers) :=
      ⟨fun er her p hp => ⟨hwf' _ (by simp) er her p hp, fun now hx => hns' _ (by simp) er her p hp now (by simp [hx])⟩,
        by simp⟩
    obtain ⟨hw, Ae, hsim, hr⟩ := hh
    exact save_out R he hz hf hw hsim hr st expected cancelAt ers hnm' hto.1 (by omega) hok
  · intro st expected cancelled hst
    obtain ⟨hw, Ae, hsim, hr⟩ := hh
    simp only [delete, LD.simA_delete hsim st expected cancelled hst]
    exact (hr.delete (z := z) st expected cancelled).2

/-- **C161**: with a PostgreSQL, DynamoDB or Vault key store. -/
theorem C161 : Survives pg [] ∧ Survives dyn (fun _ => none) ∧ Survives vault (fun _ => []) :=
  ⟨survives_of pg_keeps trivial, survives_of dyn_keeps trivial, survives_of vault_keeps trivial⟩

theorem kept_of (hK : Keeps K inv has) {m0 : σ} (h0 : inv m0) (hC : C.Lawful) (he : enc.Lawful) (hz : z.Lawful) (hf : Faithful z)
    {keys nonces : Str} (hk : Bytes keys) (hn : Bytes nonces) (before after : List Turn) (st : Str)
    (expected cancelAt : Option Nat) (ers : List EventRecord)
    (hwf : WellFormed C (before ++ .save st expected cancelAt ers :: after))
    (hns : NoShred C (before ++ .save st expected cancelAt ers :: after))
    (hnm : ∀ t ∈ before ++ .save st expected cancelAt ers :: after, t.NamesIn N)
    (hb : total (before ++ .save st expected cancelAt ers :: after) < 2 ^ 64) (k : Nat)
    (hok : (save C K enc z (run C K enc z id (start m0 keys nonces) before) st expected cancelAt ers).2 = .parent (.ok k))
    (hkeep : ∀ t ∈ after, t.Keeps st) (got : Got)
    (hev : EL.events C K enc z (run C K enc z id (start m0 keys nonces) (before ++ .save st expected cancelAt ers :: after)) none 0 =
      .ok got) :
    got.err = none ∧ ∃ last len, k = len + ers.length ∧ ∀ r ∈ (numbered st last len ers).map z.view, some r ∈ got.recs := by
  have R := keeps_regime hK (fun s => ∀ now, Turn.world (.call (.delete now s)) ∉ before ++ .save st expected cancelAt ers :: after)
  have hto := turnOk_of (ts := before ++ .save st expected cancelAt ers :: after) (fun _ h => h) hwf hns
  have hb : total before + (ers.length + total after) < 2 ^ 64 := by
    simp only [total, List.map_append, List.map_cons, List.sum_append, List.sum_cons] at hb
    exact hb
  obtain ⟨A, hl, hh, hle, -⟩ := run_holds (C := C) (enc := enc) (N := N) R he hz hf before
    (start_holds (m0 := m0) h0 hk hn) .start (fun t ht => hnm t (by simp [ht])) (fun t ht => hto t (by simp [ht]))
    (by simp only [AState.init, Log.empty]; omega)
  have hle' : A.log.last ≤ total before := by simpa [AState.init, Log.empty] using hle
  have henc : (encBatch C K enc (run C K enc z id (start m0 keys nonces) before).world ers).2.2 = .ok := by
    simp only [save] at hok
    generalize encBatch C K enc (run C K enc z id (start m0 keys nonces) before).world ers = x at *
    obtain ⟨w1, e1, e⟩ := x
    cases e <;> simp at hok ⊢
  have hout := hok
  obtain ⟨hw, Ae, hsim, hr⟩ := hh
  rw [save_out R he hz hf hw hsim hr st expected cancelAt ers (hnm _ (by simp))
    (hto (.save st expected cancelAt ers) (by simp)).1 (by omega) henc] at hout
  simp only [SaveEnd.parent.injEq, aSaveOut] at hout
  split at hout
  · simp at hout
  · rename_i hne
    split at hout
    · simp at hout
    · rename_i hlk
      split at hout
      · rename_i hp
        simp only [Outcome.ok.injEq] at hout
        obtain ⟨hh1, hle1, hl1⟩ := save_turn (C := C) (enc := enc) R he hz hf ⟨hw, Ae, hsim, hr⟩ hl st expected cancelAt ers
          (hnm _ (by simp)) (hto (.save st expected cancelAt ers) (by simp)) (by omega) henc
        obtain ⟨A2, -, hh2, -, hk2⟩ := run_holds (C := C) (enc := enc) (N := N) R he hz hf after hh1 hl1
          (fun t ht => hnm t (by simp [ht])) (fun t ht => hto t (by simp [ht])) (by omega)
        have hrun : run C K enc z id (start m0 keys nonces) (before ++ .save st expected cancelAt ers :: after) =
            run C K enc z id (step C K enc z id (run C K enc z id (start m0 keys nonces) before)
              (.save st expected cancelAt ers)) after := by simp [run]
        rw [hrun] at hev
        cases hstk : A2.stuck with
        | true =>
          obtain ⟨_, Ae2, hs2, hr2⟩ := hh2
          simp [EL.events, LD.events, hs2.mux, hr2.stuck, hstk, drain] at hev
        | false =>
          rw [(plain_of R hC he hh2 hstk).events none 0 (by decide)] at hev
          simp only [Outcome.ok.injEq, ge_iff_le, Nat.zero_le, decide_true, cut] at hev
          subst hev
          refine ⟨rfl, A.log.last, A.log.streamLen st, hout.symm, fun r hr' => ?_⟩
          have ha : (aStep z A (.save st expected cancelAt ers)).log = A.log.append z.view st ers := by
            simp only [aStep, if_neg hne, if_neg hlk, hp]
          simp only [asGot]
          refine List.mem_map_of_mem (List.mem_filter.mpr ⟨hk2 r (by rw [ha]; simp [Log.append, hr']) (fun t ht => ?_), rfl⟩)
          obtain ⟨r0, hr0, rfl⟩ := List.mem_map.mp hr'
          have : (z.view r0).streamName = st := by
            rw [hz.streamName]
            exact numbered_stream hr0
          rw [this]
          exact hkeep t ht
      · simp at hout

/-- An acknowledged save survives: `before` and `after` are any lives, crashes included; if the save reported success and nothing after it
deletes the stream, then a read of everything that returns reports no error and returns the events as they were passed. -/
def Acknowledged (K : Store σ) (m0 : σ) : Prop :=
  ∀ (N : Names) (C : Codec) (enc : Encryptor) (z : Serializer) (keys nonces : Str) (before after : List Turn) (st : Str)
    (expected cancelAt : Option Nat) (ers : List EventRecord) (k : Nat) (got : Got),
    let ts := before ++ .save st expected cancelAt ers :: after
    C.Lawful → enc.Lawful → z.Lawful → Faithful z → Bytes keys → Bytes nonces → WellFormed C ts → NoShred C ts →
    (∀ t ∈ ts, t.NamesIn N) → total ts < 2 ^ 64 →
    (save C K enc z (run C K enc z id (start m0 keys nonces) before) st expected cancelAt ers).2 = .parent (.ok k) →
    (∀ t ∈ after, t.Keeps st) →
    EL.events C K enc z (run C K enc z id (start m0 keys nonces) ts) none 0 = .ok got →
    got.err = none ∧ ∃ last len, k = len + ers.length ∧ ∀ r ∈ (numbered st last len ers).map z.view, some r ∈ got.recs

/-- **C161**, acknowledged saves. -/
theorem C161_acknowledged : Acknowledged pg [] ∧ Acknowledged dyn (fun _ => none) ∧ Acknowledged vault (fun _ => []) := by
  refine ⟨?_, ?_, ?_⟩ <;> intro N C enc z keys nonces before after st expected cancelAt ers k got ts hC he hz hf hk hn hwf hns hnm hb
    hok hkeep hev
  · exact kept_of pg_keeps trivial hC he hz hf hk hn before after st expected cancelAt ers hwf hns hnm hb k hok hkeep got hev
  · exact kept_of dyn_keeps trivial hC he hz hf hk hn before after st expected cancelAt ers hwf hns hnm hb k hok hkeep got hev
  · exact kept_of vault_keeps trivial hC he hz hf hk hn before after st expected cancelAt ers hwf hns hnm hb k hok hkeep got hev

theorem dead_get (S : Sticky K dead) {w : World σ} {s : Str} (os : List Cry.Op) (ht : ∀ c, Cry.Op.call c ∈ os → Timed c)
    (hd : dead w.ks s) : (K.get (opRun K enc w os).ks s).2 = ([], some .wasDeleted) := by
  refine S.get _ s (opRun_inv (fun w => dead w.ks s) ?_ ?_ Timed ?_ w os ht hd)
  · intro w x d h
    exact engineEncrypt_ks (fun m => dead m s)
      (fun m x h => by simpa [Store.call] using S.call m (.get x) s trivial h)
      (fun m x y h => by simpa [Store.call] using S.call m (.set x y) s trivial h) w x d h
  · intro w x d h
    exact engineDecrypt_ks (fun m => dead m s)
      (fun m x h => by simpa [Store.call] using S.call m (.get x) s trivial h) w x d h
  · intro w c hc h
    exact S.call _ c s hc h

/-- **C161**, shredding: with a DynamoDB key store, a subject that is deleted stays deleted across crashes and restarts, and it is the
only data that is lost. Reads return the records up to the first one of a deleted subject, as they were passed, then a nil record and
the error; with no deleted subject they return everything. -/
theorem C161_shredded (N : Names) (C : Codec) (enc : Encryptor) (z : Serializer) (keys nonces : Str) (ts : List Turn) (hC : C.Lawful)
    (he : enc.Lawful) (hz : z.Lawful) (hf : Faithful z) (hk : Bytes keys) (hn : Bytes nonces) (hwf : WellFormed C ts)
    (ht : ∀ c, Turn.world (.call c) ∈ ts → Timed c) (hnm : ∀ t ∈ ts, t.NamesIn N) (hb : total ts < 2 ^ 64) :
    ∃ A, LD.Life z (plainParts C dyn enc z id (start (fun _ => none) keys nonces) ts) A ∧ A.log.WF ∧
      (A.stuck = false → Reads N C dyn enc z (run C dyn enc z id (start (fun _ => none) keys nonces) ts) A
        (decrypted (shredded C dyn (run C dyn enc z id (start (fun _ => none) keys nonces) ts).world))) ∧
      ∀ (before after : List Turn) (now : Nat) (s : Str), ts = before ++ .world (.call (.delete now s)) :: after →
        (dyn.get (run C dyn enc z id (start (fun _ => none) keys nonces) ts).world.ks s).2 = ([], some .wasDeleted) := by
  have R := sticky_regime dyn_keeps dyn_sticky (fun _ _ _ => rfl)
  have hto : ∀ t ∈ ts, TurnOk C (fun _ => True) Timed t := fun t hm =>
    ⟨fun er her p hp => ⟨hwf t hm er her p hp, trivial⟩, fun c hc => ht c (hc ▸ hm)⟩
  obtain ⟨A, hl, hh, hle, -⟩ := run_holds (C := C) (enc := enc) (N := N) R he hz hf ts
    (start_holds (m0 := fun _ => none) trivial hk hn) .start hnm hto (by simpa [AState.init, Log.empty] using hb)
  refine ⟨A, by simpa using hl, holds_wf hh, reads_of R hC he hh, ?_⟩
  rintro before after now s rfl
  have hsplit : run C dyn enc z id (start (fun _ => none) keys nonces) (before ++ .world (.call (.delete now s)) :: after) =
      run C dyn enc z id (step C dyn enc z id (run C dyn enc z id (start (fun _ => none) keys nonces) before)
        (.world (.call (.delete now s)))) after := by simp [run]
  rw [hsplit]
  obtain ⟨os, h1, h2⟩ := run_world (C := C) (K := dyn) (enc := enc) (z := z) after
    (step C dyn enc z id (run C dyn enc z id (start (fun _ => none) keys nonces) before) (.world (.call (.delete now s))))
  rw [h1]
  have hnow : 0 < now := ht (.delete now s) (by simp)
  exact dead_get dyn_sticky os (fun c hc => ht c (by simp [h2 c hc])) (dyn_sticky.delete _ now s hnow rfl)

/-- **C161**, the in-memory key store: it loses all keys when the process ends. Whatever was saved before, the new process returns the
records before the first one with personal data, then a nil record and the error that there is no key: the events are there, and they can
be counted, but neither the personal data nor anything behind it can be read. -/
theorem C161_memory_lost (N : Names) (C : Codec) (enc : Encryptor) (z : Serializer) (keys nonces : Str) (ts : List Turn) (hC : C.Lawful)
    (he : enc.Lawful) (hz : z.Lawful) (hf : Faithful z) (hk : Bytes keys) (hn : Bytes nonces) (hwf : WellFormed C ts)
    (ht : ∀ c, Turn.world (.call c) ∈ ts → Timed c) (hnm : ∀ t ∈ ts, t.NamesIn N) (hb : total ts < 2 ^ 64)
    (hlife : ∀ t ∈ ts, t.ends = false) :
    ∃ A, LD.Life z (plainParts C mem enc z id (start Mem.new keys nonces) ts ++ [.restart]) A ∧ A.log.WF ∧
      Reads N C mem enc z (run C mem enc z (fun _ => Mem.new) (start Mem.new keys nonces) (ts ++ [.restart])) A (lost C) := by
  have R := sticky_regime mem_keeps mem_sticky (fun _ _ _ => rfl)
  have hto : ∀ t ∈ ts, TurnOk C (fun _ => True) Timed t := fun t hm =>
    ⟨fun er her p hp => ⟨hwf t hm er her p hp, trivial⟩, fun c hc => ht c (hc ▸ hm)⟩
  obtain ⟨A, hl, hh, hle, -⟩ := run_holds (C := C) (enc := enc) (N := N) R he hz hf ts
    (start_holds (m0 := Mem.new) trivial hk hn) .start hnm hto (by simpa [AState.init, Log.empty] using hb)
  have hle' : A.log.last ≤ total ts := by simpa [AState.init, Log.empty] using hle
  obtain ⟨A1, hl1, hh1, -, -⟩ := turn_holds (C := C) (enc := enc) R he hz hf hh hl .restart (by simp [Turn.NamesIn, Turn.stream, Turn.events])
    ⟨by simp [Turn.events], by simp⟩ (by simp [Turn.events]; omega)
  have hwf1 := holds_wf hh1
  obtain ⟨hw, Ae, hsim, hr⟩ := hh1
  have hst : A1.stuck = false := by
    rw [← hr.stuck, ← hsim.mux]
    rfl
  refine ⟨A1, by simpa [partsOf] using hl1, hwf1, ?_⟩
  have hrun : run C mem enc z (fun _ => Mem.new) (start Mem.new keys nonces) (ts ++ [.restart]) =
      reopened (fun _ => Mem.new) (LD.reopen (run C mem enc z id (start Mem.new keys nonces) ts).parent.db)
        (run C mem enc z id (start Mem.new keys nonces) ts).world := by
    rw [← run_keep (fun _ => Mem.new) ts _ hlife]
    simp [run, step]
  rw [hrun]
  exact reads_gen (s := reopened (fun _ => Mem.new) (LD.reopen (run C mem enc z id (start Mem.new keys nonces) ts).parent.db)
        (run C mem enc z id (start Mem.new keys nonces) ts).world) (w := _) hsim hr hst (fun err _ _ h => readAll_new hC rfl err h)

/-! ## An example -/

/-- An event without personal data, one of subject 1, a save of an event of subject 2 in which the process is killed before the write,
one in which it is killed after the write, one in which it is killed while it encrypts, an event of another stream, a restart. -/
def demoTurns : List Turn :=
  [.save sA none none [evA [8]], .save sA none none [evP [1] [72, 105]], .killedSaving sA none none [evP [2] [88]] 1,
   .killedSaving sA none none [evP [2] [89]] 9, .killedEncrypting [evP [3] [90]] 1, .save sB none none [evB [3]], .restart]

/-- It meets the hypotheses. -/
example : WellFormed codec0 demoTurns ∧ NoShred codec0 demoTurns ∧ (∀ t ∈ demoTurns, t.NamesIn Names.plain) ∧
    total demoTurns < 2 ^ 64 ∧ codec0.Lawful ∧ (gcm toyAead).Lawful ∧ demoAll.Lawful ∧ Faithful demoAll ∧ Bytes (tape0 64) ∧
    Bytes (tape0 96) := by
  refine ⟨?_, ?_, ?_, by decide, codec0_lawful, gcm_lawful toyAead_lawful, demoAll_lawful, demoAll_faithful,
    tape0_bytes _ (by decide), tape0_bytes _ (by decide)⟩
  · intro t ht er her p hp
    simp only [demoTurns, List.mem_cons, List.not_mem_nil, or_false] at ht
    rcases ht with rfl | rfl | rfl | rfl | rfl | rfl | rfl <;>
    simp only [Turn.events, List.mem_cons, List.not_mem_nil, or_false] at her <;> subst her <;>
    simp [codec0, evA, evB, evP, ev] at hp <;> subst hp <;>
    exact ⟨by intro f hf b hb; simp at hf; subst hf; simp at hb; omega, by simp, rfl⟩
  · intro t ht er her p hp now hx
    simp [demoTurns] at hx
  · intro t ht
    simp only [demoTurns, List.mem_cons, List.not_mem_nil, or_false] at ht
    rcases ht with rfl | rfl | rfl | rfl | rfl | rfl | rfl <;>
    simp [Turn.NamesIn, Turn.stream, Turn.events, Names.plain, sA, sB, evA, evB, evP, ev, NoSep]

/-- With a DynamoDB key store everything is there but the event whose save was killed before the write. -/
theorem C161_example :
    (EL.events codec0 dyn (gcm toyAead) demoAll
      (run codec0 dyn (gcm toyAead) demoAll id (start (fun _ => none) (tape0 256) (tape0 256)) demoTurns) none 0) =
    .ok ⟨[some (mkRecord sA 1 1 (evA [8])), some (mkRecord sA 2 2 (evP [1] [72, 105])), some (mkRecord sA 3 3 (evP [2] [89])),
      some (mkRecord sB 4 1 (evB [3]))], none, false⟩ := by decide +kernel

/-- With the in-memory key store the personal data is lost at the first kill, and with it everything behind. -/
theorem C161_memory_example :
    (EL.events codec0 mem (gcm toyAead) demoAll
      (run codec0 mem (gcm toyAead) demoAll (fun _ => Mem.new) (start Mem.new (tape0 256) (tape0 256))
        [.save sA none none [evA [8]], .save sA none none [evP [1] [72, 105]], .save sB none none [evB [3]], .restart]) none 0) =
    .ok ⟨[some (mkRecord sA 1 1 (evA [8])), none], some (.crypto .notFound), false⟩ := by decide +kernel

end RangeDB.EL

import Verif.Proof.Encrypted
import Verif.Base.Demo

/-!
# Properties of the encrypted store

A history is any list of saves and deletes through the encrypted store, and of operations on the key
store and the engine by anybody (`HOp`). `plainOps` are the calls of that history with the events as the
caller wrote them, without the saves whose encryption failed; `IM.run z (plainOps …)` is therefore what an
in-memory store without encryption would hold.
-/

namespace RangeDB.ES

open RangeDB.Key RangeDB.Cry RangeDB.Demo

variable {σ : Type}

/-- Every saved event with personal data is as a program writes it (`Plain`). -/
def WellFormed (C : Codec) (ops : List HOp) : Prop :=
  ∀ st expected cancelAt ers, HOp.save st expected cancelAt ers ∈ ops → ∀ er ∈ ers, ∀ p,
    C.asP er.event.evType er.event.data = some p → Plain p

/-- No subject of a saved event is deleted from the key store. -/
def NoShred (C : Codec) (ops : List HOp) : Prop :=
  ∀ st expected cancelAt ers, HOp.save st expected cancelAt ers ∈ ops → ∀ er ∈ ers, ∀ p,
    C.asP er.event.evType er.event.data = some p → ∀ now, HOp.world (.call (.delete now p.subject)) ∉ ops

/-- An encrypted store over an empty in-memory store. -/
def start (m0 : σ) (keys nonces : Str) : State σ := ⟨IM.init, ⟨m0, keys, nonces⟩⟩

/-- What a reader of an unencrypted iterator gets. -/
def asGot (it : Iter) : Got := ⟨it.recs.map some, it.err.map .store, false⟩

/-- Reads through the encrypted store `s` return what `plain` returns. -/
def SameReads (C : Codec) (K : Store σ) (enc : Encryptor) (z : Serializer) (s : State σ)
    (plain : IM.State) : Prop :=
  (∀ c g, (events C K enc z s c g).2 = asGot (IM.events z plain c g)) ∧
  (∀ c n st, (eventsByStream C K enc z s c n st).2 = asGot (IM.eventsByStream z plain c n st)) ∧
  (∀ g types, types.Nodup → (eventsByTypes C K enc z s (fun _ => none) g types).2 =
    asGot (IM.eventsByAggregateTypes z plain (fun _ => none) g types)) ∧
  (∀ st c, totalEventsInStream s st c = IM.totalEventsInStream plain st c)

/-- Transparency of the encrypted store with key store `K`. -/
def Transparent (K : Store σ) (m0 : σ) : Prop :=
  ∀ (C : Codec) (enc : Encryptor) (z : Serializer) (keys nonces : Str) (ops : List HOp),
    C.Lawful → enc.Lawful → z.Lawful → Faithful z → Bytes keys → Bytes nonces →
    WellFormed C ops → NoShred C ops →
    SameReads C K enc z (hrun C K enc z (start m0 keys nonces) ops)
      (IM.run z (plainOps C K enc z (start m0 keys nonces) ops))

/-! ## Which key stores -/

theorem keeps_regime {K : Store σ} {inv : σ → Prop} {has : σ → Str → Str → Prop} (hK : Keeps K inv has)
    (alive : Str → Prop) :
    Regime K inv has (fun _ _ => False) alive (fun c => ∀ now s, alive s → c ≠ .delete now s) where
  keeps := hK
  okGet _ _ _ _ := by simp
  okSet _ _ _ _ _ := by simp
  hasCall m s k c hi ha hc h := Or.inl (hK.call m s k c hi h (fun now => hc now s ha))
  deadCall _ _ _ _ _ _ h := h.elim
  deadGet _ _ h := h.elim

/-- With deletions: stores in which every `Delete` at a positive time shreds the key. -/
theorem sticky_regime {K : Store σ} {inv : σ → Prop} {has : σ → Str → Str → Prop}
    {dead : σ → Str → Prop} (hK : Keeps K inv has) (hS : Sticky K dead)
    (hd : ∀ m now s, (K.delete m now s).2 = none) :
    Regime K inv has dead (fun _ => True) Timed where
  keeps := hK
  okGet _ := trivial
  okSet _ _ := trivial
  hasCall m s k c hi _ hc h := by
    by_cases hx : ∃ now, c = .delete now s
    · obtain ⟨now, rfl⟩ := hx
      right
      simpa [Store.call] using hS.delete m now s hc (hd m now s)
    · left
      exact hK.call m s k c hi h (fun now hcc => hx ⟨now, hcc⟩)
  deadCall m s c _ _ hc h := hS.call m c s hc h
  deadGet := hS.get

theorem start_holds {C : Codec} {K : Store σ} {inv : σ → Prop} {has : σ → Str → Str → Prop}
    {dead : σ → Str → Prop} {alive : Str → Prop} {enc : Encryptor} {z : Serializer} {m0 : σ}
    (h0 : inv m0) {keys nonces : Str} (hk : Bytes keys) (hn : Bytes nonces) :
    Holds C K inv has dead alive enc z (start m0 keys nonces) Log.empty :=
  ⟨⟨h0, hk, hn⟩, Log.empty, Log.WF.empty, IM.sim_init, rfl, .nil⟩

section Reads
variable {K : Store σ} {inv : σ → Prop} {has : σ → Str → Str → Prop} {dead : σ → Str → Prop}
  {alive : Str → Prop} {ok : Call → Prop} {enc : Encryptor} {C : Codec} {z : Serializer}

theorem rel_cut {R : Record → Record → Prop} {rp re : List Record} (h : Rel2 R rp re) (c : Option Nat) :
    ∃ lp le err, cut c rp = ⟨lp, err⟩ ∧ cut c re = ⟨le, err⟩ ∧ Rel2 R lp le := by
  cases c with
  | none => exact ⟨rp, re, none, rfl, rfl, h⟩
  | some c =>
    simp only [cut, h.length]
    split
    · exact ⟨_, _, _, rfl, rfl, h⟩
    · exact ⟨_, _, _, rfl, rfl, h.take c⟩

/-- Reads, with shredded subjects. -/
theorem reads_of (R : Regime K inv has dead alive ok) (hC : C.Lawful) (he : enc.Lawful) {s : State σ}
    {Lp : Log} (h : Holds C K inv has dead alive enc z s Lp) {plain : IM.State} (hp : IM.Sim z plain Lp)
    (hL : Lp.WF) :
    (∀ c g, (events C K enc z s c g).2 =
      decrypted (shredded C K s.world) (IM.events z plain c g)) ∧
    (∀ c n st, (eventsByStream C K enc z s c n st).2 =
      decrypted (shredded C K s.world) (IM.eventsByStream z plain c n st)) ∧
    (∀ g types, types.Nodup → (eventsByTypes C K enc z s (fun _ => none) g types).2 =
      decrypted (shredded C K s.world) (IM.eventsByAggregateTypes z plain (fun _ => none) g types)) ∧
    (∀ st c, totalEventsInStream s st c = IM.totalEventsInStream plain st c) := by
  obtain ⟨hw, Le, hLe, hsim, hr⟩ := h
  refine ⟨?_, ?_, ?_, ?_⟩
  · intro c g
    have hrel := hr.2.filter (p := fun r => decide (r.gsn ≥ g)) (q := fun r => decide (r.gsn ≥ g))
      (by rintro a b ⟨d, rfl, _⟩; rfl)
    obtain ⟨lp, le, err, e1, e2, e3⟩ := rel_cut hrel c
    simp only [events, IM.events_spec hsim, IM.events_spec hp, e1, e2]
    exact readAll_rel R hC he hw err e3
  · intro c n st
    simp only [eventsByStream, IM.eventsByStream_spec hsim, IM.eventsByStream_spec hp, hr.streamLen]
    split
    · exact readAll_rel R hC he hw _ .nil
    · have hrel := (hr.stream st).filter (p := fun r => decide (r.seq ≥ n))
        (q := fun r => decide (r.seq ≥ n)) (by rintro a b ⟨d, rfl, _⟩; rfl)
      obtain ⟨lp, le, err, e1, e2, e3⟩ := rel_cut hrel c
      simp only [e1, e2]
      exact readAll_rel R hC he hw err e3
  · intro g types hd
    have hrel := hr.2.filter (p := fun r => decide (r.aggType ∈ types) && decide (r.gsn ≥ g))
      (q := fun r => decide (r.aggType ∈ types) && decide (r.gsn ≥ g))
      (by rintro a b ⟨d, rfl, _⟩; rfl)
    simp only [eventsByTypes, IM.eventsByAggregateTypes_spec hsim hLe g types hd,
      IM.eventsByAggregateTypes_spec hp hL g types hd]
    exact readAll_rel R hC he hw none hrel
  · intro st c
    cases c with
    | true => rfl
    | false => simp only [totalEventsInStream, IM.total_spec hsim, IM.total_spec hp, hr.streamLen]

theorem decrypted_none {sh : Record → Bool} {it : Iter} (h : ∀ r ∈ it.recs, sh r = false) :
    decrypted sh it = asGot it := by
  have h1 : it.recs.any sh = false := by
    rw [List.any_eq_false]; intro r hr; simp [h r hr]
  have h2 : it.recs.takeWhile (fun r => ! sh r) = it.recs := by
    have : ∀ l : List Record, (∀ r ∈ l, sh r = false) → l.takeWhile (fun r => ! sh r) = l := by
      intro l hl
      induction l with
      | nil => rfl
      | cons a l ih =>
        simp [List.takeWhile_cons, hl a (by simp), ih (fun r hr => hl r (by simp [hr]))]
    exact this _ h
  simp [decrypted, asGot, h1, h2]

end Reads

/-! ## C30 -/

section C30
variable {K : Store σ} {inv : σ → Prop} {has : σ → Str → Str → Prop} {C : Codec} {enc : Encryptor}
  {z : Serializer}

theorem stepOk_of {ops : List HOp} (hw : WellFormed C ops) (hn : NoShred C ops) :
    ∀ op ∈ ops, StepOk C (fun s => ∀ now, HOp.world (.call (.delete now s)) ∉ ops)
      (fun c => ∀ now s, (∀ now, HOp.world (.call (.delete now s)) ∉ ops) → c ≠ .delete now s) op := by
  intro op hop
  cases op with
  | save st e c ers =>
    intro er her p hp
    exact ⟨hw st e c ers hop er her p hp, hn st e c ers hop er her p hp⟩
  | delete => trivial
  | world o => cases o with
    | call c =>
      intro now s ha hc
      subst hc
      exact ha now hop
    | enc => trivial
    | dec => trivial

/-- In a store whose subjects of interest cannot die, nothing is shredded. -/
theorem not_shredded {alive : Str → Prop} {ok : Call → Prop}
    (R : Regime K inv has (fun _ _ => False) alive ok) {w : World σ} (hw : inv w.ks) {rp re : Record}
    (h : RRel C K inv has (fun _ _ => False) alive enc w rp re) : shredded C K w rp = false := by
  obtain ⟨d, _, hd⟩ := h
  rcases hd with ⟨h1, _⟩ | ⟨p, q, h1, _, _, _, _, h4⟩
  · simp [shredded, h1]
  · rcases h4 with ⟨h5, h6, _, _⟩ | ⟨_, _, k, h5, _⟩
    · simp [shredded, h1, h5, h6]
    · rcases h5 with h5 | h5
      · simp [shredded, h1, R.keeps.get _ _ _ hw h5]
      · exact h5.elim

theorem rel2_mem {α β : Type} {R : α → β → Prop} {as : List α} {bs : List β} (h : Rel2 R as bs) {a : α}
    (ha : a ∈ as) : ∃ b, R a b := by
  induction h with
  | nil => simp at ha
  | cons h _ ih =>
    rcases List.mem_cons.mp ha with rfl | ha
    · exact ⟨_, h⟩
    · exact ih ha

theorem transparent_of (hK : Keeps K inv has) {m0 : σ} (h0 : inv m0) : Transparent K m0 := by
  intro C enc z keys nonces ops hC he hz hf hk hn hwf hns
  have R := keeps_regime hK (fun s => ∀ now, HOp.world (.call (.delete now s)) ∉ ops)
  have h := hrun_holds (C := C) (enc := enc) R he hz hf ops (start_holds h0 hk hn) (stepOk_of hwf hns)
  obtain ⟨hL, hp⟩ := IM.run_sim hz (plainOps C K enc z (start m0 keys nonces) ops)
    (fun op _ => guarded_of_faithful hf op)
  obtain ⟨r1, r2, r3, r4⟩ := reads_of R hC he h hp hL
  have hsh : ∀ r ∈ (specRun z (plainOps C K enc z (start m0 keys nonces) ops)).recs,
      shredded C K (hrun C K enc z (start m0 keys nonces) ops).world r = false := by
    intro r hr
    obtain ⟨hw, Le, _, _, hrel⟩ := h
    obtain ⟨re, hre⟩ := rel2_mem hrel.2 hr
    exact not_shredded R hw.1 hre
  have hcut : ∀ c (l : List Record), (∀ r ∈ l, r ∈ (specRun z (plainOps C K enc z
      (start m0 keys nonces) ops)).recs) → ∀ r ∈ (cut c l).recs,
      shredded C K (hrun C K enc z (start m0 keys nonces) ops).world r = false := by
    intro c l hl r hr
    refine hsh r (hl r ?_)
    unfold cut at hr
    cases c with
    | none => exact hr
    | some c =>
      simp only at hr
      split at hr
      · exact hr
      · exact List.mem_of_mem_take hr
  refine ⟨?_, ?_, ?_, r4⟩
  · intro c g
    rw [r1, decrypted_none]
    rw [IM.events_spec hp]
    exact hcut c _ (fun r hr => (List.mem_filter.mp hr).1)
  · intro c n st
    rw [r2, decrypted_none]
    rw [IM.eventsByStream_spec hp]
    split
    · simp
    · exact hcut c _ (fun r hr => (List.mem_filter.mp (List.mem_filter.mp hr).1).1)
  · intro g types hd
    rw [r3 g types hd, decrypted_none]
    rw [IM.eventsByAggregateTypes_spec hp hL g types hd]
    exact fun r hr => hsh r (List.mem_filter.mp hr).1

/-- **C30.** After every history in which no subject of a saved event is deleted, every read through the
encrypted store returns exactly what an unencrypted store would: the same records in the same order with
the same numbering and the plain data, and the same error. With the in-memory, PostgreSQL, DynamoDB
and Vault key stores, and with an in-memory cache in front of an in-memory store with any past. -/
theorem C30_transparent (past : List Call) :
    Transparent mem Mem.new ∧ Transparent pg [] ∧ Transparent dyn (fun _ => none) ∧
    Transparent vault (fun _ => []) ∧
    Transparent (cache mem mem) (Mem.new, (mem.run Mem.new past).1) :=
  ⟨transparent_of mem_keeps trivial, transparent_of pg_keeps trivial, transparent_of dyn_keeps trivial,
    transparent_of vault_keeps trivial, transparent_of cache_keeps (cacheInv_run _ past rfl [])⟩

/-- **C30**, calls: after every history, whatever happened to the keys, a save whose encryption succeeds
and a delete end exactly as on an unencrypted store (same number, same error); a save whose encryption
fails or panics leaves the parent store as it was and broadcasts nothing. -/
theorem C30_calls (C : Codec) (K : Store σ) (enc : Encryptor) (z : Serializer) (hf : Faithful z) (m0 : σ)
    (keys nonces : Str) (ops : List HOp) (st : Str) :
    let s := hrun C K enc z (start m0 keys nonces) ops
    let plain := IM.run z (plainOps C K enc z (start m0 keys nonces) ops)
    (∀ expected cancelAt ers,
      ((encBatch C K enc s.world ers).2.2 = .ok →
        (save C K enc z s st expected cancelAt ers).out =
          .parent (IM.saveEvents z plain st expected cancelAt ers).out) ∧
      ((encBatch C K enc s.world ers).2.2 ≠ .ok →
        (save C K enc z s st expected cancelAt ers).state.parent = s.parent ∧
        (save C K enc z s st expected cancelAt ers).broadcast = [] ∧
        (save C K enc z s st expected cancelAt ers).out =
          (match (encBatch C K enc s.world ers).2.2 with
            | .err e => .encErr e
            | _ => .panic))) ∧
    (∀ expected cancelled, (delete s st expected cancelled).2 =
      (IM.deleteStream plain st expected cancelled).2) := by
  intro s plain
  have hsame : Same plain s.parent :=
    hrun_same (C := C) (K := K) (enc := enc) hf ops (s := start m0 keys nonces) ⟨_, rfl⟩
  refine ⟨fun expected cancelAt ers => ?_, fun expected cancelled => ?_⟩
  · have hb := encBatch_env (K := K) (enc := enc) C ers s.world
    simp only [save]
    generalize encBatch C K enc s.world ers = x at *
    obtain ⟨w1, l, r⟩ := x
    cases r with
    | ok =>
      refine ⟨fun _ => ?_, by simp⟩
      have := (saveEvents_same hf hsame st expected cancelAt hb).2
      simp only at this ⊢
      rw [this]
    | err e => exact ⟨by simp, fun _ => ⟨rfl, rfl, rfl⟩⟩
    | panic => exact ⟨by simp, fun _ => ⟨rfl, rfl, rfl⟩⟩
  · have := (deleteStream_same hsame st expected cancelled).2
    simp only [delete]
    exact this

/-- What the parent store holds for the plain record `rp`: the same record, in which the personal fields
are sealed (`Sealed`, `Verif/Spec/Encrypted.lean`). -/
def SealedRecord (C : Codec) (K : Store σ) (enc : Encryptor) (rp re : Record) : Prop :=
  (C.asP rp.evType rp.data = none ∧ re = rp) ∨
  ∃ p q, C.asP rp.evType rp.data = some p ∧ C.asP re.evType re.data = some q ∧ Sealed K enc p q ∧
    re = { rp with data := C.ofP rp.evType rp.data q }

theorem rel2_getElem {α β : Type} {R : α → β → Prop} {as : List α} {bs : List β} (h : Rel2 R as bs)
    (i : Nat) (a : α) (b : β) (ha : as[i]? = some a) (hb : bs[i]? = some b) : R a b := by
  induction h generalizing i with
  | nil => simp at ha
  | cons h _ ih => cases i with
    | zero =>
      simp only [List.getElem?_cons_zero, Option.some.injEq] at ha hb
      subst ha; subst hb; exact h
    | succ i => exact ih i ha hb

/-- **C30**, the parent store: after every history with the in-memory key store (deletions of subjects
included, at positive times), the records the parent store holds are, one by one, the sealed forms of
the records an unencrypted store would hold. -/
theorem C30_sealed (C : Codec) (enc : Encryptor) (z : Serializer) (keys nonces : Str) (ops : List HOp)
    (hC : C.Lawful) (he : enc.Lawful) (hz : z.Lawful) (hf : Faithful z) (hk : Bytes keys)
    (hn : Bytes nonces) (hwf : WellFormed C ops) (ht : ∀ c, HOp.world (.call c) ∈ ops → Timed c) :
    let s := hrun C mem enc z (start Mem.new keys nonces) ops
    let plain := IM.run z (plainOps C mem enc z (start Mem.new keys nonces) ops)
    (IM.events z s.parent none 0).recs.length = (IM.events z plain none 0).recs.length ∧
    (IM.events z s.parent none 0).err = none ∧
    ∀ (i : Nat) (rp re : Record), (IM.events z plain none 0).recs[i]? = some rp →
      (IM.events z s.parent none 0).recs[i]? = some re → SealedRecord C mem enc rp re := by
  intro s plain
  have R := sticky_regime mem_keeps mem_sticky (fun _ _ _ => rfl)
  have hok : ∀ op ∈ ops, StepOk C (fun _ => True) Timed op := by
    intro op hop
    cases op with
    | save st e c ers => exact fun er her p hp => ⟨hwf st e c ers hop er her p hp, trivial⟩
    | delete => trivial
    | world o => cases o with
      | call c => exact ht c hop
      | enc => trivial
      | dec => trivial
  have h := hrun_holds (C := C) (enc := enc) R he hz hf ops
    (start_holds (m0 := Mem.new) trivial hk hn) hok
  obtain ⟨hL, hp⟩ := IM.run_sim hz (plainOps C mem enc z (start Mem.new keys nonces) ops)
    (fun op _ => guarded_of_faithful hf op)
  obtain ⟨hw, Le, hLe, hsim, hrel⟩ := h
  have hfil : ∀ l : List Record, l.filter (fun r => decide (r.gsn ≥ 0)) = l := by
    intro l; rw [List.filter_eq_self]; simp
  rw [IM.events_spec hsim, IM.events_spec hp]
  simp only [cut, hfil]
  refine ⟨hrel.2.length, trivial, fun i rp re h1 h2 => ?_⟩
  obtain ⟨d, rfl, hd⟩ := rel2_getElem hrel.2 i rp re h1 h2
  rcases hd with ⟨h3, rfl⟩ | ⟨p, q, h3, rfl, hsh, _, ⟨_, hse⟩, _⟩
  · exact Or.inl ⟨h3, rfl⟩
  · exact Or.inr ⟨p, q, h3, hC.get_put _ _ _ _ h3 hsh, hse, rfl⟩

end C30

/-! ### A concrete codec, serializer and history -/

/-- Events of type `"P"` (80) carry one personal string: their data is the length of the subject, the
subject and the string. -/
def codec0 : Codec where
  asP t d := if t = [80] then
      match d with
      | [] => none
      | n :: x => if n ≤ x.length then some ⟨x.take n, [x.drop n], [], [], []⟩ else none
    else none
  ofP _ d q := match d with
    | [] => []
    | n :: x => n :: (x.take n ++ (q.strs.head?.getD []))

theorem codec0_lawful : codec0.Lawful where
  get_put t d p q h hs := by
    simp only [codec0] at h ⊢
    split at h
    · rename_i ht
      rw [if_pos ht]
      cases d with
      | nil => simp at h
      | cons n x =>
        simp only at h ⊢
        split at h
        · rename_i hn
          simp only [Option.some.injEq] at h; subst h
          obtain ⟨h1, h2, h3, h4, h5⟩ := hs
          obtain ⟨sub, strs, ints, sers, rest⟩ := q
          simp only [List.length_cons, List.length_nil] at h1 h2 h3 h4 h5
          obtain ⟨f, rfl⟩ : ∃ f, strs = [f] := List.length_eq_one_iff.mp h3
          have h4 := List.length_eq_zero_iff.mp h4
          have h5 := List.length_eq_zero_iff.mp h5
          subst h1; subst h2; subst h4; subst h5
          have : (x.take n).length = n := by simp; omega
          rw [if_pos (by simp; omega)]
          simp [List.take_append, List.drop_append, this, Nat.min_eq_left hn]
        · simp at h
    · simp at h
  put_get t d p h := by
    simp only [codec0] at h ⊢
    split at h
    · cases d with
      | nil => rfl
      | cons n x =>
        simp only at h ⊢
        split at h
        · simp only [Option.some.injEq] at h; subst h
          simp
        · simp at h
    · simp at h
  put_put t d p q r h _ := by
    simp only [codec0] at h ⊢
    split at h
    · cases d with
      | nil => rfl
      | cons n x =>
        simp only at h ⊢
        split at h
        · rename_i hn
          have : (x.take n).length = n := by simp; omega
          simp [List.take_append, Nat.min_eq_left hn]
        · simp at h
    · simp at h

/-- The example serializer without the rejection. -/
def demoAll : Serializer := ⟨fun r => demo.ser { r with data := 0 :: r.data },
  fun b => (demo.deser b).map (fun r => { r with data := r.data.drop 1 }), id⟩

theorem demoAll_lawful : demoAll.Lawful where
  roundTrip r b h := by
    have := demo_lawful.roundTrip { r with data := 0 :: r.data } b h
    simp only [demoAll, this]
    simp [demo]
  streamName := fun _ => rfl
  aggType := fun _ => rfl
  aggId := fun _ => rfl
  gsn := fun _ => rfl
  seq := fun _ => rfl
  ts := fun _ => rfl
  eventId := fun _ => rfl
  evType := fun _ => rfl

theorem demoAll_faithful : Faithful demoAll where
  accepts r := by simp [demoAll, demo, Demo.ser]
  data _ := rfl
  metadata _ _ := rfl

/-- An event of aggregate `A`/`1` with a personal string `f` of subject `s`. -/
def evP (s f : Str) : EventRecord := ⟨⟨[65], [49], [80], s.length :: (s ++ f)⟩, [], [85], 7⟩

/-- Two subjects, an event without personal data, a rejected optimistic save and a deletion of a stream. -/
def hist30 : List HOp :=
  [.save sA none none [evP [1] [72, 105], evA [9]], .save sA (some 7) none [evP [2] [90]],
   .save sB none none [evB [3]], .world (.call (.get [1])), .save sA (some 2) none [evP [2] [88]],
   .delete sB 1 false]

example : WellFormed codec0 hist30 ∧ NoShred codec0 hist30 := by
  refine ⟨?_, ?_⟩
  · intro st e c ers h er her p hp
    simp only [hist30, List.mem_cons, List.not_mem_nil, or_false, reduceCtorEq, HOp.save.injEq,
      false_or] at h
    rcases h with ⟨_, _, _, rfl⟩ | ⟨_, _, _, rfl⟩ | ⟨_, _, _, rfl⟩ | ⟨_, _, _, rfl⟩ <;>
    simp only [List.mem_cons, List.not_mem_nil, or_false] at her
    · rcases her with rfl | rfl
      · simp only [codec0, evP] at hp
        simp at hp; subst hp
        exact ⟨by intro f hf b hb; simp at hf; subst hf; simp at hb; omega, by simp, rfl⟩
      · simp [codec0, evA, ev] at hp
    · subst her
      simp only [codec0, evP] at hp
      simp at hp; subst hp
      exact ⟨by intro f hf b hb; simp at hf; subst hf; simp at hb; omega, by simp, rfl⟩
    · subst her; simp [codec0, evB, ev] at hp
    · subst her
      simp only [codec0, evP] at hp
      simp at hp; subst hp
      exact ⟨by intro f hf b hb; simp at hf; subst hf; simp at hb; omega, by simp, rfl⟩
  · intro st e c ers h er her p hp now hmem
    simp [hist30] at hmem

/-- In that history the read through the encrypted store returns three plain records, and the parent holds
cipher texts. -/
example :
    let s := hrun codec0 mem (gcm toyAead) demoAll (start Mem.new (tape0 64) (tape0 96)) hist30
    (events codec0 mem (gcm toyAead) demoAll s none 0).2.recs.map (·.map (·.data)) =
        [some [1, 1, 72, 105], some [9], some [1, 2, 88]] ∧
      (IM.events demoAll s.parent none 0).recs.map (·.data) ≠
        [[1, 1, 72, 105], [9], [1, 2, 88]] := by decide +kernel

/-! ## C31 -/

/-- After the subject of some events was deleted, reading still returns every record of the other subjects. -/
def C31_full : Prop :=
  ∀ (C : Codec) (enc : Encryptor) (z : Serializer) (keys nonces : Str) (ops : List HOp),
    C.Lawful → enc.Lawful → z.Lawful → Faithful z → Bytes keys → Bytes nonces → WellFormed C ops →
    (∀ c, HOp.world (.call c) ∈ ops → Timed c) →
    let s := hrun C mem enc z (start Mem.new keys nonces) ops
    ∀ r ∈ (IM.events z (IM.run z (plainOps C mem enc z (start Mem.new keys nonces) ops)) none 0).recs,
      shredded C mem s.world r = false → some r ∈ (events C mem enc z s none 0).2.recs

/-- An event of subject 1, an event without personal data and an event of subject 2; then subject 1 is
shredded. -/
def hist31 : List HOp :=
  [.save sA none none [evA [8]], .save sA none none [evP [1] [72, 105]], .save sB none none [evB [3]],
   .save sA none none [evP [2] [88]], .world (.call (.delete 5 [1]))]

theorem hist31_wf : WellFormed codec0 hist31 := by
  intro st e c ers h er her p hp
  simp only [hist31, List.mem_cons, List.not_mem_nil, or_false, reduceCtorEq, HOp.save.injEq] at h
  rcases h with ⟨_, _, _, rfl⟩ | ⟨_, _, _, rfl⟩ | ⟨_, _, _, rfl⟩ | ⟨_, _, _, rfl⟩ <;>
  simp only [List.mem_cons, List.not_mem_nil, or_false] at her <;> subst her
  · simp [codec0, evA, ev] at hp
  · simp only [codec0, evP] at hp
    simp at hp; subst hp
    exact ⟨by intro f hf b hb; simp at hf; subst hf; simp at hb; omega, by simp, rfl⟩
  · simp [codec0, evB, ev] at hp
  · simp only [codec0, evP] at hp
    simp at hp; subst hp
    exact ⟨by intro f hf b hb; simp at hf; subst hf; simp at hb; omega, by simp, rfl⟩

theorem hist31_timed : ∀ c, HOp.world (.call c) ∈ hist31 → Timed c := by
  intro c h
  simp only [hist31, List.mem_cons, List.not_mem_nil, or_false, reduceCtorEq, HOp.world.injEq,
    Cry.Op.call.injEq, false_or] at h
  subst h
  simp [Timed]

/-- What the reader of that history gets: the first event, a nil record, and `ErrKeyWasDeleted`; the
events of subject 2 and of stream B are not returned. -/
theorem C31_example :
    let s := hrun codec0 mem (gcm toyAead) demoAll (start Mem.new (tape0 64) (tape0 96)) hist31
    (events codec0 mem (gcm toyAead) demoAll s none 0).2.recs.map (·.map (·.data)) = [some [8], none] ∧
    (events codec0 mem (gcm toyAead) demoAll s none 0).2.err = some (.crypto .wasDeleted) := by
  decide +kernel

/-- **C31** is false: `hist31`. -/
theorem C31_false : ¬ C31_full := by
  intro h
  have := h codec0 (gcm toyAead) demoAll (tape0 64) (tape0 96) hist31 codec0_lawful
    (gcm_lawful toyAead_lawful) demoAll_lawful demoAll_faithful (tape0_bytes _ (by decide))
    (tape0_bytes _ (by decide)) hist31_wf hist31_timed
    (mkRecord sB 3 1 (evB [3])) (by decide +kernel) (by decide +kernel)
  revert this
  decide +kernel

/-- What can be relied on with key store `K`: after every history, with any subjects deleted, a read returns
exactly the records before the first one that carries personal data of a deleted subject, as an
unencrypted store returns them; if there is such a record it is followed by one nil record, and the error is
`ErrKeyWasDeleted`. -/
def UpToShredded (K : Store σ) (m0 : σ) : Prop :=
  ∀ (C : Codec) (enc : Encryptor) (z : Serializer) (keys nonces : Str) (ops : List HOp),
    C.Lawful → enc.Lawful → z.Lawful → Faithful z → Bytes keys → Bytes nonces → WellFormed C ops →
    (∀ c, HOp.world (.call c) ∈ ops → Timed c) →
    let s := hrun C K enc z (start m0 keys nonces) ops
    let plain := IM.run z (plainOps C K enc z (start m0 keys nonces) ops)
    (∀ c g, (events C K enc z s c g).2 =
      decrypted (shredded C K s.world) (IM.events z plain c g)) ∧
    (∀ c n st, (eventsByStream C K enc z s c n st).2 =
      decrypted (shredded C K s.world) (IM.eventsByStream z plain c n st)) ∧
    (∀ g types, types.Nodup → (eventsByTypes C K enc z s (fun _ => none) g types).2 =
      decrypted (shredded C K s.world) (IM.eventsByAggregateTypes z plain (fun _ => none) g types)) ∧
    (∀ st c, totalEventsInStream s st c = IM.totalEventsInStream plain st c)

theorem upToShredded_of {K : Store σ} {inv : σ → Prop} {has : σ → Str → Str → Prop}
    {dead : σ → Str → Prop} (hK : Keeps K inv has) (hS : Sticky K dead)
    (hd : ∀ m now s, (K.delete m now s).2 = none) {m0 : σ} (h0 : inv m0) : UpToShredded K m0 := by
  intro C enc z keys nonces ops hC he hz hf hk hn hwf ht s plain
  have R := sticky_regime hK hS hd
  have hok : ∀ op ∈ ops, StepOk C (fun _ => True) Timed op := by
    intro op hop
    cases op with
    | save st e c ers => exact fun er her p hp => ⟨hwf st e c ers hop er her p hp, trivial⟩
    | delete => trivial
    | world o => cases o with
      | call c => exact ht c hop
      | enc => trivial
      | dec => trivial
  have h := hrun_holds (C := C) (enc := enc) R he hz hf ops (start_holds (m0 := m0) h0 hk hn) hok
  obtain ⟨hL, hp⟩ := IM.run_sim hz (plainOps C K enc z (start m0 keys nonces) ops)
    (fun op _ => guarded_of_faithful hf op)
  exact reads_of R hC he h hp hL

/-- **C31**, what holds, with the in-memory and the DynamoDB key store. Missing from the full statement:
the records after the first undecryptable one. -/
theorem C31_partial : UpToShredded mem Mem.new ∧ UpToShredded dyn (fun _ => none) :=
  ⟨upToShredded_of mem_keeps mem_sticky (fun _ _ _ => rfl) trivial,
    upToShredded_of dyn_keeps dyn_sticky (fun _ _ _ => rfl) trivial⟩

example :
    let s := hrun codec0 mem (gcm toyAead) demoAll (start Mem.new (tape0 64) (tape0 96)) hist31
    let plain := IM.run demoAll
      (plainOps codec0 mem (gcm toyAead) demoAll (start Mem.new (tape0 64) (tape0 96)) hist31)
    (IM.events demoAll plain none 0).recs.map (shredded codec0 mem s.world) =
      [false, true, false, false] := by decide +kernel

/-! ## C32 -/

/-- `Record` called twice returns the same. -/
def C32_full : Prop :=
  ∀ (C : Codec) (enc : Encryptor) (w w1 w2 : World Mem) (it it1 it2 : DIter) (r : Record)
    (o : Option (Option Record)), C.Lawful → enc.Lawful →
    it.record C mem enc w = (w1, it1, some (some r)) → it1.record C mem enc w1 = (w2, it2, o) →
    o = some (some r)

/-- An iterator standing at an encrypted record of subject 1. -/
def at32 : World Mem × DIter :=
  let s := hrun codec0 mem (gcm toyAead) demoAll (start Mem.new (tape0 64) (tape0 96))
    [.save sA none none [evP [1] [72, 105]]]
  (s.world, (DIter.new (IM.events demoAll s.parent none 0)).next.1)

/-- The first `Record` returns the plain record, the second nil, and the iterator has an error. -/
theorem C32_example :
    let x := at32.2.record codec0 mem (gcm toyAead) at32.1
    let y := x.2.1.record codec0 mem (gcm toyAead) x.1
    (x.2.2.map (·.map (·.data))) = some (some [1, 1, 72, 105]) ∧ y.2.2 = some none ∧
      y.2.1.error = some (.crypto .other) := by decide +kernel

/-- **C32** is false. -/
theorem C32_false : ¬ C32_full := by
  intro h
  have h1 := h codec0 (gcm toyAead) at32.1 _ _ at32.2 _ _ (mkRecord sA 1 1 (evP [1] [72, 105]))
    _ codec0_lawful (gcm_lawful toyAead_lawful) (Prod.ext rfl (Prod.ext rfl (by decide +kernel))) rfl
  revert h1
  decide +kernel

/-- **C32**, what holds: for events without personal data `Record` is repeatable. Missing: events with
personal data. -/
theorem C32_partial (C : Codec) (K : Store σ) (enc : Encryptor) (w w1 w2 : World σ) (it it1 it2 : DIter)
    (r : Record) (o : Option (Option Record)) (h0 : ∀ r0, it.parent.record = some r0 → C.asP r0.evType r0.data = none)
    (h1 : it.record C K enc w = (w1, it1, some (some r))) (h2 : it1.record C K enc w1 = (w2, it2, o)) :
    o = some (some r) := by
  unfold DIter.record at h1
  cases hp : it.parent.record with
  | none => simp [hp] at h1
  | some r0 =>
    simp only [hp, decData, h0 r0 hp, Prod.mk.injEq, Option.some.injEq] at h1
    obtain ⟨_, rfl, rfl⟩ := h1
    unfold DIter.record at h2
    simp only [setCurrent, RecordIterator.record, decData, h0 r0 hp, Prod.mk.injEq] at h2
    exact h2.2.2.symm

example : (DIter.new ⟨[mkRecord sA 1 1 (evA [9])], none⟩).next.1.parent.record =
    some (mkRecord sA 1 1 (evA [9])) ∧ codec0.asP [69] [9] = none := by decide

/-! ## C56: retrying a failed save -/

/-- An `OptimisticSave` that failed because of the stream number can be retried with the same events and the
actual number: reads then return what an unencrypted store returns. -/
def C56_full : Prop :=
  ∀ (C : Codec) (enc : Encryptor) (z : Serializer) (keys nonces : Str) (ops : List HOp) (st : Str)
    (e n k : Nat) (ers : List EventRecord),
    C.Lawful → enc.Lawful → z.Lawful → Faithful z → Bytes keys → Bytes nonces →
    WellFormed C (ops ++ [.save st (some n) none ers]) → NoShred C (ops ++ [.save st (some n) none ers]) →
    let s := hrun C mem enc z (start Mem.new keys nonces) ops
    let first := save C mem enc z s st (some e) none ers
    let retry := save C mem enc z first.state st (some n) none first.events
    first.out = .parent (.err (.unexpected e n)) → retry.out = .parent (.ok k) →
    (eventsByStream C mem enc z retry.state none (n + 1) st).2.recs.map (·.map (·.data)) =
      ers.map (fun er => some er.event.data)

/-- **C56** is false: the failed call has encrypted the caller's events, the retry encrypts them again, and
reading decrypts once. -/
theorem C56_false : ¬ C56_full := by
  intro h
  have h1 := h codec0 (gcm toyAead) demoAll (tape0 64) (tape0 96) [] sA 7 0 1 [evP [1] [72, 105]]
    codec0_lawful (gcm_lawful toyAead_lawful) demoAll_lawful demoAll_faithful
    (tape0_bytes _ (by decide)) (tape0_bytes _ (by decide))
    (by
      intro st e c ers h er her p hp
      simp only [List.nil_append, List.mem_cons, List.not_mem_nil, or_false, HOp.save.injEq] at h
      obtain ⟨_, _, _, rfl⟩ := h
      simp only [List.mem_cons, List.not_mem_nil, or_false] at her; subst her
      simp only [codec0, evP] at hp
      simp at hp; subst hp
      exact ⟨by intro f hf b hb; simp at hf; subst hf; simp at hb; omega, by simp, rfl⟩)
    (by
      intro st e c ers h er her p hp now hmem
      simp at hmem)
    (by decide +kernel) (by decide +kernel)
  revert h1
  decide +kernel

/-- **C56**, what holds: a batch without personal data is left as it was, whatever the outcome, so a retry
saves the same events. Missing: events with personal data, of which the caller has to keep a copy. -/
theorem C56_partial (C : Codec) (K : Store σ) (enc : Encryptor) (z : Serializer) (s : State σ) (st : Str)
    (expected cancelAt : Option Nat) (ers : List EventRecord)
    (h : ∀ er ∈ ers, C.asP er.event.evType er.event.data = none) :
    (save C K enc z s st expected cancelAt ers).events = ers ∧
    (save C K enc z s st expected cancelAt ers).out =
      .parent (IM.saveEvents z s.parent st expected cancelAt ers).out := by
  have : ∀ w : World σ, encBatch C K enc w ers = (w, ers, .ok) := by
    clear s
    induction ers with
    | nil => intro w; rfl
    | cons er ers ih =>
      intro w
      simp only [encBatch, encData, h er (by simp), ih (fun e he => h e (by simp [he])) w]
      rfl
  simp only [save, this, and_self]

example : (save codec0 mem (gcm toyAead) demoAll (start Mem.new [] []) sA (some 3) none [evA [9]]).out =
    .parent (.err (.unexpected 3 0)) := by decide

/-! ## C57: two subscribers -/

/-- The same record is handed to every subscriber. Two decrypting subscribers, one after the other, both get
the plain record. -/
def C57_full : Prop :=
  ∀ (C : Codec) (enc : Encryptor) (w w1 w2 : World Mem) (r r1 : Record) (o : Option Record),
    C.Lawful → enc.Lawful → accept C mem enc w r = (w1, some r1) → accept C mem enc w1 r1 = (w2, o) →
    o = some r1

/-- An encrypted record as the parent broadcasts it, with the XChaCha20-Poly1305 engine; the personal
string is "John". -/
def at57 : World Mem × Record :=
  let r := save codec0 mem (xcha toyAead) demoAll (start Mem.new (tape0 64) (tape0 96)) sA none none
    [evP [1] [74, 111, 104, 110]]
  (r.state.world, r.broadcast.head?.getD (mkRecord [] 0 0 (evA [])))

/-- **C57** is false: the second subscriber's decryption panics, because "John" is base64 for three bytes
and the engine slices off a nonce without looking at the length (C55). -/
theorem C57_false : ¬ C57_full := by
  intro h
  have h1 := h codec0 (xcha toyAead) at57.1 _ _ at57.2 (mkRecord sA 1 1 (evP [1] [74, 111, 104, 110]))
    _ codec0_lawful (xcha_lawful toyAead_lawful) (Prod.ext rfl (by decide +kernel)) rfl
  revert h1
  decide +kernel

/-- **C57**, what holds: if decrypting the plain event fails with an error other than `ErrKeyWasDeleted`
(with an authenticated cipher this is what happens unless it panics), the second subscriber gets the
same record. Missing: the panic, and plain texts that happen to decrypt. -/
theorem C57_partial (C : Codec) (hC : C.Lawful) (K : Store σ) (enc : Encryptor) (w w1 w2 : World σ)
    (r r1 : Record) (d : Str) (e : KErr) (he : e ≠ .wasDeleted)
    (_ : accept C K enc w r = (w1, some r1))
    (h : decData C K enc w1 r1.evType r1.data = (w2, some (d, some e))) :
    accept C K enc w1 r1 = (w2, some r1) := by
  have hd : d = r1.data := by
    unfold decData at h
    cases hp : C.asP r1.evType r1.data with
    | none => simp [hp] at h
    | some p =>
      simp only [hp] at h
      have h49 := C49_decrypt K enc w1 p
      generalize genDecrypt K enc w1 p = x at *
      obtain ⟨v, o⟩ := x
      rcases o with _ | ⟨q, e'⟩
      · simp at h
      · simp only [Prod.mk.injEq, Option.some.injEq] at h
        obtain ⟨_, rfl, rfl⟩ := h
        have := (h49 q (some e) rfl).2.2.2.2 e rfl he
        rw [this, hC.put_get _ _ _ hp]
  unfold accept
  rw [h]
  simp [hd]

example :
    let r := save codec0 mem (gcm toyAead) demoAll (start Mem.new (tape0 64) (tape0 96)) sA none none
      [evP [1] [74, 111, 104, 110]]
    let r0 := r.broadcast.head?.getD (mkRecord [] 0 0 (evA []))
    let x := accept codec0 mem (gcm toyAead) r.state.world r0
    x.2 = some (mkRecord sA 1 1 (evP [1] [74, 111, 104, 110])) ∧
    (decData codec0 mem (gcm toyAead) x.1 [80] [1, 1, 74, 111, 104, 110]).2 =
      some ([1, 1, 74, 111, 104, 110], some .invalidCipherText) := by decide +kernel

/-! ## C58: subscribers and shredded subjects -/

/-- **C58.** With the in-memory or the DynamoDB key store, once `Delete` of a subject succeeded, a subscriber
that is handed a record with personal data of the subject gets it with every personal string empty and
every personal number 0, whatever happened before and after; it never panics and never shows the plain
text. -/
theorem C58_redacted {K : Store σ} {m0 : σ} {enc : Encryptor} (hK : Shredded K m0 enc) (C : Codec)
    (keys nonces : Str) (before after : List Cry.Op) (s : Str) (now : Nat) (hnow : 0 < now)
    (ht : ∀ c, Cry.Op.call c ∈ before ++ after → Timed c) (r : Record) (p : PEvent)
    (hp : C.asP r.evType r.data = some p) (hs : p.subject = s) (hne : p.strs ≠ [] ∨ p.sers ≠ []) :
    let w := opRun K enc ⟨m0, keys, nonces⟩ before
    (K.delete w.ks now s).2 = none →
    (accept C K enc (opRun K enc { w with ks := (K.delete w.ks now s).1 } after) r).2 =
      some { r with data := (C.ofP r.evType r.data
        ⟨p.subject, p.strs.map (fun _ => []), p.ints.map (fun _ => 0), p.sers, p.rest⟩) } := by
  intro w hd
  have h := (hK keys nonces before after s now hnow ht hd).2.2.2 p hs hne
  unfold accept decData
  rw [hp]
  simp only
  generalize genDecrypt K enc (opRun K enc { w with ks := (K.delete w.ks now s).1 } after) p = x at *
  obtain ⟨v, o⟩ := x
  simp only at h; subst h
  rfl

/-- **C58** for the two key stores. -/
theorem C58_stores (enc : Encryptor) : Shredded mem Mem.new enc ∧ Shredded dyn (fun _ => none) enc :=
  C26_shredded enc

example :
    let r := save codec0 mem (gcm toyAead) demoAll (start Mem.new (tape0 64) (tape0 96)) sA none none
      [evP [1] [74, 111, 104, 110]]
    let r0 := r.broadcast.head?.getD (mkRecord [] 0 0 (evA []))
    (accept codec0 mem (gcm toyAead) { r.state.world with ks := (mem.delete r.state.world.ks 5 [1]).1 } r0).2.map
      (·.data) = some [1, 1] := by decide +kernel

end RangeDB.ES

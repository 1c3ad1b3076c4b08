import Verif.Thm.Dispatch
import Verif.Proof.Cqrs

/-!
# What Dispatch returns on an encrypted store: C93
-/

namespace RangeDB.Disp

open RangeDB.Cqrs RangeDB.ES RangeDB.Key RangeDB.Cry Demo

variable {ι α κ σ : Type} [DecidableEq ι]

/-- The part of an event that encryption does not touch. -/
def ident (e : Event) : Str × Str × Str := (e.aggType, e.aggId, e.evType)

/-- The full statement of **C93**: whenever `Dispatch` returns, it returns the events that the aggregate raised, as they were
raised, without those that could not be saved. -/
def C93_full (K : Store σ) (m0 : σ) : Prop :=
  ∀ (C : Codec) (enc : Encryptor) (z : Serializer) (keys nonces : Str) (ops : List HOp), C.Lawful → enc.Lawful → z.Lawful →
    Faithful z → ∀ (A : App Unit Nat Str) (isEvent : Record → Bool) (stamps : Nat → Stamp) (objs objs' : Unit → Nat) (c : Str)
    (raised returned : List Event),
    let s := hrun C K enc z (start m0 keys nonces) ops
    decideGot A isEvent objs (ES.eventsByStream C K enc z s none 0 (A.stream c)).2 c = some (objs', raised) →
    (dispatch A isEvent C K enc z stamps objs s c).2 = some (objs', returned) → returned.Sublist raised

/-- The store below an encrypted store is in a state that the event log describes. -/
theorem hrun_inv {z : Serializer} (hz : z.Lawful) (hf : Faithful z) (C : Codec) (K : Store σ) (enc : Encryptor) (ops : List HOp) :
    ∀ (s : ES.State σ) (L : Log), Inv z s.parent L → ∃ L', Inv z (hrun C K enc z s ops).parent L' := by
  induction ops with
  | nil => intro s L h; exact ⟨L, h⟩
  | cons op ops ih =>
    intro s L h
    have : ∃ L', Inv z (hstep C K enc z s op).parent L' := by
      cases op with
      | save st e ca ers =>
        simp only [hstep, ES.save]
        split
        · exact ⟨L, h⟩
        · exact ⟨L, h⟩
        · rename_i w ers' _
          obtain ⟨h1, h2⟩ := IM.foldl_sim hz [.save st e ca ers'] (by intro o _; exact guarded_of_faithful hf o) s.parent L h.1 h.2
          exact ⟨_, h1, h2⟩
      | delete st e b =>
        obtain ⟨h1, h2⟩ := IM.foldl_sim hz [.delete st e b] (by intro o _; exact guarded_of_faithful hf o) s.parent L h.1 h.2
        exact ⟨_, h1, h2⟩
      | world o => exact ⟨L, h⟩
    obtain ⟨L1, h1⟩ := this
    exact ih _ _ h1

/-- One save of `Dispatch`: the call panics, or fails in the encryption and stores nothing, or stores the sealed event. -/
theorem save_one {z : Serializer} (hz : z.Lawful) (hf : Faithful z) (C : Codec) (K : Store σ) (enc : Encryptor)
    {s : ES.State σ} {L : Log} (h : Inv z s.parent L) (t : Stamp) (e : Event) :
    let r := ES.save C K enc z s (getStream e.aggType e.aggId) none none [toRecord t e]
    ((encData C K enc s.world e.evType e.data).2 = none ∧ r.out = .panic) ∨
    (∃ x, r.out = .encErr x ∧ Inv z r.state.parent L ∧ ∃ d, (encData C K enc s.world e.evType e.data).2 = some (d, some x)) ∨
    (∃ k d, (encData C K enc s.world e.evType e.data).2 = some (d, none) ∧ r.out = .parent (.ok k) ∧
      r.events = [toRecord t { e with data := d }] ∧
      Inv z r.state.parent (L.append z.view (getStream e.aggType e.aggId) [toRecord t { e with data := d }])) := by
  intro r
  rcases hx : encData C K enc s.world e.evType e.data with ⟨w, o⟩
  cases o with
  | none =>
    left
    refine ⟨rfl, ?_⟩
    simp only [r, ES.save, encBatch, toRecord, hx]
  | some p =>
    obtain ⟨d, eo⟩ := p
    cases eo with
    | some x =>
      right; left
      refine ⟨x, ?_, ?_, d, rfl⟩ <;> simp only [r, ES.save, encBatch, toRecord, hx]
      exact h
    | none =>
      right; right
      have hr : r = ⟨⟨(saveOne z s.parent t { e with data := d }).state, w⟩, .parent (saveOne z s.parent t { e with data := d }).out,
          [toRecord t { e with data := d }], (saveOne z s.parent t { e with data := d }).broadcast⟩ := by
        simp only [r, ES.save, encBatch, toRecord, hx, setData, saveOne]
      rcases saveOne_spec hz h t { e with data := d } with ⟨_, h2, h3⟩ | ⟨h1, _, _⟩
      · exact ⟨_, d, rfl, by rw [hr, h2], by rw [hr], by rw [hr]; exact h3⟩
      · rw [hf.accepts] at h1
        cases h1

theorem saveAll_spec {z : Serializer} (hz : z.Lawful) (hf : Faithful z) (C : Codec) (K : Store σ) (enc : Encryptor)
    (stamps : Nat → Stamp) : ∀ (es : List Event) (n : Nat) (s : ES.State σ) (L : Log), Inv z s.parent L →
    ∀ saved, (saveAll C K enc z stamps n s es).2 = some saved →
      ∃ L', Inv z (saveAll C K enc z stamps n s es).1.parent L' ∧ Grew z L L' saved ∧
        (saved.map ident).Sublist (es.map ident)
  | [], n, s, L, h, saved, hs => by
    simp only [saveAll, Option.some.injEq] at hs
    subst hs
    exact ⟨L, h, .refl L, List.Sublist.refl _⟩
  | e :: es, n, s, L, h, saved, hs => by
    rcases save_one hz hf C K enc h (stamps n) e with ⟨_, h1⟩ | ⟨x, h1, h2, _⟩ | ⟨k, d, _, h1, h2, h3⟩
    · simp only [saveAll, h1] at hs
      cases hs
    · simp only [saveAll, h1] at hs ⊢
      obtain ⟨L', i1, i2, i3⟩ := saveAll_spec hz hf C K enc stamps es (n + 1) _ L h2 saved hs
      exact ⟨L', i1, i2, i3.cons _⟩
    · simp only [saveAll, h1] at hs ⊢
      rcases hrest : saveAll C K enc z stamps (n + 1)
        (ES.save C K enc z s (getStream e.aggType e.aggId) none none [toRecord (stamps n) e]).state es with ⟨s', o⟩
      rw [hrest] at hs
      cases o with
      | none => cases hs
      | some saved' =>
        simp only [Option.some.injEq] at hs
        obtain ⟨L', i1, ⟨news, i2, i3⟩, i4⟩ := saveAll_spec hz hf C K enc stamps es (n + 1) _ _ h3 saved' (by rw [hrest])
        rw [hrest] at i1
        rw [h2] at hs
        subst hs
        refine ⟨L', i1, ⟨_ :: news, ?_, .cons ⟨L.last + 1, L.streamLen (getStream e.aggType e.aggId) + 1, stamps n, rfl⟩ i3⟩, ?_⟩
        · rw [i2]
          simp [Log.append, numbered, toRecord]
        · exact i4.cons_cons _

/-- **C93**, partial: after any history of an encrypted store, with any key store and cipher, whenever `Dispatch` returns, the
store below holds, in addition to what it held before, exactly the returned events in this order, *byte for byte as they were
returned*; apart from their data they are events the aggregate raised, in the order in which it raised them. Missing: that the
data are those that were raised, see `C93_false`. -/
theorem C93_partial (A : App ι α κ) (isEvent : Record → Bool) (C : Codec) (K : Store σ) (enc : Encryptor) {z : Serializer}
    (hz : z.Lawful) (hf : Faithful z) (m0 : σ) (keys nonces : Str) (ops : List HOp) (stamps : Nat → Stamp) (objs objs' : ι → α)
    (c : κ) (returned : List Event) :
    let s := hrun C K enc z (start m0 keys nonces) ops
    (dispatch A isEvent C K enc z stamps objs s c).2 = some (objs', returned) →
    ∃ news, IM.events z (dispatch A isEvent C K enc z stamps objs s c).1.parent none 0 =
        ⟨(IM.events z s.parent none 0).recs ++ news, none⟩ ∧
      Each (Stored z) returned news ∧
      ∃ raised, decideGot A isEvent objs (ES.eventsByStream C K enc z s none 0 (A.stream c)).2 c = some (objs', raised) ∧
        (returned.map ident).Sublist (raised.map ident) := by
  intro s h
  obtain ⟨L, hL⟩ := hrun_inv hz hf C K enc ops (start m0 keys nonces) Log.empty inv_init
  simp only [dispatch, App.stream] at h ⊢
  rcases hg : ES.eventsByStream C K enc z s none 0 (getStream (A.info c).aggType (A.info c).aggId) with ⟨w, got⟩
  simp only [hg] at h ⊢
  rcases hd : decideGot A isEvent objs got c with _ | ⟨objs1, raised⟩
  · simp only [hd] at h
    cases h
  · simp only [hd] at h ⊢
    rcases hs : saveAll C K enc z stamps 0 { s with world := w } raised with ⟨s', _ | saved⟩
    · simp only [hs] at h
      cases h
    · simp only [hs, Option.some.injEq, Prod.mk.injEq] at h ⊢
      obtain ⟨rfl, rfl⟩ := h
      obtain ⟨L', i1, ⟨news, i2, i3⟩, i4⟩ := saveAll_spec hz hf C K enc stamps raised 0 { s with world := w } L hL saved (by rw [hs])
      rw [hs] at i1
      refine ⟨news, ?_, i3, raised, ⟨rfl, rfl⟩, i4⟩
      rw [events_all i1, events_all hL, i2]

theorem saveAll_returns {z : Serializer} (hz : z.Lawful) (hf : Faithful z) (C : Codec) (K : Store σ) (enc : Encryptor)
    (hp : ∀ w t d, (encData C K enc w t d).2 ≠ none) (stamps : Nat → Stamp) : ∀ (es : List Event) (n : Nat) (s : ES.State σ)
    (L : Log), Inv z s.parent L → ∃ saved, (saveAll C K enc z stamps n s es).2 = some saved
  | [], _, _, _, _ => ⟨[], rfl⟩
  | e :: es, n, s, L, h => by
    rcases save_one hz hf C K enc h (stamps n) e with ⟨h0, _⟩ | ⟨x, h1, h2, _⟩ | ⟨k, d, _, h1, h2, h3⟩
    · exact absurd h0 (hp _ _ _)
    · simp only [saveAll, h1]
      exact saveAll_returns hz hf C K enc hp stamps es (n + 1) _ L h2
    · obtain ⟨saved, hs⟩ := saveAll_returns hz hf C K enc hp stamps es (n + 1) _ _ h3
      simp only [saveAll, h1]
      rcases hrest : saveAll C K enc z stamps (n + 1)
        (ES.save C K enc z s (getStream e.aggType e.aggId) none none [toRecord (stamps n) e]).state es with ⟨s', o⟩
      rw [hrest] at hs
      simp only at hs
      subst hs
      exact ⟨_, rfl⟩

theorem encFields_no_panic (K : Store σ) (enc : Encryptor) (hp : ∀ k d t, (enc.encrypt k d t).1 ≠ .panic) (subject : Str) :
    ∀ (fs : List Str) (w : World σ), (encFields K enc subject w fs).2 ≠ .panic
  | [], _ => by simp [encFields]
  | f :: fs, w => by
    have h1 : (engineEncrypt K enc w subject f).2 ≠ .panic := by
      simp only [engineEncrypt]
      split
      · exact hp _ _ _
      · split
        · simp
        · split
          · simp
          · exact hp _ _ _
      · simp
    simp only [encFields]
    rcases he : engineEncrypt K enc w subject f with ⟨w1, _ | _ | _⟩
    · simp only
      have ih := encFields_no_panic K enc hp subject fs w1
      rcases hr : encFields K enc subject w1 fs with ⟨w2, _ | _ | _⟩
      · simp
      · simp
      · rw [hr] at ih; exact absurd rfl ih
    · simp
    · rw [he] at h1; exact absurd rfl h1

theorem encData_no_panic (C : Codec) (K : Store σ) (enc : Encryptor) (hp : ∀ k d t, (enc.encrypt k d t).1 ≠ .panic)
    (w : World σ) (t d : Str) : (encData C K enc w t d).2 ≠ none := by
  simp only [encData]
  split
  · simp
  · rename_i p _
    have h := encFields_no_panic K enc hp p.subject (p.strs ++ p.ints.map Dec.itoa) w
    simp only [genEncrypt]
    rcases hf : encFields K enc p.subject w (p.strs ++ p.ints.map Dec.itoa) with ⟨w1, _ | e | _⟩
    · simp
    · by_cases he : e = .wasDeleted
      · subst he; simp
      · cases e <;> simp_all
    · rw [hf] at h; exact absurd rfl h

/-- **C93**, failing saves: with a cipher that does not panic when it encrypts, `Dispatch` returns whenever the aggregate has
handled the command, whichever saves fail. -/
theorem C93_returns (A : App ι α κ) (isEvent : Record → Bool) (C : Codec) (K : Store σ) (enc : Encryptor) {z : Serializer}
    (hz : z.Lawful) (hf : Faithful z) (hp : ∀ k d t, (enc.encrypt k d t).1 ≠ .panic)
    (m0 : σ) (keys nonces : Str) (ops : List HOp) (stamps : Nat → Stamp) (objs objs' : ι → α) (c : κ) (raised : List Event) :
    let s := hrun C K enc z (start m0 keys nonces) ops
    decideGot A isEvent objs (ES.eventsByStream C K enc z s none 0 (A.stream c)).2 c = some (objs', raised) →
    ∃ returned, (dispatch A isEvent C K enc z stamps objs s c).2 = some (objs', returned) := by
  intro s h
  obtain ⟨L, hL⟩ := hrun_inv hz hf C K enc ops (start m0 keys nonces) Log.empty inv_init
  simp only [dispatch, App.stream] at h ⊢
  rcases hg : ES.eventsByStream C K enc z s none 0 (getStream (A.info c).aggType (A.info c).aggId) with ⟨w, got⟩
  simp only [hg] at h ⊢
  rw [h]
  obtain ⟨saved, hs⟩ := saveAll_returns hz hf C K enc (encData_no_panic C K enc hp) stamps raised 0 { s with world := w } L hL
  rcases hx : saveAll C K enc z stamps 0 { s with world := w } raised with ⟨s', o⟩
  rw [hx] at hs
  simp only at hs
  subst hs
  exact ⟨saved, by simp only [hx]⟩

/-- The AES/GCM engine does not panic when it encrypts. -/
theorem gcm_no_panic (A : Aead) (k d t : Str) : ((gcm A).encrypt k d t).1 ≠ .panic := by
  have h : ∀ p, (gcmEnc A d p t).1 ≠ .panic := by
    intro p
    simp only [gcmEnc]
    split
    · simp
    · split <;> simp
  simp only [gcm, encrypt64]
  split
  · simp
  · rename_i p _
    split
    · simp
    · exact h p

theorem saveAll_plain {z : Serializer} (hz : z.Lawful) (hf : Faithful z) (C : Codec) (K : Store σ) (enc : Encryptor)
    (stamps : Nat → Stamp) : ∀ (es : List Event) (n : Nat) (s : ES.State σ) (L : Log), Inv z s.parent L →
    (∀ e ∈ es, C.asP e.evType e.data = none) → (saveAll C K enc z stamps n s es).2 = some es
  | [], _, _, _, _, _ => rfl
  | e :: es, n, s, L, h, hn => by
    have hd : ∀ w, (encData C K enc w e.evType e.data).2 = some (e.data, none) := by
      intro w
      simp only [encData, hn e (by simp)]
    rcases save_one hz hf C K enc h (stamps n) e with ⟨h0, _⟩ | ⟨x, _, _, d, h2⟩ | ⟨k, d, h0, h1, h2, h3⟩
    · rw [hd] at h0; cases h0
    · rw [hd] at h2; cases h2
    · rw [hd] at h0
      cases h0
      have ih := saveAll_plain hz hf C K enc stamps es (n + 1) _ _ h3 (fun e he => hn e (by simp [he]))
      rcases hrest : saveAll C K enc z stamps (n + 1)
        (ES.save C K enc z s (getStream e.aggType e.aggId) none none [toRecord (stamps n) e]).state es with ⟨s', o⟩
      rw [hrest] at ih
      simp only at ih
      subst ih
      simp only [saveAll, h1, hrest, h2]
      rfl

/-- **C93**, events without personal data: `Dispatch` returns exactly what the aggregate raised. -/
theorem C93_plain (A : App ι α κ) (isEvent : Record → Bool) (C : Codec) (K : Store σ) (enc : Encryptor) {z : Serializer}
    (hz : z.Lawful) (hf : Faithful z) (m0 : σ) (keys nonces : Str) (ops : List HOp) (stamps : Nat → Stamp) (objs objs' : ι → α)
    (c : κ) (raised : List Event) (hn : ∀ e ∈ raised, C.asP e.evType e.data = none) :
    let s := hrun C K enc z (start m0 keys nonces) ops
    decideGot A isEvent objs (ES.eventsByStream C K enc z s none 0 (A.stream c)).2 c = some (objs', raised) →
    (dispatch A isEvent C K enc z stamps objs s c).2 = some (objs', raised) := by
  intro s h
  obtain ⟨L, hL⟩ := hrun_inv hz hf C K enc ops (start m0 keys nonces) Log.empty inv_init
  simp only [dispatch, App.stream] at h ⊢
  rcases hg : ES.eventsByStream C K enc z s none 0 (getStream (A.info c).aggType (A.info c).aggId) with ⟨w, got⟩
  simp only [hg] at h ⊢
  rw [h]
  have hs := saveAll_plain hz hf C K enc stamps raised 0 { s with world := w } L hL hn
  rcases hx : saveAll C K enc z stamps 0 { s with world := w } raised with ⟨s', o⟩
  rw [hx] at hs
  simp only at hs
  subst hs
  simp only [hx]

/-- An aggregate that raises an event with personal data and one without. -/
def person : App Unit Nat Str where
  objects := [()]
  aggregate := fun _ =>
    ⟨fun n _ => n + 1, fun n _ => (n, [⟨[65], [49], [80], [1, 1, 72, 105]⟩, ⟨[65], [49], [69], [7]⟩]), [[67]]⟩
  fresh := fun _ => 0
  info := fun c => ⟨[67], [65], c⟩

/-- **C93** is false: the first event that `Dispatch` returns is the encrypted one. -/
theorem C93_false : ¬ C93_full mem Mem.new := by
  intro h
  have := h codec0 (gcm toyAead) demoAll (tape0 64) (tape0 96) [] codec0_lawful (gcm_lawful toyAead_lawful) demoAll_lawful
    demoAll_faithful person (fun _ => true) stamp0 (fun _ => 0) (fun _ => 0) [49]
    [⟨[65], [49], [80], [1, 1, 72, 105]⟩, ⟨[65], [49], [69], [7]⟩] _ rfl rfl
  exact absurd this (by decide +kernel)

/-- A subject whose key was deleted: the event with their data is not saved, the other one is. -/
theorem C93_example : ((dispatch person (fun _ => true) codec0 mem (gcm toyAead) demoAll stamp0 (fun _ => 0)
    (hrun codec0 mem (gcm toyAead) demoAll (start Mem.new (tape0 64) (tape0 96)) [.world (.call (.delete 5 [1]))]) [49]).2).map (·.2) =
      some [⟨[65], [49], [69], [7]⟩] := by
  decide +kernel

end RangeDB.Disp

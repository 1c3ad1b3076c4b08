import Verif.Spec.Interfaces
import Verif.Proof.Remote
import Verif.Proof.Http
import Verif.Proof.JsonGood
import Verif.Proof.InMemoryAll
import Verif.Proof.Merge

/-! # Lemmas for `Thm/Interfaces.lean` -/

namespace RangeDB.Srv

open RangeDB.Json RangeDB.Http RangeDB.Rem

/-! ## Numbers that went through `float64` once -/

theorem allNumss_iff {p : Str → Bool} {l : List Json} : allNumss p l = true ↔ ∀ v ∈ l, allNums p v = true := by
  induction l with
  | nil => simp [allNumss]
  | cons v l ih => simp [allNumss, ih]

theorem allNumsf_iff {p : Str → Bool} {l : List (Str × Json)} :
    allNumsf p l = true ↔ ∀ f ∈ l, allNums p f.2 = true := by
  induction l with
  | nil => simp [allNumsf]
  | cons v l ih => simp [allNumsf, ih]

mutual
theorem allNums_any {p q : Str → Bool} {f : Str → Str} (h : ∀ t, p t = true → q (f t) = true) :
    ∀ {v : Json}, allNums p v = true → allNums q (v.any f) = true
  | .null, _ => rfl
  | .bool _, _ => rfl
  | .str _, _ => rfl
  | .num t, hv => by simp only [allNums, Json.any] at hv ⊢; exact h t hv
  | .arr l, hv => by simp only [allNums, Json.any] at hv ⊢; exact allNums_anys h hv
  | .obj l, hv => by
    simp only [allNums, Json.any] at hv ⊢
    rw [allNumsf_iff]
    exact anyf_forall (fun x => allNums q x.2 = true) l (allNums_anyf h hv) [] (by simp)
theorem allNums_anys {p q : Str → Bool} {f : Str → Str} (h : ∀ t, p t = true → q (f t) = true) :
    ∀ {l : List Json}, allNumss p l = true → allNumss q (anys f l) = true
  | [], _ => rfl
  | v :: vs, hv => by
    simp only [allNumss, anys, Bool.and_eq_true] at hv ⊢
    exact ⟨allNums_any h hv.1, allNums_anys h hv.2⟩
theorem allNums_anyf {p q : Str → Bool} {f : Str → Str} (h : ∀ t, p t = true → q (f t) = true) :
    ∀ {l : List (Str × Json)}, allNumsf p l = true → ∀ x ∈ l, allNums q (x.2.any f) = true
  | [], _ => by simp
  | v :: vs, hv => by
    simp only [allNumsf, Bool.and_eq_true] at hv
    have h1 := allNums_any h hv.1
    have h2 := allNums_anyf h hv.2
    intro x hx
    rcases List.mem_cons.mp hx with hx | hx
    · rw [hx]; exact h1
    · exact h2 x hx
end

variable {fl : Str → Option Str}

theorem decodeAny_twice (hi : ∀ t u, fl t = some u → fl u = some u) {v d : Json} (h : decodeAny fl v = some d) :
    Exact fl d := by
  unfold decodeAny at h
  split at h
  · rename_i hn
    rw [← Option.some.inj h]
    refine allNums_any (p := fun t => (fl t).isSome) ?_ hn
    intro t ht
    obtain ⟨u, hu⟩ := Option.isSome_iff_exists.mp ht
    rw [hu, Option.getD_some, hi t u hu, beq_self_eq_true]
  · simp at h

/-! ## What the server decodes -/

/-- A metadata text that reads the same over gRPC. -/
def Same (fl : Str → Option Str) (t : Str) : Prop := ∃ m : Json, m.WF ∧ Exact fl m ∧ m.canon = m ∧ t = m.text

theorem exact_null : Exact fl .null := rfl

theorem field_exact (hi : ∀ t u, fl t = some u → fl u = some u) {e : EventIn} (h : Exact fl e.metadata)
    (kv : Str × Json) : Exact fl (e.field fl kv).metadata := by
  have hstr : ∀ (v : Json) (f : EventIn → Str → EventIn), (∀ s, (f e s).metadata = e.metadata) →
      Exact fl (e.setStr v f).metadata := by
    intro v f hf
    cases v <;> simp only [EventIn.setStr, hf] <;> exact h
  unfold EventIn.field
  repeat' split
  · exact hstr _ _ (fun _ => rfl)
  · exact hstr _ _ (fun _ => rfl)
  · exact hstr _ _ (fun _ => rfl)
  · unfold EventIn.setAny
    cases decodeAny fl kv.2 <;> exact h
  · unfold EventIn.setAny
    cases hd : decodeAny fl kv.2 with
    | none => exact h
    | some d => exact decodeAny_twice hi hd
  · exact h

theorem decodeEvents_exact (hi : ∀ t u, fl t = some u → fl u = some u) (l : List Json) :
    ∀ {es : List EventIn}, decodeEvents fl l = some es → ∀ e ∈ es, Exact fl e.metadata := by
  induction l with
  | nil => intro es h; simp only [decodeEvents, Option.some.injEq] at h; subst h; simp
  | cons v vs ih =>
    intro es h
    simp only [decodeEvents] at h
    cases h1 : decodeEvent fl v with
    | none => simp [h1] at h
    | some e =>
      cases h2 : decodeEvents fl vs with
      | none => simp [h1, h2] at h
      | some es' =>
        simp only [h1, h2, Option.some.injEq] at h
        subst h
        intro x hx
        rcases List.mem_cons.mp hx with hx | hx
        · subst hx
          cases v with
          | obj l =>
            simp only [decodeEvent] at h1
            split at h1
            · simp at h1
            · rw [← Option.some.inj h1]
              have : ∀ (l : List (Str × Json)) (e : EventIn), Exact fl e.metadata →
                  Exact fl (l.foldl (EventIn.field fl) e).metadata := by
                intro l
                induction l with
                | nil => intro e h; exact h
                | cons f fs ih => intro e h; exact ih _ (field_exact hi h f)
              exact this l .zero exact_null
          | null => simp only [decodeEvent, Option.some.injEq] at h1; rw [← h1]; exact exact_null
          | _ => simp [decodeEvent] at h1
        · exact ih h2 x hx

theorem decodeBody_exact (hi : ∀ t u, fl t = some u → fl u = some u) {body : Str} {es : List EventIn}
    (h : decodeBody fl body = some es) : ∀ e ∈ es, Exact fl e.metadata := by
  unfold decodeBody at h
  cases hp : parse body with
  | none => simp [hp] at h
  | some p =>
    obtain ⟨v, r⟩ := p
    cases v with
    | arr l => simp only [hp] at h; exact decodeEvents_exact hi l h
    | null => simp only [hp, Option.some.injEq] at h; subst h; simp
    | _ => simp [hp] at h

theorem mem_toEventRecords {env : Nat → Str × Nat} (es : List EventIn) : ∀ {i : Nat} {er : EventRecord},
    er ∈ toEventRecords env i es → ∃ e ∈ es, ∃ j, er = ⟨⟨e.aggType, e.aggId, e.evType, e.data.text⟩, e.metadata.text,
      (env j).1, (env j).2⟩ := by
  induction es with
  | nil => intro i er h; simp [toEventRecords] at h
  | cons e es ih =>
    intro i er h
    simp only [toEventRecords, List.mem_cons] at h
    rcases h with h | h
    · exact ⟨e, by simp, i, h⟩
    · obtain ⟨x, hx, j, hj⟩ := ih h
      exact ⟨x, by simp [hx], j, hj⟩

/-- An event as the server holds it: what reads the same everywhere. -/
structure Kept (fl : Str → Option Str) (er : EventRecord) : Prop where
  good : GoodEvent unbound er
  same : Same fl er.metadata

theorem unmarshal_kept (hl : ∀ t u, fl t = some u → scanNum u = some (u, []))
    (hi : ∀ t u, fl t = some u → fl u = some u) {s t : Str} (h : unmarshal fl s = some t) : Same fl t := by
  unfold unmarshal at h
  cases hp : parse s with
  | none => simp [hp] at h
  | some p =>
    obtain ⟨v, r⟩ := p
    simp only [hp] at h
    split at h
    · cases hd : decodeAny fl v with
      | none => simp [hd] at h
      | some d =>
        simp only [hd, Option.map_some, Option.some.injEq] at h
        have he := decodeAny_twice hi hd
        have := decodeAny_some hd
        subst this
        exact ⟨_, Json.any_wf (num_literal hl) (parse_wf hp), he, Json.any_canon _ _, h.symm⟩
    · simp at h

theorem post_kept (hl : ∀ t u, fl t = some u → scanNum u = some (u, []))
    (hi : ∀ t u, fl t = some u → fl u = some u) {body : Str} {es : List EventIn} (h : decodeBody fl body = some es)
    {env : Nat → Str × Nat} (hd : ∀ er ∈ toEventRecords env 0 es, er.event.data ≠ nullText)
    (hids : ∀ er ∈ toEventRecords env 0 es, Valid er.uuid ∧ er.now < 2 ^ 64) :
    ∀ er ∈ toEventRecords env 0 es, Kept fl er := by
  intro er her
  obtain ⟨e, he, j, rfl⟩ := mem_toEventRecords es her
  have ho := decodeBody_ok hl h e he
  have hx := decodeBody_exact hi h e he
  refine ⟨⟨ho.aggType, ho.aggId, ho.evType, (hids _ her).1, (hids _ her).2, ⟨e.data, ho.data.1, ?_, rfl, ?_⟩,
    ⟨e.metadata, ho.metadata.1, ho.metadata.2, rfl⟩⟩, ⟨e.metadata, ho.metadata.1, hx, ho.metadata.2, rfl⟩⟩
  · intro hn
    exact hd _ her (by simp only [hn]; rfl)
  · simp only [unbound, ho.data.2]

theorem message_kept (hl : ∀ t u, fl t = some u → scanNum u = some (u, []))
    (hi : ∀ t u, fl t = some u → fl u = some u) (es : List PbEvent) : ∀ {ers : List EventRecord},
    es.all PbEvent.sendable = true → serverEvents fl es = .ok ers →
    (∀ er ∈ ers, er.event.data ≠ nullText) → (∀ er ∈ ers, Valid er.uuid ∧ er.now < 2 ^ 64) →
    ∀ er ∈ ers, Kept fl er := by
  induction es with
  | nil => intro ers _ h _ _; simp only [serverEvents, Except.ok.injEq] at h; subst h; simp
  | cons e es ih =>
    intro ers hs h hd hids
    simp only [List.all_cons, Bool.and_eq_true] at hs
    simp only [serverEvents] at h
    cases h1 : unmarshal fl e.data with
    | none => simp [h1] at h
    | some d =>
      simp only [h1] at h
      cases h2 : (if e.metadata = [] then some nullText else unmarshal fl e.metadata) with
      | none => simp [h2] at h
      | some m =>
        simp only [h2] at h
        cases h3 : serverEvents fl es with
        | error t => simp [h3] at h
        | ok ers' =>
          simp only [h3, Except.ok.injEq] at h
          subst h
          intro er her
          rcases List.mem_cons.mp her with rfl | her'
          · obtain ⟨dj, hw, hx, hc, rfl⟩ := unmarshal_kept hl hi h1
            have hm : Same fl m := by
              split at h2
              · rw [← Option.some.inj h2]
                exact ⟨.null, trivial, exact_null, rfl, rfl⟩
              · exact unmarshal_kept hl hi h2
            have hse := hs.1
            simp only [PbEvent.sendable, Bool.and_eq_true, decide_eq_true_eq] at hse
            obtain ⟨⟨⟨⟨a1, a2⟩, a3⟩, _⟩, _⟩ := hse
            obtain ⟨mj, mw, mx, mc, rfl⟩ := hm
            refine ⟨⟨a1, a2, a3, (hids _ her).1, (hids _ her).2, ⟨dj, hw, ?_, rfl, ?_⟩, ⟨mj, mw, mc, rfl⟩⟩,
              ⟨mj, mw, mx, mc, rfl⟩⟩
            · intro hn
              exact hd _ her (by simp only [hn]; rfl)
            · simp only [unbound, hc]
          · exact ih hs.2 h3 (fun x hx => hd x (by simp [hx])) (fun x hx => hids x (by simp [hx])) er her'

/-! ## Requests as calls of the store -/

/-- The call of the store that a request leads to, if it gets that far. -/
def Request.op (fl : Str → Option Str) : Request → Option Op
  | .post q env =>
    match prepareSave fl env q with
    | .ok (e, ers) => some (.save q.stream e none ers)
    | .error _ => none
  | .deletePath st header => (expectedFromRequest header).map (fun n => .delete st n false)
  | .message st e es =>
    if decide (Valid st) && es.all PbEvent.sendable then
      match serverEvents fl es with
      | .ok ers => some (.save st e none ers)
      | .error _ => none
    else none
  | .deleteMessage st n => if decide (Valid st) then some (.delete st n false) else none

theorem im_handle (z : Serializer) (other : Err → Str) (s : IM.State) (r : Request) :
    r.handle (imSave z) imDelete other fl s = match r.op fl with
      | some op => IM.step z s op
      | none => s := by
  cases r with
  | post q env =>
    simp only [Request.handle, Request.op, handleSave]
    cases prepareSave fl env q with
    | error x => rfl
    | ok p => rfl
  | deletePath st header =>
    simp only [Request.handle, Request.op, handleDelete]
    cases expectedFromRequest header with
    | none => rfl
    | some n => rfl
  | message st e es =>
    simp only [Request.handle, Request.op, serverSave]
    split
    · cases serverEvents fl es with
      | error t => rfl
      | ok ers => rfl
    · rfl
  | deleteMessage st n =>
    simp only [Request.handle, Request.op, Rem.delete]
    cases hv : decide (Valid st) <;> rfl

theorem ld_handle (z : Serializer) (other : Err → Str) (s : LD.State) (r : Request) :
    r.handle (ldSave z) (ldDelete z) other fl s = match r.op fl with
      | some op => LD.step z s op
      | none => s := by
  cases r with
  | post q env =>
    simp only [Request.handle, Request.op, handleSave]
    cases prepareSave fl env q with
    | error x => rfl
    | ok p => rfl
  | deletePath st header =>
    simp only [Request.handle, Request.op, handleDelete]
    cases expectedFromRequest header with
    | none => rfl
    | some n => rfl
  | message st e es =>
    simp only [Request.handle, Request.op, serverSave]
    split
    · cases serverEvents fl es with
      | error t => rfl
      | ok ers => rfl
    · rfl
  | deleteMessage st n =>
    simp only [Request.handle, Request.op, Rem.delete]
    cases hv : decide (Valid st) <;> rfl

theorem im_serve (other : Err → Str) (rs : List Request) :
    imServe other fl rs = IM.run (serializer unbound) (rs.filterMap (Request.op fl)) := by
  unfold imServe IM.run
  have : ∀ (rs : List Request) (s : IM.State),
      rs.foldl (Request.handle (imSave (serializer unbound)) imDelete other fl) s =
        (rs.filterMap (Request.op fl)).foldl (IM.step (serializer unbound)) s := by
    intro rs
    induction rs with
    | nil => intro s; rfl
    | cons r rs ih =>
      intro s
      rw [List.foldl_cons, ih, im_handle]
      cases h : r.op fl with
      | none => rw [List.filterMap_cons_none h]
      | some op => rw [List.filterMap_cons_some h, List.foldl_cons]
  exact this rs _

theorem ld_serve (other : Err → Str) (rs : List Request) :
    ldServe other fl rs = LD.run (serializer unbound) (rs.filterMap (Request.op fl)) := by
  unfold ldServe LD.run
  have : ∀ (rs : List Request) (s : LD.State),
      rs.foldl (Request.handle (ldSave (serializer unbound)) (ldDelete (serializer unbound)) other fl) s =
        (rs.filterMap (Request.op fl)).foldl (LD.step (serializer unbound)) s := by
    intro rs
    induction rs with
    | nil => intro s; rfl
    | cons r rs ih =>
      intro s
      rw [List.foldl_cons, ih, ld_handle]
      cases h : r.op fl with
      | none => rw [List.filterMap_cons_none h]
      | some op => rw [List.filterMap_cons_some h, List.foldl_cons]
  exact this rs _

/-- The events of a call. -/
def evs : Op → List EventRecord
  | .save _ _ _ ers => ers
  | .delete _ _ _ => []

theorem prepareSave_ok {env : Nat → Str × Nat} {q : SaveRequest} {e : Option Nat} {ers : List EventRecord}
    (h : prepareSave fl env q = .ok (e, ers)) : ∃ es, decodeBody fl q.body = some es ∧ ers = toEventRecords env 0 es := by
  unfold prepareSave at h
  split at h
  · simp at h
  · cases hd : decodeBody fl q.body with
    | none => simp [hd] at h
    | some es =>
      simp only [hd] at h
      refine ⟨es, rfl, ?_⟩
      split at h
      · split at h
        · simp at h
        · simp only [Except.ok.injEq, Prod.mk.injEq] at h; exact h.2.symm
      · simp only [Except.ok.injEq, Prod.mk.injEq] at h; exact h.2.symm

/-- What is known of the call that a request leads to. -/
theorem op_facts (hl : ∀ t u, fl t = some u → scanNum u = some (u, []))
    (hi : ∀ t u, fl t = some u → fl u = some u) {r : Request} (hr : r.Given fl) {op : Op} (h : r.op fl = some op) :
    GoodOp unbound op ∧ (∀ er ∈ evs op, Same fl er.metadata) ∧ op.size ≤ (r.events fl).length ∧
      (∀ N : Names, (N.streams r.stream ∧ ∀ er ∈ r.events fl, N.types er.event.aggType) → op.NamesIn N) := by
  cases r with
  | post q env =>
    simp only [Request.op] at h
    cases hp : prepareSave fl env q with
    | error x => simp [hp] at h
    | ok p =>
      obtain ⟨e, ers⟩ := p
      simp only [hp, Option.some.injEq] at h
      subst h
      obtain ⟨es, hes, rfl⟩ := prepareSave_ok hp
      have he : Request.events fl (.post q env) = toEventRecords env 0 es := by simp only [Request.events, hes]
      have hk := post_kept hl hi hes (he ▸ hr.data) (he ▸ hr.ids)
      refine ⟨⟨hr.path q env rfl, fun er her => (hk er her).good⟩, fun er her => (hk er her).same, ?_, ?_⟩
      · rw [he]; exact Nat.le_refl _
      · rw [he]; exact fun N hN => hN
  | deletePath st header =>
    simp only [Request.op] at h
    cases hx : expectedFromRequest header with
    | none => simp [hx] at h
    | some n =>
      simp only [hx, Option.map_some, Option.some.injEq] at h
      subst h
      exact ⟨trivial, by simp [evs], Nat.zero_le _, fun N hN => hN.1⟩
  | message st e es =>
    simp only [Request.op] at h
    split at h
    · rename_i hv
      rw [Bool.and_eq_true, decide_eq_true_eq] at hv
      cases hp : serverEvents fl es with
      | error x => simp [hp] at h
      | ok ers =>
        simp only [hp, Option.some.injEq] at h
        subst h
        have he : Request.events fl (.message st e es) = ers := by simp only [Request.events, hp]
        have hk := message_kept hl hi es hv.2 hp (he ▸ hr.data) (he ▸ hr.ids)
        refine ⟨⟨hv.1, fun er her => (hk er her).good⟩, fun er her => (hk er her).same, ?_, ?_⟩
        · rw [he]; exact Nat.le_refl _
        · rw [he]; exact fun N hN => hN
    · simp at h
  | deleteMessage st n =>
    simp only [Request.op] at h
    split at h
    · simp only [Option.some.injEq] at h
      subst h
      exact ⟨trivial, by simp [evs], Nat.zero_le _, fun N hN => hN.1⟩
    · simp at h

theorem ops_size (hl : ∀ t u, fl t = some u → scanNum u = some (u, []))
    (hi : ∀ t u, fl t = some u → fl u = some u) (rs : List Request) (hr : ∀ r ∈ rs, r.Given fl) :
    ((rs.filterMap (Request.op fl)).map Op.size).sum ≤ (rs.map (fun r => (r.events fl).length)).sum := by
  induction rs with
  | nil => simp
  | cons r rs ih =>
    have ih := ih (fun x hx => hr x (by simp [hx]))
    simp only [List.map_cons, List.sum_cons]
    cases h : r.op fl with
    | none => rw [List.filterMap_cons_none h]; omega
    | some op =>
      rw [List.filterMap_cons_some h, List.map_cons, List.sum_cons]
      have := (op_facts hl hi (hr r (by simp)) h).2.2.1
      omega

/-! ## What the stores hold -/

open Classical in
/-- The serializer restricted further: to records whose metadata reads the same over gRPC. -/
noncomputable def keptZ (fl : Str → Option Str) : Serializer :=
  ⟨fun r => if Same fl r.metadata then (goodZ unbound).ser r else none, (goodZ unbound).deser, id⟩

theorem keptZ_some {r : Record} {b : Str} (h : (keptZ fl).ser r = some b) :
    Same fl r.metadata ∧ (goodZ unbound).ser r = some b := by
  simp only [keptZ] at h
  split at h
  · exact ⟨by assumption, h⟩
  · simp at h

theorem saveLoop_kept (st : Str) (cancelAt : Option Nat) (ers : List EventRecord) :
    (∀ er ∈ ers, Same fl er.metadata) → ∀ i s pt pi expected created pending last,
    IM.saveLoop (goodZ unbound) st cancelAt i s pt pi expected created pending last ers =
      IM.saveLoop (keptZ fl) st cancelAt i s pt pi expected created pending last ers := by
  induction ers with
  | nil => intros; rfl
  | cons er ers ih =>
    intro h i s pt pi expected created pending last
    have hse : ∀ g q, (keptZ fl).ser (mkRecord st g q er) = (goodZ unbound).ser (mkRecord st g q er) := by
      intro g q
      have : Same fl (mkRecord st g q er).metadata := h er (by simp)
      simp only [keptZ, if_pos this]
    simp only [IM.saveLoop, IM.saveEvent, IM.saveEvent.store, hse, ih (fun x hx => h x (by simp [hx]))]

theorem im_run_kept (ops : List Op) (h : ∀ op ∈ ops, ∀ er ∈ evs op, Same fl er.metadata) :
    IM.run (goodZ unbound) ops = IM.run (keptZ fl) ops := by
  have hstep : ∀ op s, (∀ er ∈ evs op, Same fl er.metadata) → IM.step (goodZ unbound) s op = IM.step (keptZ fl) s op := by
    intro op s hop
    cases op with
    | save st e c ers =>
      simp only [IM.step, IM.saveEvents, saveLoop_kept (fl := fl) st c ers hop]
      repeat' split <;> rfl
    | delete st n c => rfl
  have : ∀ (ops : List Op) (s : IM.State), (∀ op ∈ ops, ∀ er ∈ evs op, Same fl er.metadata) →
      ops.foldl (IM.step (goodZ unbound)) s = ops.foldl (IM.step (keptZ fl)) s := by
    intro ops
    induction ops with
    | nil => intros; rfl
    | cons op ops ih =>
      intro s h
      simp only [List.foldl_cons]
      rw [hstep op s (h op (by simp)), ih _ (fun o ho => h o (by simp [ho]))]
  exact this ops _ h

/-- A record that reads the same everywhere. -/
def Fine (fl : Str → Option Str) (r : Record) : Prop := Good unbound r ∧ Same fl r.metadata

theorem kept_recordsByIDs {s : IM.State} (h : Stored (keptZ fl) s) (c : Option Nat) (keep : Record → Bool)
    (ids : List Nat) : ∀ n, ∀ r ∈ (IM.recordsByIDs (serializer unbound) s c keep n ids).recs, Fine fl r := by
  induction ids with
  | nil => intro n r hr; simp [IM.recordsByIDs] at hr
  | cons id ids ih =>
    intro n r hr
    unfold IM.recordsByIDs at hr
    cases hd : s.data id with
    | none => simp [hd] at hr
    | some b =>
      simp only [hd] at hr
      obtain ⟨r0, hr0⟩ := h id b hd
      obtain ⟨hs, hg⟩ := keptZ_some hr0
      have hz : (serializer unbound).deser b = some r0 := (goodZ_lawful unbound).roundTrip r0 b hg
      rw [hz] at hr
      simp only [] at hr
      split at hr
      · split at hr
        · simp at hr
        · rcases List.mem_cons.mp hr with hr | hr
          · subst hr; exact ⟨goodZ_some hg, hs⟩
          · exact ih _ r hr
      · exact ih _ r hr

theorem aRun_same (ops : List Op) (h : ∀ op ∈ ops, ∀ er ∈ evs op, Same fl er.metadata) :
    ∀ r ∈ (aRun (goodZ unbound) ops).log.recs, Same fl r.metadata := by
  have hnum : ∀ (ers : List EventRecord) (st : Str) (g q : Nat), (∀ er ∈ ers, Same fl er.metadata) →
      ∀ r ∈ numbered st g q ers, Same fl r.metadata := by
    intro ers
    induction ers with
    | nil => intro st g q _ r hr; simp [numbered] at hr
    | cons er ers ih =>
      intro st g q he r hr
      rcases List.mem_cons.mp hr with rfl | hr
      · exact he er (by simp)
      · exact ih st _ _ (fun x hx => he x (by simp [hx])) r hr
  have hstep : ∀ (op : Op) (A : AState), (∀ r ∈ A.log.recs, Same fl r.metadata) →
      (∀ er ∈ evs op, Same fl er.metadata) → ∀ r ∈ (aStep (goodZ unbound) A op).log.recs, Same fl r.metadata := by
    intro op A hA he
    cases op with
    | save st expected cancelAt ers =>
      simp only [aStep]
      split
      · exact hA
      · split
        · exact hA
        · cases hb : batchProblem (goodZ unbound) A.log st expected cancelAt ers with
          | some e => exact hA
          | none =>
            simp only [Log.append]
            intro r hr
            rw [List.mem_append] at hr
            rcases hr with hr | hr
            · exact hA r hr
            · have e : (goodZ unbound).view = id := rfl
              rw [e, List.map_id] at hr
              exact hnum ers st _ _ he r hr
    | delete st expected c =>
      simp only [aStep]
      split
      · exact hA
      · split
        · exact hA
        · split
          · exact hA
          · intro r hr
            exact hA r (List.mem_filter.mp hr).1
  have : ∀ (ops : List Op) (A : AState), (∀ r ∈ A.log.recs, Same fl r.metadata) →
      (∀ op ∈ ops, ∀ er ∈ evs op, Same fl er.metadata) →
      ∀ r ∈ (ops.foldl (aStep (goodZ unbound)) A).log.recs, Same fl r.metadata := by
    intro ops
    induction ops with
    | nil => intro A hA _; exact hA
    | cons op ops ih =>
      intro A hA h
      exact ih _ (hstep op A hA (h op (by simp))) (fun o ho => h o (by simp [ho]))
  exact this ops AState.init (by simp [AState.init, Log.empty]) h

end RangeDB.Srv

import Verif.Spec.Encrypted
import Verif.Proof.InMemoryRead

/-!
# Lemmas about the encrypted store
-/

namespace RangeDB.ES

open RangeDB.Key RangeDB.Cry

variable {σ : Type}

/-! ## Pairwise related lists -/

/-- The lists have the same length and corresponding entries are related. -/
inductive Rel2 {α β : Type} (R : α → β → Prop) : List α → List β → Prop
  | nil : Rel2 R [] []
  | cons {a b as bs} : R a b → Rel2 R as bs → Rel2 R (a :: as) (b :: bs)

section Rel2
variable {α β γ δ : Type} {R : α → β → Prop}

theorem Rel2.imp {S : α → β → Prop} (f : ∀ a b, R a b → S a b) {as bs} (h : Rel2 R as bs) :
    Rel2 S as bs := by
  induction h with
  | nil => exact .nil
  | cons h _ ih => exact .cons (f _ _ h) ih

theorem Rel2.length {as bs} (h : Rel2 R as bs) : bs.length = as.length := by
  induction h with
  | nil => rfl
  | cons _ _ ih => simp [ih]

theorem Rel2.append {as bs as' bs'} (h : Rel2 R as bs) (h' : Rel2 R as' bs') :
    Rel2 R (as ++ as') (bs ++ bs') := by
  induction h with
  | nil => exact h'
  | cons h _ ih => exact .cons h ih

theorem Rel2.take {as bs} (h : Rel2 R as bs) (n : Nat) : Rel2 R (as.take n) (bs.take n) := by
  induction h generalizing n with
  | nil => simpa using Rel2.nil
  | cons h _ ih => cases n with
    | zero => exact .nil
    | succ n => exact .cons h (ih n)

theorem Rel2.filter {p : α → Bool} {q : β → Bool} (hpq : ∀ a b, R a b → q b = p a) {as bs}
    (h : Rel2 R as bs) : Rel2 R (as.filter p) (bs.filter q) := by
  induction h with
  | nil => exact .nil
  | cons h _ ih =>
    simp only [List.filter_cons, hpq _ _ h]
    split
    · exact .cons h ih
    · exact ih

theorem Rel2.nil_iff {as bs} (h : Rel2 R as bs) : bs = [] ↔ as = [] := by
  cases h <;> simp

end Rel2

/-! ## What the key store has to do -/

/-- The setting: a key store that keeps keys, and in which, for the subjects of interest (`alive`) and the
calls of interest (`ok`), a subject that has a key keeps it or is dead, and then stays dead. -/
structure Regime (K : Store σ) (inv : σ → Prop) (has : σ → Str → Str → Prop) (dead : σ → Str → Prop)
    (alive : Str → Prop) (ok : Call → Prop) : Prop where
  keeps : Keeps K inv has
  okGet : ∀ s, ok (.get s)
  okSet : ∀ s k, ok (.set s k)
  hasCall : ∀ m s k c, inv m → alive s → ok c → has m s k →
    has (K.call m c).1 s k ∨ dead (K.call m c).1 s
  deadCall : ∀ m s c, inv m → alive s → ok c → dead m s → dead (K.call m c).1 s
  deadGet : ∀ m s, dead m s → (K.get m s).2 = ([], some .wasDeleted)

section Regime
variable {K : Store σ} {inv : σ → Prop} {has : σ → Str → Str → Prop} {dead : σ → Str → Prop}
  {alive : Str → Prop} {ok : Call → Prop} {enc : Encryptor}

/-- What a successful encryption gives. -/
theorem genEncrypt_gives (hK : Keeps K inv has) (he : enc.Lawful) (w : World σ) (e e' : PEvent)
    (hi : inv w.ks) (hb : Bytes w.nonceTape) (hp : Plain e)
    (h : (genEncrypt K enc w e).2 = some (e', none)) :
    SameShape e e' ∧ e'.subject = e.subject ∧
      ((e.strs = [] ∧ e.ints = [] ∧ e' = e ∧ e.sers = []) ∨
       ((e.strs ≠ [] ∨ e.ints ≠ []) ∧ (e'.strs ≠ [] ∨ e'.sers ≠ []) ∧
        ∃ k, has (genEncrypt K enc w e).1.ks e.subject k ∧
          ∀ w' : World σ, inv w'.ks → has w'.ks e.subject k →
            (genDecrypt K enc w' e').2 = some (e, none))) := by
  obtain ⟨hs, hr, hser⟩ := hp
  obtain ⟨cs, h1, h2⟩ := genEncrypt_ok h
  have hf : ∀ f ∈ e.strs ++ e.ints.map Dec.itoa, Bytes f := by
    intro f hf
    rcases List.mem_append.mp hf with hf | hf
    · exact hs f hf
    · obtain ⟨i, _, rfl⟩ := List.mem_map.mp hf
      exact itoa_bytes i
  rcases encFields_ok hK he e.subject w _ _ cs hi hb hf h1 with ⟨hnil, rfl⟩ | ⟨k, hk, hd⟩
  · have h3 : e.strs = [] := by
      cases hx : e.strs with
      | nil => rfl
      | cons => simp [hx] at hnil
    have h4 : e.ints = [] := by
      cases hx : e.ints with
      | nil => rfl
      | cons => simp [hx] at hnil
    subst h2
    have : e.sers = [] := by simp [hser, h4]
    obtain ⟨sub, strs, ints, sers, rest⟩ := e
    simp only at h3 h4 this; subst h3; subst h4; subst this
    exact ⟨⟨rfl, rfl, rfl, rfl, rfl⟩, rfl, Or.inl ⟨rfl, rfl, rfl, rfl⟩⟩
  · have hlen := hd.length
    simp only [List.length_append, List.length_map] at hlen
    obtain ⟨d1, d2⟩ := hd.split
    have l1 := d1.length
    have l2 := d2.length
    simp only [List.length_map] at l2
    subst h2
    refine ⟨⟨rfl, rfl, l1, by simp, by rw [l2, hser]; simp⟩, rfl, ?_⟩
    by_cases hne : e.strs = [] ∧ e.ints = []
    · left
      obtain ⟨h3, h4⟩ := hne
      have : e.sers = [] := by simp [hser, h4]
      obtain ⟨sub, strs, ints, sers, rest⟩ := e
      simp only at h3 h4 this; subst h3; subst h4; subst this
      have : cs = [] := by
        apply List.length_eq_zero_iff.mp; simpa using hlen
      subst this
      exact ⟨rfl, rfl, rfl, rfl⟩
    · right
      have hne' : e.strs ≠ [] ∨ e.ints ≠ [] := by
        by_cases hx : e.strs = []
        · exact Or.inr (fun hy => hne ⟨hx, hy⟩)
        · exact Or.inl hx
      refine ⟨hne', ?_, k, hk, ?_⟩
      · rcases hne' with hx | hx
        · left; intro h0
          exact hx (List.length_eq_zero_iff.mp (by rw [← l1]; simp only at h0; rw [h0]; rfl))
        · right; intro h0
          exact hx (List.length_eq_zero_iff.mp (by rw [← l2]; simp only at h0; rw [h0]; rfl))
      · intro w2 i2 k2
        obtain ⟨f1, f2, f3⟩ := decFields_ok hK e.subject k w2 _ _ i2 k2 d1
        have f4 := decInts_ok hK e.subject k _ _ _ f2 hr f3 d2
        rw [genDecrypt_of f1 f4]
        simp only [Option.some.injEq, Prod.mk.injEq, and_true]
        obtain ⟨sub, strs, ints, sers, rest⟩ := e
        simp only at hser l2 ⊢; subst hser
        simp only [List.map_const', l2]

/-- Decryption for a dead subject. -/
theorem genDecrypt_dead {w : World σ} {e : PEvent}
    (hg : (K.get w.ks e.subject).2 = ([], some .wasDeleted)) (hne : e.strs ≠ [] ∨ e.sers ≠ []) :
    (genDecrypt K enc w e).2 = some (e.redact, some .wasDeleted) := by
  by_cases hs : e.strs = []
  · have hi : e.sers ≠ [] := by
      rcases hne with h | h
      · exact absurd hs h
      · exact h
    have := (decFields_dead (enc := enc) hg e.sers hi).2
    simp only [genDecrypt, hs, decFields]
    generalize decInts K enc e.subject w e.sers = x at *
    obtain ⟨w2, r⟩ := x
    simp only at this; subst this
    rfl
  · have := (decFields_dead (enc := enc) hg e.strs hs).1
    simp only [genDecrypt]
    generalize decFields K enc e.subject w e.strs = x at *
    obtain ⟨w2, r⟩ := x
    simp only at this; subst this; rfl

/-- The invariant of a world. -/
def WInv (inv : σ → Prop) (w : World σ) : Prop := inv w.ks ∧ Bytes w.keyTape ∧ Bytes w.nonceTape

theorem Regime.winv (R : Regime K inv has dead alive ok) (he : enc.Lawful) {w : World σ}
    (h : WInv inv w) (os : List Cry.Op) : WInv inv (opRun K enc w os) :=
  R.keeps.opRun_inv he w os h.1 h.2.1 h.2.2

/-- `q` is the encrypted form of `p`, and it decrypts to `p` in world `w` unless the subject is dead. -/
def PRel (K : Store σ) (inv : σ → Prop) (has : σ → Str → Str → Prop) (dead : σ → Str → Prop)
    (alive : Str → Prop) (enc : Encryptor) (w : World σ) (p q : PEvent) : Prop :=
  SameShape p q ∧ q.subject = p.subject ∧ (alive p.subject ∧ Sealed K enc p q) ∧
    ((p.strs = [] ∧ p.ints = [] ∧ q = p ∧ p.sers = []) ∨
     ((p.strs ≠ [] ∨ p.ints ≠ []) ∧ (q.strs ≠ [] ∨ q.sers ≠ []) ∧
      ∃ k, (has w.ks p.subject k ∨ dead w.ks p.subject) ∧
        ∀ w' : World σ, inv w'.ks → has w'.ks p.subject k →
          (genDecrypt K enc w' q).2 = some (p, none)))

theorem Regime.getKeeps (R : Regime K inv has dead alive ok) {s k : Str} (ha : alive s) (m : σ) (x : Str)
    (h : inv m ∧ (has m s k ∨ dead m s)) :
    inv (K.get m x).1 ∧ (has (K.get m x).1 s k ∨ dead (K.get m x).1 s) := by
  refine ⟨R.keeps.invGet m x h.1, ?_⟩
  rcases h.2 with h2 | h2
  · simpa [Store.call] using R.hasCall m s k (.get x) h.1 ha (R.okGet x) h2
  · right; simpa [Store.call] using R.deadCall m s (.get x) h.1 ha (R.okGet x) h2

theorem Regime.setKeeps (R : Regime K inv has dead alive ok) {s k : Str} (ha : alive s) (m : σ)
    (x y : Str) (h : inv m ∧ (has m s k ∨ dead m s)) :
    inv (K.set m x y).1 ∧ (has (K.set m x y).1 s k ∨ dead (K.set m x y).1 s) := by
  refine ⟨R.keeps.invSet m x y h.1, ?_⟩
  rcases h.2 with h2 | h2
  · simpa [Store.call] using R.hasCall m s k (.set x y) h.1 ha (R.okSet x y) h2
  · right; simpa [Store.call] using R.deadCall m s (.set x y) h.1 ha (R.okSet x y) h2

/-- Operations of interest keep the relation. -/
theorem PRel.run (R : Regime K inv has dead alive ok) {w : World σ} (hw : inv w.ks) {p q : PEvent}
    (h : PRel K inv has dead alive enc w p q) (os : List Cry.Op) (ho : ∀ c, Cry.Op.call c ∈ os → ok c) :
    PRel K inv has dead alive enc (opRun K enc w os) p q := by
  obtain ⟨h1, h2, h3, h4⟩ := h
  refine ⟨h1, h2, h3, ?_⟩
  rcases h4 with h4 | ⟨h4, h5, k, h6, h7⟩
  · exact Or.inl h4
  · refine Or.inr ⟨h4, h5, k, ?_, h7⟩
    have := opRun_inv (K := K) (enc := enc)
      (fun w => inv w.ks ∧ (has w.ks p.subject k ∨ dead w.ks p.subject)) ?_ ?_ ok ?_ w os ho ⟨hw, h6⟩
    · exact this.2
    · intro w x d h
      exact engineEncrypt_ks (fun m => inv m ∧ (has m p.subject k ∨ dead m p.subject))
        (fun m x h => R.getKeeps h3.1 m x h) (fun m x y h => R.setKeeps h3.1 m x y h) w x d h
    · intro w x d h
      exact engineDecrypt_ks (fun m => inv m ∧ (has m p.subject k ∨ dead m p.subject))
        (fun m x h => R.getKeeps h3.1 m x h) w x d h
    · intro w c hc h
      refine ⟨R.keeps.stays _ c h.1, ?_⟩
      rcases h.2 with h8 | h8
      · exact R.hasCall _ _ _ c h.1 h3.1 hc h8
      · exact Or.inr (R.deadCall _ _ c h.1 h3.1 hc h8)

/-- How data is related. -/
def DRel (C : Codec) (K : Store σ) (inv : σ → Prop) (has : σ → Str → Str → Prop)
    (dead : σ → Str → Prop) (alive : Str → Prop) (enc : Encryptor) (w : World σ) (t dp de : Str) : Prop :=
  (C.asP t dp = none ∧ de = dp) ∨
  ∃ p q, C.asP t dp = some p ∧ de = C.ofP t dp q ∧ PRel K inv has dead alive enc w p q

/-- How records are related. -/
def RRel (C : Codec) (K : Store σ) (inv : σ → Prop) (has : σ → Str → Str → Prop)
    (dead : σ → Str → Prop) (alive : Str → Prop) (enc : Encryptor) (w : World σ) (rp re : Record) : Prop :=
  ∃ d, re = { rp with data := d } ∧ DRel C K inv has dead alive enc w rp.evType rp.data d

/-- How events are related. -/
def ERel (C : Codec) (K : Store σ) (inv : σ → Prop) (has : σ → Str → Str → Prop)
    (dead : σ → Str → Prop) (alive : Str → Prop) (enc : Encryptor) (w : World σ)
    (ep ee : EventRecord) : Prop :=
  ∃ d, ee = setData ep d ∧ DRel C K inv has dead alive enc w ep.event.evType ep.event.data d

theorem DRel.run {C : Codec} (R : Regime K inv has dead alive ok) {w : World σ} (hw : inv w.ks)
    {t dp de : Str} (h : DRel C K inv has dead alive enc w t dp de) (os : List Cry.Op)
    (ho : ∀ c, Cry.Op.call c ∈ os → ok c) :
    DRel C K inv has dead alive enc (opRun K enc w os) t dp de := by
  rcases h with h | ⟨p, q, h1, h2, h3⟩
  · exact Or.inl h
  · exact Or.inr ⟨p, q, h1, h2, h3.run R hw os ho⟩

theorem RRel.run {C : Codec} (R : Regime K inv has dead alive ok) {w : World σ} (hw : inv w.ks)
    {rp re : Record} (h : RRel C K inv has dead alive enc w rp re) (os : List Cry.Op)
    (ho : ∀ c, Cry.Op.call c ∈ os → ok c) :
    RRel C K inv has dead alive enc (opRun K enc w os) rp re := by
  obtain ⟨d, h1, h2⟩ := h
  exact ⟨d, h1, h2.run R hw os ho⟩

theorem ERel.run {C : Codec} (R : Regime K inv has dead alive ok) {w : World σ} (hw : inv w.ks)
    {rp re : EventRecord} (h : ERel C K inv has dead alive enc w rp re) (os : List Cry.Op)
    (ho : ∀ c, Cry.Op.call c ∈ os → ok c) :
    ERel C K inv has dead alive enc (opRun K enc w os) rp re := by
  obtain ⟨d, h1, h2⟩ := h
  exact ⟨d, h1, h2.run R hw os ho⟩

/-! ## Encrypting a batch -/

theorem encData_world (C : Codec) (w : World σ) (t d : Str) :
    ∃ os, (∀ c, Cry.Op.call c ∉ os) ∧ (encData C K enc w t d).1 = opRun K enc w os := by
  unfold encData
  cases C.asP t d with
  | none => exact ⟨[], by simp, rfl⟩
  | some p =>
    refine ⟨[.enc p], by simp, ?_⟩
    simp only [opRun, List.foldl_cons, List.foldl_nil, opStep]
    generalize genEncrypt K enc w p = x
    obtain ⟨w1, r⟩ := x
    rcases r with _ | ⟨q, e⟩ <;> rfl

theorem decData_world (C : Codec) (w : World σ) (t d : Str) :
    ∃ os, (∀ c, Cry.Op.call c ∉ os) ∧ (decData C K enc w t d).1 = opRun K enc w os := by
  unfold decData
  cases C.asP t d with
  | none => exact ⟨[], by simp, rfl⟩
  | some p =>
    refine ⟨[.dec p], by simp, ?_⟩
    simp only [opRun, List.foldl_cons, List.foldl_nil, opStep]
    generalize genDecrypt K enc w p = x
    obtain ⟨w1, r⟩ := x
    rcases r with _ | ⟨q, e⟩ <;> rfl

theorem opRun_append (w : World σ) (a b : List Cry.Op) :
    opRun K enc (opRun K enc w a) b = opRun K enc w (a ++ b) := by
  simp [opRun, List.foldl_append]

theorem encBatch_world (C : Codec) (w : World σ) (ers : List EventRecord) :
    ∃ os, (∀ c, Cry.Op.call c ∉ os) ∧ (encBatch C K enc w ers).1 = opRun K enc w os := by
  induction ers generalizing w with
  | nil => exact ⟨[], by simp, rfl⟩
  | cons er ers ih =>
    obtain ⟨os, h1, h2⟩ := encData_world (K := K) (enc := enc) C w er.event.evType er.event.data
    simp only [encBatch]
    generalize encData C K enc w er.event.evType er.event.data = x at *
    obtain ⟨w1, r⟩ := x
    simp only at h2; subst h2
    rcases r with _ | ⟨d, _ | e⟩
    · exact ⟨os, h1, rfl⟩
    · obtain ⟨os', h3, h4⟩ := ih (opRun K enc w os)
      simp only
      generalize encBatch C K enc (opRun K enc w os) ers = y at *
      obtain ⟨w2, l, r⟩ := y
      simp only at h4; subst h4
      refine ⟨os ++ os', ?_, opRun_append _ _ _⟩
      intro c hc
      rcases List.mem_append.mp hc with hc | hc
      · exact h1 c hc
      · exact h3 c hc
    · exact ⟨os, h1, rfl⟩

theorem encData_ok (R : Regime K inv has dead alive ok) (he : enc.Lawful) (C : Codec) {w w' : World σ}
    {t d d' : Str} (hw : WInv inv w) (hp : ∀ p, C.asP t d = some p → Plain p ∧ alive p.subject)
    (h : encData C K enc w t d = (w', some (d', none))) :
    DRel C K inv has dead alive enc w' t d d' := by
  unfold encData at h
  cases hc : C.asP t d with
  | none =>
    simp only [hc, Prod.mk.injEq, Option.some.injEq, and_true] at h
    exact Or.inl ⟨hc, h.2.symm⟩
  | some p =>
    simp only [hc] at h
    have hg := genEncrypt_gives (e := p) R.keeps he w
    have h49 := C49_encrypt K enc w p
    generalize hx : genEncrypt K enc w p = x at *
    obtain ⟨w1, r⟩ := x
    rcases r with _ | ⟨q, e⟩
    · simp at h
    · simp only [Prod.mk.injEq, Option.some.injEq] at h
      obtain ⟨rfl, rfl, rfl⟩ := h
      have hg := hg q hw.1 hw.2.2 (hp p hc).1 rfl
      obtain ⟨a1, a2, a3, _, _⟩ := h49 q none rfl
      obtain ⟨a3, a4, a5, a6, a7⟩ := a3 rfl
      refine Or.inr ⟨p, q, hc, rfl, hg.1, hg.2.1, ⟨(hp p hc).2, a1, a2, a3, a4, a5, a6, a7⟩, ?_⟩
      rcases hg.2.2 with h4 | ⟨h4, h5, k, h6, h7⟩
      · exact Or.inl h4
      · exact Or.inr ⟨h4, h5, k, Or.inl h6, h7⟩

/-- The events of a batch that was encrypted. -/
theorem encBatch_ok (R : Regime K inv has dead alive ok) (he : enc.Lawful) (C : Codec)
    (ers : List EventRecord)
    (hp : ∀ er ∈ ers, ∀ p, C.asP er.event.evType er.event.data = some p → Plain p ∧ alive p.subject) :
    ∀ {w w' : World σ} {ers' : List EventRecord}, WInv inv w →
      encBatch C K enc w ers = (w', ers', .ok) →
      Rel2 (ERel C K inv has dead alive enc w') ers ers' := by
  induction ers with
  | nil =>
    intro w w' ers' _ h
    simp only [encBatch, Prod.mk.injEq] at h
    obtain ⟨_, rfl, _⟩ := h
    exact .nil
  | cons er ers ih =>
    intro w w' ers' hw h
    simp only [encBatch] at h
    obtain ⟨os, h1, h2⟩ := encData_world (K := K) (enc := enc) C w er.event.evType er.event.data
    have hd := fun w' d' => encData_ok (w' := w') (d' := d') R he C hw (hp er (by simp))
    generalize encData C K enc w er.event.evType er.event.data = x at *
    obtain ⟨w1, r⟩ := x
    simp only at h2; subst h2
    rcases r with _ | ⟨d, _ | e⟩
    · simp at h
    · have hd := hd _ _ rfl
      have hw1 := R.winv he hw os
      obtain ⟨os', h3, h4⟩ := encBatch_world (K := K) (enc := enc) C (opRun K enc w os) ers
      have ih := fun w' ers' => ih (fun e he => hp e (List.mem_cons_of_mem _ he))
        (w := opRun K enc w os) (w' := w') (ers' := ers') hw1
      simp only at h
      generalize encBatch C K enc (opRun K enc w os) ers = y at *
      obtain ⟨w2, l, r⟩ := y
      simp only at h4; subst h4
      simp only [Prod.mk.injEq] at h
      obtain ⟨rfl, rfl, rfl⟩ := h
      refine .cons ⟨d, rfl, hd.run R hw1.1 os' (fun c hc => absurd hc (h3 c))⟩ (ih _ _ rfl)
    · simp at h

/-! ## Logs -/

theorem view_data {z : Serializer} (hz : z.Lawful) (hf : Faithful z) (r : Record) (d : Str) :
    z.view { r with data := d } = { z.view r with data := d } := by
  cases h1 : z.view { r with data := d } with
  | mk a1 a2 a3 a4 a5 a6 a7 a8 a9 a10 =>
    cases h2 : z.view r with
    | mk b1 b2 b3 b4 b5 b6 b7 b8 b9 b10 =>
      have e1 := hz.streamName { r with data := d }
      have e2 := hz.aggType { r with data := d }
      have e3 := hz.aggId { r with data := d }
      have e4 := hz.gsn { r with data := d }
      have e5 := hz.seq { r with data := d }
      have e6 := hz.ts { r with data := d }
      have e7 := hz.eventId { r with data := d }
      have e8 := hz.evType { r with data := d }
      have e9 := hf.data { r with data := d }
      have e10 := hf.metadata r d
      have f1 := hz.streamName r
      have f2 := hz.aggType r
      have f3 := hz.aggId r
      have f4 := hz.gsn r
      have f5 := hz.seq r
      have f6 := hz.ts r
      have f7 := hz.eventId r
      have f8 := hz.evType r
      simp only [h1] at e1 e2 e3 e4 e5 e6 e7 e8 e9 e10
      simp only [h2] at f1 f2 f3 f4 f5 f6 f7 f8 e10
      simp_all

theorem guarded_of_faithful {z : Serializer} (hf : Faithful z) (op : Op) : op.Guarded z := by
  cases op with
  | save st e c ers => exact Or.inr (Or.inl (fun er _ g q => hf.accepts _))
  | delete => trivial

/-- How logs are related. -/
def LRel (C : Codec) (K : Store σ) (inv : σ → Prop) (has : σ → Str → Str → Prop)
    (dead : σ → Str → Prop) (alive : Str → Prop) (enc : Encryptor) (w : World σ) (Lp Le : Log) : Prop :=
  Le.last = Lp.last ∧ Rel2 (RRel C K inv has dead alive enc w) Lp.recs Le.recs

theorem LRel.run {C : Codec} (R : Regime K inv has dead alive ok) {w : World σ} (hw : inv w.ks)
    {Lp Le : Log} (h : LRel C K inv has dead alive enc w Lp Le) (os : List Cry.Op)
    (ho : ∀ c, Cry.Op.call c ∈ os → ok c) :
    LRel C K inv has dead alive enc (opRun K enc w os) Lp Le :=
  ⟨h.1, h.2.imp (fun _ _ h => h.run R hw os ho)⟩

variable {C : Codec} {w : World σ} {Lp Le : Log}

theorem LRel.stream (h : LRel C K inv has dead alive enc w Lp Le) (st : Str) :
    Rel2 (RRel C K inv has dead alive enc w) (Lp.stream st) (Le.stream st) := by
  refine h.2.filter ?_
  rintro a b ⟨d, rfl, _⟩; rfl

theorem LRel.streamLen (h : LRel C K inv has dead alive enc w Lp Le) (st : Str) :
    Le.streamLen st = Lp.streamLen st := (h.stream st).length

theorem numbered_rel {z : Serializer} (hz : z.Lawful) (hf : Faithful z) (st : Str)
    {ers ers' : List EventRecord} (h : Rel2 (ERel C K inv has dead alive enc w) ers ers') (g q : Nat) :
    Rel2 (RRel C K inv has dead alive enc w) ((numbered st g q ers).map z.view)
      ((numbered st g q ers').map z.view) := by
  induction h generalizing g q with
  | nil => exact .nil
  | @cons a b _ _ h _ ih =>
    refine .cons ?_ (ih _ _)
    obtain ⟨d, rfl, hd⟩ := h
    refine ⟨d, ?_, ?_⟩
    · rw [← view_data hz hf]; rfl
    · rw [hz.evType, hf.data]; exact hd

theorem LRel.append {z : Serializer} (hz : z.Lawful) (hf : Faithful z) {st : Str}
    {ers ers' : List EventRecord} (h : LRel C K inv has dead alive enc w Lp Le)
    (he : Rel2 (ERel C K inv has dead alive enc w) ers ers') :
    LRel C K inv has dead alive enc w (Lp.append z.view st ers) (Le.append z.view st ers') := by
  refine ⟨?_, ?_⟩
  · simp only [Log.append, h.1, he.length]
  · simp only [Log.append, h.1, h.streamLen st]
    exact h.2.append (numbered_rel hz hf st he _ _)

theorem firstProblem_rel {z : Serializer} (hf : Faithful z) (st : Str) (cancelAt : Option Nat)
    {ers ers' : List EventRecord} (h : Rel2 (ERel C K inv has dead alive enc w) ers ers') :
    ∀ (g q : Nat) (expected : Option Nat) (i : Nat) (prev prev' : Option EventRecord),
      (∀ f er, (f = Event.aggType ∨ f = Event.aggId) → differs f prev' er = differs f prev er) →
      firstProblem z.ser st cancelAt g q expected i prev' ers' =
        firstProblem z.ser st cancelAt g q expected i prev ers := by
  induction h with
  | nil => intros; rfl
  | @cons a b _ _ h _ ih =>
    intro g q expected i prev prev' hpp
    obtain ⟨d, rfl, _⟩ := h
    have h1 : differs Event.aggType prev' (setData a d) = differs Event.aggType prev a := by
      rw [hpp _ _ (Or.inl rfl)]; cases prev <;> rfl
    have h2 : differs Event.aggId prev' (setData a d) = differs Event.aggId prev a := by
      rw [hpp _ _ (Or.inr rfl)]; cases prev <;> rfl
    simp only [firstProblem, problem, h1, h2, hf.accepts]
    rw [ih (g + 1) (q + 1) (expected.map (· + 1)) (i + 1) (some a) (some (setData a d))]
    rintro f er (rfl | rfl) <;> rfl

theorem LRel.batchProblem {z : Serializer} (hf : Faithful z) {st : Str} {expected cancelAt : Option Nat}
    {ers ers' : List EventRecord} (h : LRel C K inv has dead alive enc w Lp Le)
    (he : Rel2 (ERel C K inv has dead alive enc w) ers ers') :
    batchProblem z Le st expected cancelAt ers' = RangeDB.batchProblem z Lp st expected cancelAt ers := by
  unfold RangeDB.batchProblem
  rw [h.1, h.streamLen]
  exact firstProblem_rel hf st cancelAt he _ _ _ _ _ _ (fun _ _ _ => rfl)

theorem LRel.save {z : Serializer} (hz : z.Lawful) (hf : Faithful z) {st : Str}
    {expected cancelAt : Option Nat} {ers ers' : List EventRecord}
    (h : LRel C K inv has dead alive enc w Lp Le)
    (he : Rel2 (ERel C K inv has dead alive enc w) ers ers') :
    LRel C K inv has dead alive enc w (specStep z Lp (.save st expected cancelAt ers))
      (specStep z Le (.save st expected cancelAt ers')) := by
  simp only [specStep, he.nil_iff, h.batchProblem hf he]
  split
  · exact h
  · split
    · exact h.append hz hf he
    · rename_i j e _
      cases e with
      | unexpected => exact h
      | serialize => exact ⟨by simp only [afterFail, h.1], h.2⟩
      | _ => exact h.append hz hf (he.take j)

theorem LRel.delete {z : Serializer} {st : Str} {expected : Nat} {cancelled : Bool}
    (h : LRel C K inv has dead alive enc w Lp Le) :
    LRel C K inv has dead alive enc w (specStep z Lp (.delete st expected cancelled))
      (specStep z Le (.delete st expected cancelled)) := by
  simp only [specStep, h.streamLen]
  split
  · refine ⟨h.1, h.2.filter ?_⟩
    rintro a b ⟨d, rfl, _⟩; rfl
  · exact h

/-! ## Histories -/

/-- Conditions on one step: saved events are as a program writes them and their subjects are of
interest; so are the calls of the key store. -/
def StepOk (C : Codec) (alive : Str → Prop) (ok : Call → Prop) : HOp → Prop
  | .save _ _ _ ers => ∀ er ∈ ers, ∀ p, C.asP er.event.evType er.event.data = some p →
      Plain p ∧ alive p.subject
  | .world (.call c) => ok c
  | _ => True

/-- The invariant of an encrypted store that would hold the log `Lp` if it were not encrypted. -/
def Holds (C : Codec) (K : Store σ) (inv : σ → Prop) (has : σ → Str → Str → Prop)
    (dead : σ → Str → Prop) (alive : Str → Prop) (enc : Encryptor) (z : Serializer) (s : State σ)
    (Lp : Log) : Prop :=
  WInv inv s.world ∧ ∃ Le, Le.WF ∧ IM.Sim z s.parent Le ∧
    LRel C K inv has dead alive enc s.world Lp Le

theorem specStep_wf {z : Serializer} (hz : z.Lawful) {L : Log} (hL : L.WF) (op : Op)
    (hg : op.Guarded z) {s : IM.State} (h : IM.Sim z s L) : (specStep z L op).WF := by
  have := IM.foldl_sim hz [op] (by simpa using hg) s L hL h
  exact this.1

theorem save_holds (R : Regime K inv has dead alive ok) (he : enc.Lawful) {z : Serializer}
    (hz : z.Lawful) (hf : Faithful z) {s : State σ} (h : Holds C K inv has dead alive enc z s Lp)
    (st : Str) (expected cancelAt : Option Nat) (ers : List EventRecord)
    (hs : StepOk C alive ok (.save st expected cancelAt ers)) :
    ((encBatch C K enc s.world ers).2.2 = .ok →
      Holds C K inv has dead alive enc z (save C K enc z s st expected cancelAt ers).state
        (specStep z Lp (.save st expected cancelAt ers))) ∧
    ((encBatch C K enc s.world ers).2.2 ≠ .ok →
      Holds C K inv has dead alive enc z (save C K enc z s st expected cancelAt ers).state Lp) := by
  obtain ⟨hw, Le, hL, hsim, hr⟩ := h
  obtain ⟨os, h1, h2⟩ := encBatch_world (K := K) (enc := enc) C s.world ers
  have hb := fun w' ers' => encBatch_ok R he C ers hs (w' := w') (ers' := ers') hw
  have hw' := R.winv he hw os
  have hr' := hr.run R hw.1 os (fun c hc => absurd hc (h1 c))
  unfold save
  generalize encBatch C K enc s.world ers = x at *
  obtain ⟨w1, ers', e⟩ := x
  simp only at h2; subst h2
  cases e with
  | panic => exact ⟨by simp, fun _ => ⟨hw', Le, hL, hsim, hr'⟩⟩
  | err e => exact ⟨by simp, fun _ => ⟨hw', Le, hL, hsim, hr'⟩⟩
  | ok =>
    refine ⟨fun _ => ⟨hw', specStep z Le (.save st expected cancelAt ers'), ?_, ?_, ?_⟩, by simp⟩
    · exact specStep_wf hz hL _ (guarded_of_faithful hf _) hsim
    · exact IM.step_sim hz hL hsim (.save st expected cancelAt ers') (guarded_of_faithful hf _)
    · exact hr'.save hz hf (hb _ _ rfl)

theorem delete_holds {z : Serializer} (hz : z.Lawful) {s : State σ}
    (h : Holds C K inv has dead alive enc z s Lp) (st : Str) (expected : Nat) (cancelled : Bool) :
    Holds C K inv has dead alive enc z (delete s st expected cancelled).1
      (specStep z Lp (.delete st expected cancelled)) := by
  obtain ⟨hw, Le, hL, hsim, hr⟩ := h
  have h1 := IM.step_sim hz hL hsim (.delete st expected cancelled) trivial
  have h2 := specStep_wf hz hL (.delete st expected cancelled) trivial hsim
  refine ⟨hw, _, h2, ?_, hr.delete⟩
  exact h1

theorem world_holds (R : Regime K inv has dead alive ok) (he : enc.Lawful) {z : Serializer} {s : State σ}
    (h : Holds C K inv has dead alive enc z s Lp) (os : List Cry.Op)
    (ho : ∀ c, Cry.Op.call c ∈ os → ok c) :
    Holds C K inv has dead alive enc z { s with world := opRun K enc s.world os } Lp := by
  obtain ⟨hw, Le, hL, hsim, hr⟩ := h
  exact ⟨R.winv he hw os, Le, hL, hsim, hr.run R hw.1 os ho⟩

/-- A history. -/
theorem hrun_holds (R : Regime K inv has dead alive ok) (he : enc.Lawful) {z : Serializer}
    (hz : z.Lawful) (hf : Faithful z) (ops : List HOp) :
    ∀ {s : State σ} {Lp : Log}, Holds C K inv has dead alive enc z s Lp →
      (∀ op ∈ ops, StepOk C alive ok op) →
      Holds C K inv has dead alive enc z (hrun C K enc z s ops)
        ((plainOps C K enc z s ops).foldl (specStep z) Lp) := by
  induction ops with
  | nil => intro s Lp h _; exact h
  | cons op ops ih =>
    intro s Lp h hok
    have hok1 := hok op (by simp)
    have hok2 := fun o ho => hok o (List.mem_cons_of_mem _ ho)
    cases op with
    | save st expected cancelAt ers =>
      have hs := save_holds R he hz hf h st expected cancelAt ers hok1
      simp only [plainOps]
      by_cases hb : (encBatch C K enc s.world ers).2.2 = .ok
      · rw [if_pos hb]
        exact ih (hs.1 hb) hok2
      · rw [if_neg hb]
        exact ih (hs.2 hb) hok2
    | delete st expected cancelled =>
      exact ih (delete_holds hz h st expected cancelled) hok2
    | world o =>
      refine ih (s := { s with world := opStep K enc s.world o }) (world_holds R he h [o] ?_) hok2
      intro c hc
      simp only [List.mem_singleton] at hc
      subst hc; exact hok1

/-! ## Reading -/

/-- What decryption does to a related record. -/
theorem decData_rel (R : Regime K inv has dead alive ok) (hC : C.Lawful) {w : World σ} (hw : inv w.ks)
    {rp re : Record} (h : RRel C K inv has dead alive enc w rp re) :
    (shredded C K w rp = false → (decData C K enc w re.evType re.data).2 = some (rp.data, none)) ∧
    (shredded C K w rp = true → ∃ d, (decData C K enc w re.evType re.data).2 = some (d, some .wasDeleted)) ∧
    ∀ os, (∀ c, Cry.Op.call c ∉ os) → shredded C K (opRun K enc w os) rp = shredded C K w rp := by
  obtain ⟨d, rfl, hd⟩ := h
  rcases hd with ⟨h1, rfl⟩ | ⟨p, q, h1, rfl, hsh, hsub, ⟨hal, _⟩, hcase⟩
  · simp [shredded, h1, decData]
  · have hq := hC.get_put _ _ _ _ h1 hsh
    rcases hcase with ⟨h3, h4, rfl, h5⟩ | ⟨h3, h4, k, h5, h6⟩
    · refine ⟨fun _ => ?_, ?_, ?_⟩
      · simp only [decData, hq]
        have : genDecrypt K enc w q = (w, some (q, none)) := by
          obtain ⟨sub, strs, ints, sers, rest⟩ := q
          simp only at h3 h4 h5; subst h3; subst h4; subst h5; rfl
        rw [this]
        simp [hC.put_get _ _ _ h1]
      · simp [shredded, h1, h3, h4]
      · intro os _; simp [shredded, h1, h3, h4]
    · rcases h5 with h5 | h5
      · have hns : ∀ w' : World σ, inv w'.ks → has w'.ks p.subject k → shredded C K w' rp = false := by
          intro w' i h
          simp [shredded, h1, R.keeps.get _ _ _ i h]
        refine ⟨fun _ => ?_, ?_, ?_⟩
        · have := h6 w hw h5
          simp only [decData, hq]
          generalize genDecrypt K enc w q = x at *
          obtain ⟨w1, r⟩ := x
          simp only at this; subst this
          simp only [hC.put_put _ _ _ _ _ h1 hsh, hC.put_get _ _ _ h1]
        · intro h; rw [hns w hw h5] at h; simp at h
        · intro os ho
          rw [hns w hw h5]
          have := opRun_inv (K := K) (enc := enc) (fun w => inv w.ks ∧ has w.ks p.subject k) ?_ ?_
            (fun _ => False) ?_ w os (fun c hc => absurd hc (ho c)) ⟨hw, h5⟩
          · exact hns _ this.1 this.2
          · intro w x d h
            exact engineEncrypt_ks (fun m => inv m ∧ has m p.subject k)
              (fun m x h => ⟨R.keeps.invGet m x h.1, R.keeps.hasGet m _ k x h.1 h.2⟩)
              (fun m x y h => ⟨R.keeps.invSet m x y h.1, R.keeps.hasSet m _ k x y h.1 h.2⟩) w x d h
          · intro w x d h
            exact engineDecrypt_ks (fun m => inv m ∧ has m p.subject k)
              (fun m x h => ⟨R.keeps.invGet m x h.1, R.keeps.hasGet m _ k x h.1 h.2⟩) w x d h
          · intro _ _ h; exact h.elim
      · have hsd : ∀ w' : World σ, dead w'.ks p.subject → shredded C K w' rp = true := by
          intro w' h
          simp [shredded, h1, h3, R.deadGet _ _ h]
        refine ⟨?_, fun _ => ?_, ?_⟩
        · intro h; rw [hsd w h5] at h; simp at h
        · have := genDecrypt_dead (enc := enc) (e := q) (by rw [hsub]; exact R.deadGet _ _ h5) h4
          simp only [decData, hq]
          generalize genDecrypt K enc w q = x at *
          obtain ⟨w1, r⟩ := x
          simp only at this; subst this
          exact ⟨_, rfl⟩
        · intro os ho
          rw [hsd w h5]
          have := opRun_inv (K := K) (enc := enc) (fun w => inv w.ks ∧ dead w.ks p.subject) ?_ ?_
            (fun _ => False) ?_ w os (fun c hc => absurd hc (ho c)) ⟨hw, h5⟩
          · exact hsd _ this.2
          · intro w x d h
            exact engineEncrypt_ks (fun m => inv m ∧ dead m p.subject)
              (fun m x h => ⟨R.keeps.invGet m x h.1, by
                simpa [Store.call] using R.deadCall m _ (.get x) h.1 hal (R.okGet x) h.2⟩)
              (fun m x y h => ⟨R.keeps.invSet m x y h.1, by
                simpa [Store.call] using R.deadCall m _ (.set x y) h.1 hal (R.okSet x y) h.2⟩) w x d h
          · intro w x d h
            exact engineDecrypt_ks (fun m => inv m ∧ dead m p.subject)
              (fun m x h => ⟨R.keeps.invGet m x h.1, by
                simpa [Store.call] using R.deadCall m _ (.get x) h.1 hal (R.okGet x) h.2⟩) w x d h
          · intro _ _ h; exact h.elim

theorem consume_rel (R : Regime K inv has dead alive ok) (hC : C.Lawful) (he : enc.Lawful)
    (err : Option Err) (sh : Record → Bool) {rp re : List Record} :
    ∀ {w : World σ}, WInv inv w → Rel2 (RRel C K inv has dead alive enc w) rp re →
      (∀ r ∈ rp, shredded C K w r = sh r) → ∀ (fuel : Nat), re.length + 2 ≤ fuel →
      ∀ cur : ResultRecord, cur.err = none →
      (consume C K enc fuel w ⟨⟨(Iter.mk re err).results, cur⟩, none⟩).2 = decrypted sh ⟨rp, err⟩ := by
  induction rp generalizing re with
  | nil =>
    intro w hw h hsh fuel hfuel cur hcur
    cases h
    cases fuel with
    | zero => omega
    | succ fuel =>
      cases err with
      | none => simp [consume, DIter.next, RecordIterator.next, hcur, Iter.results, decrypted, DIter.error,
          RecordIterator.error, ResultRecord.zero]
      | some e => simp [consume, DIter.next, RecordIterator.next, hcur, Iter.results, decrypted, DIter.error,
          RecordIterator.error]
  | cons a as ih =>
    intro w hw h hsh fuel hfuel cur hcur
    cases h with
    | @cons _ b _ bs hab hrest =>
    cases fuel with
    | zero => omega
    | succ fuel =>
      have hnext : DIter.next ⟨⟨(Iter.mk (b :: bs) err).results, cur⟩, none⟩ =
          (⟨⟨(Iter.mk bs err).results, ⟨some b, none⟩⟩, none⟩, true) := by
        simp [DIter.next, RecordIterator.next, hcur, Iter.results]
      obtain ⟨hd1, hd2, hd3⟩ := decData_rel R hC hw.1 hab
      obtain ⟨os, ho1, ho2⟩ := decData_world (K := K) (enc := enc) C w b.evType b.data
      have hsa := hsh a (by simp)
      simp only [consume, hnext, DIter.record, RecordIterator.record]
      cases hs : sh a with
      | false =>
        have hd := hd1 (by rw [hsa, hs])
        obtain ⟨d0, hb0, _⟩ := hab
        generalize decData C K enc w b.evType b.data = x at *
        obtain ⟨w1, r⟩ := x
        simp only at ho2 hd; subst ho2; subst hd
        have hw1 := R.winv he hw os
        have hno : ∀ c, Cry.Op.call c ∈ os → ok c := fun c hc => absurd hc (ho1 c)
        have := ih hw1 (hrest.imp (fun _ _ h => h.run R hw.1 os hno)) (by
            intro r hr
            have hx : ∃ e ∈ bs, RRel C K inv has dead alive enc w r e := by
              clear ih
              induction hrest with
              | nil => simp at hr
              | cons h _ ih2 =>
                rcases List.mem_cons.mp hr with rfl | hr
                · exact ⟨_, by simp, h⟩
                · obtain ⟨e, he, h⟩ := ih2 (fun r hr => hsh r (by
                    rcases List.mem_cons.mp hr with rfl | hr
                    · simp
                    · simp [hr])) (by simp only [List.length_cons] at hfuel ⊢; omega)
                    (by
                      simp [DIter.next, RecordIterator.next, hcur, Iter.results]) hr
                  exact ⟨e, by simp [he], h⟩
            obtain ⟨e, _, hx⟩ := hx
            rw [(decData_rel R hC hw.1 hx).2.2 os ho1]
            exact hsh r (by simp [hr])) fuel (by simp only [List.length_cons] at hfuel; omega)
          ⟨some a, none⟩ rfl
        simp only
        have hset : setCurrent ⟨(Iter.mk bs err).results, ⟨some b, none⟩⟩ { b with data := a.data } =
            ⟨(Iter.mk bs err).results, ⟨some a, none⟩⟩ := by
          rw [hb0]; rfl
        have hba : { b with data := a.data } = a := by rw [hb0]
        rw [hset, hba]
        generalize consume C K enc fuel (opRun K enc w os) _ = y at *
        obtain ⟨w2, g⟩ := y
        simp only at this ⊢; subst this
        simp [decrypted, hs]
      | true =>
        obtain ⟨d, hd⟩ := hd2 (by rw [hsa, hs])
        generalize decData C K enc w b.evType b.data = x at *
        obtain ⟨w1, r⟩ := x
        simp only at hd; subst hd
        simp only
        cases fuel with
        | zero => simp at hfuel
        | succ fuel =>
          simp [consume, DIter.next, decrypted, hs, DIter.error]

/-- Reading everything. -/
theorem readAll_rel (R : Regime K inv has dead alive ok) (hC : C.Lawful) (he : enc.Lawful)
    {w : World σ} (hw : WInv inv w) {rp re : List Record} (err : Option Err)
    (h : Rel2 (RRel C K inv has dead alive enc w) rp re) :
    (readAll C K enc w ⟨re, err⟩).2 = decrypted (shredded C K w) ⟨rp, err⟩ :=
  consume_rel R hC he err (shredded C K w) hw h (fun _ _ => rfl) _ (Nat.le_refl _) .zero rfl

/-! ## The calls of the parent -/

/-- Two states of the in-memory store that differ only in the stored bytes. -/
def Same (a b : IM.State) : Prop := ∃ d, b = { a with data := d }

/-- Two events that differ only in their data. -/
def EnvEq (a b : EventRecord) : Prop := ∃ d, b = setData a d

theorem encBatch_env (C : Codec) (ers : List EventRecord) : ∀ (w : World σ),
    Rel2 EnvEq ers (encBatch C K enc w ers).2.1 := by
  have hself : ∀ l : List EventRecord, Rel2 EnvEq l l := by
    intro l
    induction l with
    | nil => exact .nil
    | cons a l ih => exact .cons ⟨a.event.data, rfl⟩ ih
  induction ers with
  | nil => intro w; exact .nil
  | cons er ers ih =>
    intro w
    simp only [encBatch]
    generalize encData C K enc w er.event.evType er.event.data = x
    obtain ⟨w1, r⟩ := x
    rcases r with _ | ⟨d, _ | e⟩
    · exact hself _
    · have ih := ih w1
      simp only
      generalize encBatch C K enc w1 ers = y at *
      obtain ⟨w2, l, r⟩ := y
      exact .cons ⟨d, rfl⟩ ih
    · exact .cons ⟨d, rfl⟩ (hself _)

theorem saveEvent_same {z : Serializer} (hf : Faithful z) {a b : IM.State} (h : Same a b) (st : Str)
    (expected : Option Nat) {e e' : EventRecord} (he : EnvEq e e') :
    (∃ a1 b1 x, IM.saveEvent z a st expected e = (a1, .error x) ∧
      IM.saveEvent z b st expected e' = (b1, .error x) ∧ Same a1 b1) ∨
    (∃ a1 b1 d r d' r', IM.saveEvent z a st expected e = (a1, .ok (d, r)) ∧
      IM.saveEvent z b st expected e' = (b1, .ok (d', r')) ∧ Same a1 b1 ∧ r'.gsn = r.gsn ∧
      r'.seq = r.seq) := by
  obtain ⟨bd, rfl⟩ := h
  obtain ⟨ed, rfl⟩ := he
  have hstore : ∃ a1 b1 d r d' r',
      IM.saveEvent.store z a st (IM.streamSeq a st) e = (a1, .ok (d, r)) ∧
      IM.saveEvent.store z { a with data := bd } st (IM.streamSeq a st) (setData e ed)
        = (b1, .ok (d', r')) ∧ Same a1 b1 ∧ r'.gsn = r.gsn ∧ r'.seq = r.seq := by
    have h1 := hf.accepts (mkRecord st (a.gsn + 1) (IM.streamSeq a st + 1) e)
    have h2 := hf.accepts (mkRecord st (a.gsn + 1) (IM.streamSeq a st + 1) (setData e ed))
    rw [Option.isSome_iff_exists] at h1 h2
    obtain ⟨x1, h1⟩ := h1
    obtain ⟨x2, h2⟩ := h2
    simp only [IM.saveEvent.store, h1, h2]
    exact ⟨_, _, _, _, _, _, rfl, rfl, ⟨_, rfl⟩, rfl, rfl⟩
  cases expected with
  | none => exact Or.inr hstore
  | some n =>
    by_cases hn : n = IM.streamSeq a st
    · right
      have e1 : IM.saveEvent z a st (some n) e = IM.saveEvent.store z a st (IM.streamSeq a st) e := by
        simp [IM.saveEvent, hn]
      have e2 : IM.saveEvent z { a with data := bd } st (some n) (setData e ed)
          = IM.saveEvent.store z { a with data := bd } st (IM.streamSeq a st) (setData e ed) := by
        simp [IM.saveEvent, hn, IM.streamSeq]
      rw [e1, e2]; exact hstore
    · left
      refine ⟨a, { a with data := bd }, .unexpected n (IM.streamSeq a st), ?_, ?_, ⟨bd, rfl⟩⟩
      · simp [IM.saveEvent, hn]
      · have hn' : n ≠ IM.streamSeq { a with data := bd } st := hn
        simp only [IM.saveEvent, hn', ne_eq, not_false_eq_true, if_true]
        rfl

theorem removeRecent_same {a b : IM.State} (h : Same a b) (gsns : List Nat) (t i : Str) :
    Same (IM.removeRecentEvents a gsns t i).1 (IM.removeRecentEvents b gsns t i).1 ∧
    (IM.removeRecentEvents b gsns t i).2 = (IM.removeRecentEvents a gsns t i).2 := by
  obtain ⟨bd, rfl⟩ := h
  simp only [IM.removeRecentEvents]
  cases IM.rTrim a.records gsns.length with
  | none => exact ⟨⟨_, rfl⟩, rfl⟩
  | some l =>
    simp only
    cases IM.rTrim (IM.get a.streams (getStream t i)) gsns.length with
    | none => exact ⟨⟨_, rfl⟩, rfl⟩
    | some l2 =>
      simp only
      cases IM.rTrim (IM.get a.aggTypes t) gsns.length with
      | none => exact ⟨⟨_, rfl⟩, rfl⟩
      | some l3 => exact ⟨⟨_, rfl⟩, rfl⟩

/-- The same outcome up to the payload. -/
def OutEq : Outcome (Nat × List Str) → Outcome (Nat × List Str) → Prop
  | .ok a, .ok b => b.1 = a.1
  | .err a, .err b => b = a
  | .panic, .panic => True
  | .blocked, .blocked => True
  | _, _ => False

theorem saveLoop_same {z : Serializer} (hf : Faithful z) (st : Str) (cancelAt : Option Nat)
    {ers ers' : List EventRecord} (he : Rel2 EnvEq ers ers') :
    ∀ (i : Nat) {a b : IM.State}, Same a b → ∀ (pt pid : Str) (expected : Option Nat)
      (created : List Nat) (p p' : List Str) (last : Nat),
      Same (IM.saveLoop z st cancelAt i a pt pid expected created p last ers).1
        (IM.saveLoop z st cancelAt i b pt pid expected created p' last ers').1 ∧
      OutEq (IM.saveLoop z st cancelAt i a pt pid expected created p last ers).2
        (IM.saveLoop z st cancelAt i b pt pid expected created p' last ers').2 := by
  induction he with
  | nil => intro i a b h pt pid expected created p p' last; exact ⟨h, rfl⟩
  | @cons e e' _ _ h1 _ ih =>
    intro i a b h pt pid expected created p p' last
    have ht : e'.event.aggType = e.event.aggType := by obtain ⟨d, rfl⟩ := h1; rfl
    have hid : e'.event.aggId = e.event.aggId := by obtain ⟨d, rfl⟩ := h1; rfl
    simp only [IM.saveLoop, ht, hid]
    split
    · exact ⟨h, rfl⟩
    split
    · exact ⟨h, rfl⟩
    split
    · exact ⟨h, rfl⟩
    rcases saveEvent_same hf h st expected h1 with
      ⟨a1, b1, x, s1, s2, s3⟩ | ⟨a1, b1, d, r, d', r', s1, s2, s3, s4, s5⟩
    · rw [s1, s2]
      have := removeRecent_same s3 created e.event.aggType e.event.aggId
      simp only
      generalize IM.removeRecentEvents a1 created e.event.aggType e.event.aggId = y at *
      generalize IM.removeRecentEvents b1 created e.event.aggType e.event.aggId = y' at *
      obtain ⟨y1, y2⟩ := y
      obtain ⟨y1', y2'⟩ := y'
      obtain ⟨⟨d, hd⟩, h2⟩ := this
      simp only at hd h2; subst hd; subst h2
      cases y2' with
      | true => exact ⟨⟨d, rfl⟩, trivial⟩
      | false => exact ⟨⟨d, rfl⟩, rfl⟩
    · rw [s1, s2]
      simp only [s4, s5]
      exact ih (i + 1) s3 _ _ _ _ _ _ _

theorem saveEvents_same {z : Serializer} (hf : Faithful z) {a b : IM.State} (h : Same a b) (st : Str)
    (expected cancelAt : Option Nat) {ers ers' : List EventRecord} (he : Rel2 EnvEq ers ers') :
    Same (IM.saveEvents z a st expected cancelAt ers).state
      (IM.saveEvents z b st expected cancelAt ers').state ∧
    (IM.saveEvents z b st expected cancelAt ers').out =
      (IM.saveEvents z a st expected cancelAt ers).out := by
  have hs := saveLoop_same hf st cancelAt he 0 h [] [] expected [] [] [] 0
  have hl : b.locked = a.locked := by obtain ⟨d, rfl⟩ := h; rfl
  simp only [IM.saveEvents, he.length, hl]
  split
  · exact ⟨h, rfl⟩
  split
  · exact ⟨h, rfl⟩
  generalize IM.saveLoop z st cancelAt 0 a [] [] expected [] [] 0 ers = y at *
  generalize IM.saveLoop z st cancelAt 0 b [] [] expected [] [] 0 ers' = y' at *
  obtain ⟨y1, y2⟩ := y
  obtain ⟨y1', y2'⟩ := y'
  cases y2 <;> cases y2' <;> simp only [OutEq, and_false, and_true] at hs <;>
    first
    | exact hs.elim
    | (obtain ⟨h1, h2⟩ := hs; refine ⟨h1, ?_⟩; simp [h2])
    | exact ⟨hs, rfl⟩

theorem deleteLoop_same (xs : List Nat) : ∀ {a b : IM.State}, Same a b →
    Same (IM.deleteLoop a xs).1 (IM.deleteLoop b xs).1 ∧
    (IM.deleteLoop b xs).2 = (IM.deleteLoop a xs).2 := by
  induction xs with
  | nil => intro a b h; exact ⟨h, rfl⟩
  | cons x xs ih =>
    rintro a _ ⟨d, rfl⟩
    simp only [IM.deleteLoop, IM.deleteOne]
    cases IM.removeAll x a.records with
    | none => exact ⟨⟨d, rfl⟩, rfl⟩
    | some l => exact ih ⟨_, rfl⟩

theorem deleteStream_same {a b : IM.State} (h : Same a b) (st : Str) (expected : Nat)
    (cancelled : Bool) :
    Same (IM.deleteStream a st expected cancelled).1 (IM.deleteStream b st expected cancelled).1 ∧
    (IM.deleteStream b st expected cancelled).2 = (IM.deleteStream a st expected cancelled).2 := by
  have hl := fun xs => deleteLoop_same xs h
  obtain ⟨d, rfl⟩ := h
  simp only [IM.deleteStream]
  split
  · exact ⟨⟨d, rfl⟩, rfl⟩
  split
  · exact ⟨⟨d, rfl⟩, rfl⟩
  cases a.streams st with
  | none => exact ⟨⟨d, rfl⟩, rfl⟩
  | some gsns =>
    simp only
    split
    · exact ⟨⟨d, rfl⟩, rfl⟩
    · have hl := hl gsns
      generalize IM.deleteLoop a gsns = y at *
      generalize IM.deleteLoop { a with data := d } gsns = y' at *
      obtain ⟨y1, y2⟩ := y
      obtain ⟨y1', y2'⟩ := y'
      obtain ⟨⟨d2, hd⟩, h2⟩ := hl
      simp only at hd h2; subst hd; subst h2
      cases y2' with
      | true => exact ⟨⟨d2, rfl⟩, rfl⟩
      | false => exact ⟨⟨d2, rfl⟩, rfl⟩

/-- The parent differs from the unencrypted store only in the stored bytes. -/
theorem hrun_same {z : Serializer} (hf : Faithful z) (ops : List HOp) :
    ∀ {s : State σ} {p : IM.State}, Same p s.parent →
      Same ((plainOps C K enc z s ops).foldl (IM.step z) p) (hrun C K enc z s ops).parent := by
  induction ops with
  | nil => intro s p h; exact h
  | cons op ops ih =>
    intro s p h
    cases op with
    | save st expected cancelAt ers =>
      have hb := encBatch_env (K := K) (enc := enc) C ers s.world
      simp only [plainOps]
      by_cases hok : (encBatch C K enc s.world ers).2.2 = .ok
      · rw [if_pos hok]
        refine ih (p := IM.step z p (.save st expected cancelAt ers)) ?_
        simp only [hstep, save]
        generalize encBatch C K enc s.world ers = x at *
        obtain ⟨w1, l, r⟩ := x
        simp only at hok; subst hok
        exact (saveEvents_same hf h st expected cancelAt hb).1
      · rw [if_neg hok]
        refine ih (p := p) ?_
        simp only [hstep, save]
        generalize encBatch C K enc s.world ers = x at *
        obtain ⟨w1, l, r⟩ := x
        cases r with
        | ok => exact absurd rfl hok
        | err => exact h
        | panic => exact h
    | delete st expected cancelled =>
      exact ih (p := IM.step z p (.delete st expected cancelled)) (deleteStream_same h st expected cancelled).1
    | world o => exact ih (p := p) h

end Regime

end RangeDB.ES

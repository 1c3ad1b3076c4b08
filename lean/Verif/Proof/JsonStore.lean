import Verif.Proof.JsonRecord
import Verif.Proof.InMemoryRead
import Verif.Thm.LevelDB

/-! # The stores with the JSON serializer -/

namespace RangeDB.Json

open Classical in
/-- The JSON serializer, restricted to the records it handles. -/
noncomputable def goodZ (ty : Types) : Serializer :=
  ⟨fun r => if Good ty r then serialize r else none, deserialize ty, id⟩

theorem goodZ_lawful (ty : Types) : (goodZ ty).Lawful where
  roundTrip := by
    intro r b h
    simp only [goodZ] at h ⊢
    split at h
    · rename_i hg
      obtain ⟨b', hb, hu⟩ := good_roundTrip hg
      rw [hb] at h
      simp only [Option.some.injEq] at h
      subst h
      have := hu []
      rw [List.append_nil] at this
      simp [deserialize, this]
    · simp at h
  streamName := fun _ => rfl
  aggType := fun _ => rfl
  aggId := fun _ => rfl
  gsn := fun _ => rfl
  seq := fun _ => rfl
  ts := fun _ => rfl
  eventId := fun _ => rfl
  evType := fun _ => rfl

theorem good_mkRecord {ty : Types} {er : EventRecord} (h : GoodEvent ty er) {st : Str} (hs : Valid st) {g q : Nat}
    (hg : g < 2 ^ 64) (hq : q < 2 ^ 64) : Good ty (mkRecord st g q er) :=
  ⟨hs, h.aggType, h.aggId, h.uuid, h.evType, ⟨hg, hq, h.now⟩, h.data, h.metadata⟩

theorem goodZ_ser {ty : Types} {er : EventRecord} (h : GoodEvent ty er) {st : Str} (hs : Valid st) {g q : Nat}
    (hg : g < 2 ^ 64) (hq : q < 2 ^ 64) :
    (goodZ ty).ser (mkRecord st g q er) = (serializer ty).ser (mkRecord st g q er) := by
  simp only [goodZ, serializer]
  rw [if_pos (good_mkRecord h hs hg hq)]

theorem goodZ_isSome {ty : Types} {er : EventRecord} (h : GoodEvent ty er) {st : Str} (hs : Valid st) {g q : Nat}
    (hg : g < 2 ^ 64) (hq : q < 2 ^ 64) : ((goodZ ty).ser (mkRecord st g q er)).isSome := by
  obtain ⟨b, hb, _⟩ := good_roundTrip (good_mkRecord (ty := ty) h hs hg hq)
  simp only [goodZ]
  rw [if_pos (good_mkRecord h hs hg hq), hb]
  rfl

/-! ## In-memory store -/

section
open IM

/-- The numbers given out so far are at most `N`. -/
def Upto (N : Nat) (s : IM.State) : Prop := s.gsn ≤ N ∧ ∀ st, (IM.get s.streams st).length ≤ N

theorem upto_mono {N M : Nat} {s : IM.State} (h : Upto N s) (hle : N ≤ M) : Upto M s :=
  ⟨Nat.le_trans h.1 hle, fun st => Nat.le_trans (h.2 st) hle⟩

theorem upto_get_setMap {N : Nat} {m : Str → Option (List Nat)} (h : ∀ st, (IM.get m st).length ≤ N) (k : Str)
    (v : Option (List Nat)) (hv : (v.getD []).length ≤ N) (st : Str) : (IM.get (setMap m k v) st).length ≤ N := by
  unfold IM.get setMap
  split
  · exact hv
  · exact h st

theorem saveEvent_congr {ty : Types} {N : Nat} (hN : N + 1 < 2 ^ 64) {s : IM.State} (hu : Upto N s) {st : Str}
    (hs : Valid st) (expected : Option Nat) {er : EventRecord} (he : GoodEvent ty er) :
    IM.saveEvent (serializer ty) s st expected er = IM.saveEvent (goodZ ty) s st expected er := by
  have h1 := hu.1
  have h2 : streamSeq s st ≤ N := hu.2 st
  have key : IM.saveEvent.store (serializer ty) s st (streamSeq s st) er =
      IM.saveEvent.store (goodZ ty) s st (streamSeq s st) er := by
    unfold IM.saveEvent.store
    simp only
    rw [← goodZ_ser (ty := ty) he hs (by omega : s.gsn + 1 < 2 ^ 64) (by omega : streamSeq s st + 1 < 2 ^ 64)]
  unfold IM.saveEvent
  simp only
  cases expected with
  | none => exact key
  | some e =>
    simp only
    split
    · rfl
    · exact key

theorem saveEvent_upto {z : Serializer} {N : Nat} {s : IM.State} (hu : Upto N s) (st : Str)
    (expected : Option Nat) (er : EventRecord) : Upto (N + 1) (IM.saveEvent z s st expected er).1 := by
  have key : Upto (N + 1) (IM.saveEvent.store z s st (streamSeq s st) er).1 := by
    unfold IM.saveEvent.store
    simp only
    split
    · exact ⟨by have := hu.1; simp; omega, fun st' => Nat.le_succ_of_le (hu.2 st')⟩
    · refine ⟨by have := hu.1; simp; omega, fun st' => ?_⟩
      refine upto_get_setMap (fun st' => Nat.le_succ_of_le (hu.2 st')) _ _ ?_ st'
      have := hu.2 st
      simp; omega
  unfold IM.saveEvent
  simp only
  cases expected with
  | none => exact key
  | some e =>
    simp only
    split
    · exact upto_mono hu (by omega)
    · exact key

theorem rTrim_length {l l' : List Nat} {n : Nat} (h : rTrim l n = some l') : l'.length ≤ l.length := by
  unfold rTrim at h
  split at h
  · simp only [Option.some.injEq] at h; subst h; simp
  · simp at h

theorem removeRecent_upto {N : Nat} {s : IM.State} (hu : Upto N s) (gsns : List Nat) (t i : Str) :
    Upto N (removeRecentEvents s gsns t i).1 := by
  have hg : s.gsn - gsns.length ≤ N := by have := hu.1; omega
  unfold removeRecentEvents
  simp only
  cases h1 : rTrim s.records gsns.length with
  | none => exact ⟨hg, hu.2⟩
  | some l1 =>
    simp only
    cases h2 : rTrim (IM.get s.streams (getStream t i)) gsns.length with
    | none => exact ⟨hg, hu.2⟩
    | some l2 =>
      have : ∀ st, (IM.get (setMap s.streams (getStream t i) (some l2)) st).length ≤ N :=
        upto_get_setMap hu.2 _ _ (Nat.le_trans (rTrim_length h2) (hu.2 _))
      simp only
      cases h3 : rTrim (IM.get s.aggTypes t) gsns.length with
      | none => exact ⟨hg, this⟩
      | some l3 => exact ⟨hg, this⟩

theorem saveLoop_upto {z : Serializer} {N : Nat} (st : Str) (cancelAt : Option Nat) (ers : List EventRecord) :
    ∀ (i : Nat) (s : IM.State), Upto N s → ∀ pt pi expected created pending last,
      Upto (N + ers.length) (IM.saveLoop z st cancelAt i s pt pi expected created pending last ers).1 := by
  induction ers generalizing N with
  | nil => intro i s hu pt pi expected created pending last; exact hu
  | cons er ers ih =>
    intro i s hu pt pi expected created pending last
    simp only [IM.saveLoop]
    split
    · exact upto_mono hu (by omega)
    · split
      · exact upto_mono hu (by omega)
      · split
        · exact upto_mono hu (by omega)
        · have h1 := saveEvent_upto (z := z) hu st expected er
          cases hse : IM.saveEvent z s st expected er with
          | mk s1 res =>
            rw [hse] at h1
            simp only at h1
            cases res with
            | error e =>
              simp only
              have h2 := removeRecent_upto h1 created er.event.aggType er.event.aggId
              cases hrm : removeRecentEvents s1 created er.event.aggType er.event.aggId with
              | mk s2 b =>
                rw [hrm] at h2
                have h3 : Upto (N + (ers.length + 1)) s2 := upto_mono h2 (by omega)
                cases b
                · exact h3
                · exact ⟨h3.1, h3.2⟩
            | ok p =>
              obtain ⟨data, record⟩ := p
              simp only
              have := ih (N := N + 1) (i + 1) s1 h1 er.event.aggType er.event.aggId (expected.map (· + 1))
                (created ++ [record.gsn]) (pending ++ [data]) record.seq
              exact upto_mono this (by simp; omega)

theorem saveLoop_congr {ty : Types} {N : Nat} {st : Str} (hs : Valid st) (cancelAt : Option Nat)
    (ers : List EventRecord) (he : ∀ er ∈ ers, GoodEvent ty er) (hN : N + ers.length < 2 ^ 64) :
    ∀ (i : Nat) (s : IM.State), Upto N s → ∀ pt pi expected created pending last,
      IM.saveLoop (serializer ty) st cancelAt i s pt pi expected created pending last ers =
        IM.saveLoop (goodZ ty) st cancelAt i s pt pi expected created pending last ers := by
  induction ers generalizing N with
  | nil => intros; rfl
  | cons er ers ih =>
    intro i s hu pt pi expected created pending last
    simp only [List.length_cons] at hN
    simp only [IM.saveLoop]
    rw [saveEvent_congr (N := N) (by omega) hu hs expected (he er (by simp))]
    have h1 := saveEvent_upto (z := goodZ ty) hu st expected er
    cases hse : IM.saveEvent (goodZ ty) s st expected er with
    | mk s1 res =>
      rw [hse] at h1
      cases res with
      | error e => rfl
      | ok p =>
        obtain ⟨data, record⟩ := p
        simp only
        rw [ih (fun er h => he er (by simp [h])) (N := N + 1) (by omega) (i + 1) s1 h1]

theorem im_saveEvents_congr {ty : Types} {N : Nat} {s : IM.State} (hu : Upto N s) {st : Str} (hs : Valid st)
    (expected cancelAt : Option Nat) (ers : List EventRecord) (he : ∀ er ∈ ers, GoodEvent ty er)
    (hN : N + ers.length < 2 ^ 64) :
    IM.saveEvents (serializer ty) s st expected cancelAt ers = IM.saveEvents (goodZ ty) s st expected cancelAt ers := by
  unfold IM.saveEvents
  rw [saveLoop_congr hs cancelAt ers he hN 0 s hu]
  rfl

theorem im_saveEvents_upto {z : Serializer} {N : Nat} {s : IM.State} (hu : Upto N s) (st : Str)
    (expected cancelAt : Option Nat) (ers : List EventRecord) :
    Upto (N + ers.length) (IM.saveEvents z s st expected cancelAt ers).state := by
  have h := saveLoop_upto (z := z) st cancelAt ers 0 s hu [] [] expected [] [] 0
  unfold IM.saveEvents
  split
  · exact upto_mono hu (by omega)
  · split
    · exact upto_mono hu (by omega)
    · split <;> rename_i heq <;> rw [heq] at h <;> exact h

theorem deleteLoop_same (gsns : List Nat) : ∀ (s : IM.State),
    (IM.deleteLoop s gsns).1.gsn = s.gsn ∧ (IM.deleteLoop s gsns).1.streams = s.streams := by
  induction gsns with
  | nil => intro s; exact ⟨rfl, rfl⟩
  | cons x xs ih =>
    intro s
    have h1 : (deleteOne s x).1.gsn = s.gsn ∧ (deleteOne s x).1.streams = s.streams := by
      unfold deleteOne
      split <;> exact ⟨rfl, rfl⟩
    simp only [IM.deleteLoop]
    cases hd : deleteOne s x with
    | mk s' b =>
      rw [hd] at h1
      cases b with
      | true => exact h1
      | false =>
        have := ih s'
        exact ⟨this.1.trans h1.1, this.2.trans h1.2⟩

theorem im_delete_upto {N : Nat} {s : IM.State} (hu : Upto N s) (st : Str) (expected : Nat) (c : Bool) :
    Upto N (IM.deleteStream s st expected c).1 := by
  unfold IM.deleteStream
  split
  · exact hu
  · split
    · exact hu
    · split
      · exact hu
      · rename_i gsns _
        split
        · exact hu
        · have h := deleteLoop_same gsns s
          split
          · rename_i heq
            rw [heq] at h
            exact ⟨by rw [h.1]; exact hu.1, by rw [h.2]; exact hu.2⟩
          · rename_i heq
            rw [heq] at h
            refine ⟨by simp only; rw [h.1]; exact hu.1, ?_⟩
            simp only; rw [h.2]
            exact upto_get_setMap hu.2 _ _ (by simp)

theorem im_foldl_congr {ty : Types} (ops : List Op) : ∀ (N : Nat) (s : IM.State), Upto N s →
    (∀ op ∈ ops, GoodOp ty op) → N + (ops.map Op.size).sum < 2 ^ 64 →
    ops.foldl (IM.step (serializer ty)) s = ops.foldl (IM.step (goodZ ty)) s ∧
      Upto (N + (ops.map Op.size).sum) (ops.foldl (IM.step (goodZ ty)) s) := by
  induction ops with
  | nil => intro N s hu _ _; exact ⟨rfl, by simpa using hu⟩
  | cons op ops ih =>
    intro N s hu hg hb
    simp only [List.map_cons, List.sum_cons] at hb ⊢
    have h1 : IM.step (serializer ty) s op = IM.step (goodZ ty) s op ∧ Upto (N + op.size) (IM.step (goodZ ty) s op) := by
      have hgo := hg op (by simp)
      cases op with
      | save st expected cancelAt ers =>
        simp only [Op.size] at hb ⊢
        exact ⟨congrArg IM.SaveResult.state
            (im_saveEvents_congr hu hgo.1 expected cancelAt ers hgo.2 (by omega)),
          im_saveEvents_upto hu st expected cancelAt ers⟩
      | delete st expected c =>
        exact ⟨rfl, im_delete_upto hu st expected c⟩
    simp only [List.foldl_cons]
    rw [h1.1]
    have := ih (N + op.size) _ h1.2 (fun o ho => hg o (by simp [ho])) (by omega)
    exact ⟨this.1, by rw [← Nat.add_assoc]; exact this.2⟩

theorem upto_init : Upto 0 IM.init := ⟨Nat.le_refl _, fun _ => Nat.le_refl _⟩

/-- On histories of good events the in-memory store with the JSON serializer does what it does with the
restricted one. -/
theorem im_run_congr {ty : Types} (ops : List Op) (hg : ∀ op ∈ ops, GoodOp ty op)
    (hb : (ops.map Op.size).sum < 2 ^ 64) :
    IM.run (serializer ty) ops = IM.run (goodZ ty) ops ∧ Upto (ops.map Op.size).sum (IM.run (goodZ ty) ops) := by
  have := im_foldl_congr ops 0 IM.init upto_init hg (by simpa using hb)
  rw [Nat.zero_add] at this
  exact this

end

/-! ## LevelDB -/

section
open LD

/-- A serializer that accepts more does the same where the other accepts. -/
theorem ld_saveLoop_refine {z1 z2 : Serializer} (h : ∀ r b, z1.ser r = some b → z2.ser r = some b) (st : Str)
    (cancelAt : Option Nat) (ers : List EventRecord) :
    ∀ (i : Nat) (db : KV.DB) pt pi expected pending last,
      LD.saveLoop z1 st cancelAt i db pt pi expected pending last ers ≠ .error .serialize →
      LD.saveLoop z2 st cancelAt i db pt pi expected pending last ers =
        LD.saveLoop z1 st cancelAt i db pt pi expected pending last ers := by
  induction ers with
  | nil => intros; rfl
  | cons er ers ih =>
    intro i db pt pi expected pending last hne
    simp only [LD.saveLoop] at hne ⊢
    split
    · rfl
    · rename_i h1
      rw [if_neg h1] at hne
      split
      · rfl
      · rename_i h2
        rw [if_neg h2] at hne
        have hst : ∀ seq, LD.saveEvent.store z1 st er db seq ≠ .error .serialize →
            LD.saveEvent.store z2 st er db seq = LD.saveEvent.store z1 st er db seq := by
          intro seq hq
          unfold LD.saveEvent.store at hq ⊢
          simp only at hq ⊢
          cases hz : z1.ser (mkRecord st (getGlobalSequenceNumber db + 1) (seq + 1) er) with
          | none => rw [hz] at hq; simp at hq
          | some b => rw [h _ _ hz]
        have hev : LD.saveEvent z1 db st expected (ctxDone cancelAt i) er ≠ .error .serialize →
            LD.saveEvent z2 db st expected (ctxDone cancelAt i) er =
              LD.saveEvent z1 db st expected (ctxDone cancelAt i) er := by
          intro hq
          unfold LD.saveEvent at hq ⊢
          simp only at hq ⊢
          split
          · rfl
          · rename_i hc
            rw [if_neg hc] at hq
            cases expected with
            | none => exact hst _ hq
            | some e =>
              simp only at hq ⊢
              split
              · rfl
              · rename_i hx; rw [if_neg hx] at hq; exact hst _ hq
        have hq : LD.saveEvent z1 db st expected (ctxDone cancelAt i) er ≠ .error .serialize := by
          intro hq; rw [hq] at hne; simp at hne
        rw [hev hq]
        cases hse : LD.saveEvent z1 db st expected (ctxDone cancelAt i) er with
        | error e => rfl
        | ok p =>
          obtain ⟨db', data, seq⟩ := p
          rw [hse] at hne
          exact ih _ _ _ _ _ _ _ hne

theorem ld_saveEvents_refine {z1 z2 : Serializer} (h : ∀ r b, z1.ser r = some b → z2.ser r = some b)
    (hd : z1.deser = z2.deser) (s : LD.State) (st : Str) (expected cancelAt : Option Nat) (ers : List EventRecord)
    (hne : (LD.saveEvents z1 s st expected cancelAt ers).out ≠ .err .serialize) :
    LD.saveEvents z2 s st expected cancelAt ers = LD.saveEvents z1 s st expected cancelAt ers := by
  unfold LD.saveEvents at hne ⊢
  split
  · rfl
  · rename_i h1
    rw [if_neg h1] at hne
    split
    · rfl
    · rename_i h2
      rw [if_neg h2] at hne
      split
      · rfl
      · rename_i h3
        rw [if_neg h3] at hne
        have : LD.saveLoop z1 st cancelAt 0 s.db [] [] expected [] 0 ers ≠ .error .serialize := by
          intro hq; rw [hq] at hne; simp at hne
        rw [ld_saveLoop_refine h st cancelAt ers _ _ _ _ _ _ _ this]
        cases LD.saveLoop z1 st cancelAt 0 s.db [] [] expected [] 0 ers with
        | error e => rfl
        | ok p => obtain ⟨db, pending, last⟩ := p; simp only [hd]

theorem deleteLoop_deser {z1 z2 : Serializer} (hd : z1.deser = z2.deser) (l : KV.DB) :
    ∀ cnt batch, LD.deleteLoop z1 cnt batch l = LD.deleteLoop z2 cnt batch l := by
  induction l with
  | nil => intros; rfl
  | cons e l ih =>
    intro cnt batch
    obtain ⟨k, v⟩ := e
    simp only [LD.deleteLoop, hd]
    cases z2.deser v with
    | none => rfl
    | some r => exact ih _ _

theorem ld_delete_deser {z1 z2 : Serializer} (hd : z1.deser = z2.deser) (s : LD.State) (st : Str) (e : Nat) (c : Bool) :
    LD.deleteStream z1 s st e c = LD.deleteStream z2 s st e c := by
  unfold LD.deleteStream
  simp only [deleteLoop_deser hd]

theorem firstProblem_ser (ser : Record → Option Str) (st : Str) (cancelAt : Option Nat) (ers : List EventRecord) :
    ∀ gsn seq expected i prev j,
      firstProblem ser st cancelAt gsn seq expected i prev ers = some (j, .serialize) →
      ∃ k er, k < ers.length ∧ er ∈ ers ∧ ser (mkRecord st (gsn + 1 + k) (seq + 1 + k) er) = none := by
  induction ers with
  | nil => intro gsn seq expected i prev j h; simp [firstProblem] at h
  | cons er ers ih =>
    intro gsn seq expected i prev j h
    simp only [firstProblem] at h
    cases hp : problem (ser (mkRecord st (gsn + 1) (seq + 1) er)).isSome seq expected cancelAt i prev er with
    | none =>
      rw [hp] at h
      obtain ⟨k, er', hk, hm, hn⟩ := ih _ _ _ _ _ _ h
      exact ⟨k + 1, er', by simp; omega, by simp [hm], by
        rw [show gsn + 1 + (k + 1) = gsn + 1 + 1 + k by omega, show seq + 1 + (k + 1) = seq + 1 + 1 + k by omega]
        exact hn⟩
    | some e =>
      rw [hp] at h
      simp only [Option.some.injEq, Prod.mk.injEq] at h
      obtain ⟨_, rfl⟩ := h
      refine ⟨0, er, by simp, by simp, ?_⟩
      cases hs : ser (mkRecord st (gsn + 1) (seq + 1) er) with
      | none => rfl
      | some b =>
        exfalso
        rw [hs] at hp
        unfold problem at hp
        cases expected <;> simp at hp <;> (repeat' split at hp) <;> simp at hp

theorem pairwise_bound (l : List Nat) (n : Nat) (h : l.Pairwise (· < ·)) (hb : ∀ x ∈ l, 1 ≤ x ∧ x ≤ n) : l.length ≤ n := by
  have : ∀ (l : List Nat) (a : Nat), l.Pairwise (· < ·) → (∀ x ∈ l, a < x ∧ x ≤ n) → l.length ≤ n - a := by
    intro l
    induction l with
    | nil => intros; simp
    | cons x l ih =>
      intro a hp hx
      rw [List.pairwise_cons] at hp
      have h1 := hx x (by simp)
      have := ih x hp.2 (fun y hy => ⟨hp.1 y hy, (hx y (by simp [hy])).2⟩)
      simp; omega
  have := this l 0 h (fun x hx => by have := hb x hx; omega)
  omega

theorem streamLen_le_last {L : Log} (h : L.WF) (st : Str) : L.streamLen st ≤ L.last := by
  have h1 : L.streamLen st ≤ L.recs.length := by
    unfold Log.streamLen Log.stream; exact List.length_filter_le _ _
  have h2 := pairwise_bound (L.recs.map (·.gsn)) L.last (by rw [List.pairwise_map]; exact h.sorted) (by
    intro x hx
    simp only [List.mem_map] at hx
    obtain ⟨r, hr, rfl⟩ := hx
    exact h.bounded r hr)
  simp at h2
  omega

theorem batchProblem_good {ty : Types} {L : Log} (hL : L.WF) {st : Str} (hs : Valid st) (expected cancelAt : Option Nat)
    (ers : List EventRecord) (he : ∀ er ∈ ers, GoodEvent ty er) (hb : L.last + ers.length < 2 ^ 64) (j : Nat) :
    batchProblem (goodZ ty) L st expected cancelAt ers ≠ some (j, .serialize) := by
  intro h
  obtain ⟨k, er, hk, hm, hn⟩ := firstProblem_ser _ _ _ _ _ _ _ _ _ _ h
  have := streamLen_le_last hL st
  have h2 := goodZ_isSome (he er hm) hs (by omega : L.last + 1 + k < 2 ^ 64) (by omega : L.streamLen st + 1 + k < 2 ^ 64)
  rw [hn] at h2
  simp at h2

theorem goodZ_refines (ty : Types) : ∀ r b, (goodZ ty).ser r = some b → (serializer ty).ser r = some b := by
  intro r b h
  simp only [goodZ] at h
  split at h
  · exact h
  · simp at h

theorem ld_saveEvents_congr {ty : Types} (ops : List Op) (hn : ∀ op ∈ ops, op.NamesIn N) {st : Str} (hs : Valid st)
    (expected cancelAt : Option Nat) (ers : List EventRecord) (hno : (Op.save st expected cancelAt ers).NamesIn N)
    (he : ∀ er ∈ ers, GoodEvent ty er)
    (hb : (ops.map Op.size).sum + ers.length < 2 ^ 64) :
    LD.saveEvents (serializer ty) (LD.run (goodZ ty) ops) st expected cancelAt ers =
      LD.saveEvents (goodZ ty) (LD.run (goodZ ty) ops) st expected cancelAt ers := by
  refine ld_saveEvents_refine (goodZ_refines ty) rfl _ st expected cancelAt ers ?_
  obtain ⟨hsim, hle⟩ := run_simA (goodZ_lawful ty) ops hn (by omega)
  rw [((LD.C11_calls (goodZ_lawful ty) ops hn).1 st expected cancelAt ers hno hb).1]
  unfold aSaveOut
  split
  · simp
  · split
    · simp
    · have hw := hsim.wf
      split
      · simp
      · rename_i j e hp
        have := batchProblem_good (ty := ty) hw hs expected cancelAt ers he (by omega) j
        simp only [ne_eq, Outcome.err.injEq]
        rintro rfl
        exact this hp

theorem ld_run_congr_from {ty : Types} (post : List Op) : ∀ (pre : List Op),
    (∀ op ∈ pre ++ post, GoodOp ty op ∧ op.NamesIn N) → ((pre ++ post).map Op.size).sum < 2 ^ 64 →
    LD.run (serializer ty) pre = LD.run (goodZ ty) pre →
    LD.run (serializer ty) (pre ++ post) = LD.run (goodZ ty) (pre ++ post) := by
  induction post with
  | nil => intro pre _ _ h; simpa using h
  | cons op post ih =>
    intro pre hg hb h
    have h1 : LD.run (serializer ty) (pre ++ [op]) = LD.run (goodZ ty) (pre ++ [op]) := by
      have e : ∀ z, LD.run z (pre ++ [op]) = LD.step z (LD.run z pre) op := by
        intro z; simp [LD.run]
      rw [e, e, h]
      have hgo := hg op (by simp)
      cases op with
      | save st expected cancelAt ers =>
        simp only [LD.step]
        simp only [List.map_append, List.map_cons, List.sum_append, List.sum_cons, Op.size] at hb
        rw [ld_saveEvents_congr pre (fun o ho => (hg o (by simp [ho])).2) hgo.1.1 expected cancelAt ers hgo.2
          hgo.1.2 (by omega)]
      | delete st expected c =>
        simp only [LD.step]
        rw [ld_delete_deser (z1 := serializer ty) (z2 := goodZ ty) rfl]
    have := ih (pre ++ [op]) (by simpa using hg) (by simpa using hb) h1
    simpa using this

/-- On histories of good events LevelDB with the JSON serializer does what it does with the restricted one. -/
theorem ld_run_congr {ty : Types} (ops : List Op) (hg : ∀ op ∈ ops, GoodOp ty op) (hn : ∀ op ∈ ops, op.NamesIn N)
    (hb : (ops.map Op.size).sum < 2 ^ 64) : LD.run (serializer ty) ops = LD.run (goodZ ty) ops :=
  ld_run_congr_from ops [] (fun op h => ⟨hg op h, hn op h⟩) hb rfl

end

end RangeDB.Json

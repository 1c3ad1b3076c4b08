import Verif.Spec.RemoteHistoryLD
import Verif.Proof.RemoteHistory
import Verif.Proof.Reboot

/-!
# Proofs: a remote store in front of a LevelDB store, and a LevelDB store in the program
-/

namespace RangeDB.Rem

open RangeDB.Json RangeDB.Http

variable {N : Names}

theorem saveLD_congr {ty : Types} {s : LD.State} {A : AState} (h : LD.SimA N (goodZ ty) s A) {st : Str} (hs : Valid st)
    (expected cancelAt : Option Nat) (ers : List EventRecord) (hno : (Op.save st expected cancelAt ers).NamesIn N)
    (he : ∀ er ∈ ers, GoodEvent ty er) (hb : A.log.last + ers.length < 2 ^ 64) :
    LD.saveEvents (serializer ty) s st expected cancelAt ers = LD.saveEvents (goodZ ty) s st expected cancelAt ers := by
  refine ld_saveEvents_refine (goodZ_refines ty) rfl _ st expected cancelAt ers ?_
  rw [LD.simA_save (goodZ_lawful ty) h st expected cancelAt ers hno hb]
  unfold aSaveOut
  split
  · simp
  · split
    · simp
    · cases hp : batchProblem (goodZ ty) A.log st expected cancelAt ers with
      | none => simp
      | some x =>
        obtain ⟨j, e⟩ := x
        intro hx
        simp only [Outcome.err.injEq] at hx
        subst hx
        exact batchProblem_good h.wf hs expected cancelAt ers he hb j hp

theorem prefixLD_deser (ty : Types) (db : KV.DB) (n : Nat) (k : Str) : LD.getEventsByPrefix (serializer ty) db none k n =
    LD.getEventsByPrefix (goodZ ty) db none k n := by
  have hloop : ∀ (l : KV.DB) (m : Nat), LD.prefixLoop (serializer ty) none n m l =
      LD.prefixLoop (goodZ ty) none n m l := by
    intro l
    induction l with
    | nil => intro m; rfl
    | cons x l ih =>
      intro m
      simp only [LD.prefixLoop, ih]
      rfl
  simp only [LD.getEventsByPrefix, hloop]

theorem typesLD_deser (ty : Types) (s : LD.State) (g : Nat) (types : List Str) :
    LD.eventsByAggregateTypes (serializer ty) s (fun _ => none) g types =
      LD.eventsByAggregateTypes (goodZ ty) s (fun _ => none) g types := by
  unfold LD.eventsByAggregateTypes LD.getEventsByLookup
  simp only [ld_lookupLoop_deser]

/-- The server's store, with the data of all events in order. -/
def sentA (A : AState) : AState := { A with log := sentLog A.log }

/-- The LevelDB store of the server holds what the one in the program holds, with the data of the events in order; the same
writers hang. -/
structure PairLD (N : Names) (ty : Types) (fl : Str → Option Str) (sR sL : LD.State) (A : AState) (k : Nat) : Prop where
  server : LD.SimA N (goodZ unbound) sR (sentA A)
  here : LD.SimA N (goodZ ty) sL A
  last : A.log.last ≤ k
  back : ∀ r ∈ A.log.recs, toRecord ty fl (sent r) = some r ∧ Servable (sent r)

theorem pairLD_init (ty : Types) (fl : Str → Option Str) : PairLD N ty fl LD.init LD.init .init 0 where
  server := LD.simA_init
  here := LD.simA_init
  last := Nat.le_refl _
  back := by intro r hr; simp [AState.init, Log.empty] at hr

/-- What is wrong with a batch of one aggregate. -/
theorem problem_clean {ty : Types} {L : Log} (hw : L.WF) {st : Str} (hv : Valid st) (e : Option Nat)
    {ers : List EventRecord} (ho : OneAggregate ers) (hg : ∀ er ∈ ers, GoodEvent ty er) (hne : ers ≠ [])
    (hb : L.last + ers.length < 2 ^ 64) :
    batchProblem (goodZ ty) L st e none ers =
      match e with
      | none => none
      | some x => if x = L.streamLen st then none else some (0, .unexpected x (L.streamLen st)) := by
  obtain ⟨er, rest, rfl⟩ : ∃ er rest, ers = er :: rest := by
    cases ers with
    | nil => exact absurd rfl hne
    | cons a b => exact ⟨a, b, rfl⟩
  have hok : (∀ k, e = some k → k = L.streamLen st) → batchProblem (goodZ ty) L st e none (er :: rest) = none := fun he =>
    PG.batchProblem_plain hw hv hg (t := er.event.aggType) (i := er.event.aggId) (fun x hx => ho x hx er (by simp)) hb he
  cases e with
  | none => exact hok (by simp)
  | some x =>
    simp only
    split
    · rename_i hx; exact hok (fun k hk => by simp at hk; rw [← hk]; exact hx)
    · rename_i hx; exact PG.batchProblem_stale hne hx

theorem pairLD_step {other : Err → Str} (hq : Quiet other) {ty : Types} {fl : Str → Option Str} {sR sL : LD.State}
    {A : AState} {k : Nat} (h : PairLD N ty fl sR sL A k) (c : HCall) (hc : c.Clean ty fl) (hn : c.NamesIn N)
    (hk : k + c.size < 2 ^ 64) :
    (c.remoteLD other fl sR).2 = asClient (c.hereLD ty sL).2 ∧
    ∃ A', PairLD N ty fl (c.remoteLD other fl sR).1 (c.hereLD ty sL).1 A' (k + c.size) := by
  have hlast := h.last
  cases c with
  | save st e ers =>
    obtain ⟨hv, he, ho, hg⟩ := hc
    simp only [HCall.size] at hk ⊢
    by_cases hne : ers = []
    · subst hne
      exact ⟨rfl, A, h⟩
    · obtain ⟨q1, q2, q3, q4, _⟩ := C42_save_partial other hq (ldSave (serializer unbound)) fl sR st e ers hv hne ho
        (fun er her => (hg er her).1.sendable)
      have hne' : ers.map arrives ≠ [] := by simpa using hne
      have ho' : OneAggregate (ers.map arrives) := by
        intro a ha b hb
        obtain ⟨x, hx, rfl⟩ := List.mem_map.mp ha
        obtain ⟨y, hy, rfl⟩ := List.mem_map.mp hb
        exact ho x hx y hy
      have hg' : ∀ er ∈ ers.map arrives, GoodEvent unbound er := by
        intro er her
        obtain ⟨x, hx, rfl⟩ := List.mem_map.mp her
        exact (hg x hx).1.good
      have hnL : (Op.save st e none ers).NamesIn N := hn
      have hnR : (Op.save st e none (ers.map arrives)).NamesIn N := by
        refine ⟨hn.1, fun er her => ?_⟩
        obtain ⟨x, hx, rfl⟩ := List.mem_map.mp her
        exact hn.2 x hx
      have hbL : A.log.last + ers.length < 2 ^ 64 := by omega
      have hbR : (sentA A).log.last + (ers.map arrives).length < 2 ^ 64 := by simpa [sentA, sentLog] using hbL
      have cL := saveLD_congr h.here hv e none ers hnL (fun er her => (hg er her).2) hbL
      have cR := saveLD_congr h.server hv e none _ hnR hg' hbR
      have oL := LD.simA_save (goodZ_lawful ty) h.here st e none ers hnL hbL
      have oR := LD.simA_save (goodZ_lawful unbound) h.server st e none _ hnR hbR
      obtain ⟨sL', lL⟩ := LD.step_simA (goodZ_lawful ty) h.here (.save st e none ers) hnL hbL
      obtain ⟨sR', lR⟩ := LD.step_simA (goodZ_lawful unbound) h.server (.save st e none (ers.map arrives)) hnR hbR
      have pL := problem_clean h.here.wf hv e ho (fun er her => (hg er her).2) hne hbL
      have pR := problem_clean h.server.wf hv e ho' hg' hne' hbR
      have hsl : (sentA A).log.streamLen st = A.log.streamLen st := sentLog_streamLen _ _
      rw [hsl] at pR
      have hlen := streamLen_le_last h.here.wf st
      have hout : aSaveOut (goodZ unbound) (sentA A) st e none (ers.map arrives) = aSaveOut (goodZ ty) A st e none ers := by
        simp only [aSaveOut, if_neg hne, if_neg hne', pL, pR, hsl, List.length_map]
        rfl
      have hst : aStep (goodZ unbound) (sentA A) (.save st e none (ers.map arrives)) =
          sentA (aStep (goodZ ty) A (.save st e none ers)) := by
        simp only [aStep, if_neg hne, if_neg hne', pL, pR]
        cases hle : A.leaked with
        | true => simp [sentA, hle]
        | false =>
          have hle' : (sentA A).leaked = false := hle
          simp only [hle', Bool.false_eq_true, if_false]
          split
          · show AState.mk _ _ _ = AState.mk _ _ _
            congr 1
            exact sentLog_append A.log st ers
          · rfl
      simp only [ldSave, cR] at q1 q2 q3 q4
      rw [hst] at sR'
      simp only [LD.step] at sR' sL'
      refine ⟨?_, aStep (goodZ ty) A (.save st e none ers), ?_, ?_, ?_, ?_⟩
      · show (Rem.save other (ldSave (serializer unbound)) fl sR st e ers).2 = _
        simp only [HCall.hereLD, cL, oL]
        rw [oR, hout] at q2 q3 q4
        cases ho : aSaveOut (goodZ ty) A st e none ers with
        | ok n => exact (q2 n).mpr ho
        | err x =>
          have hx : ∃ y, e = some y ∧ x = .unexpected y (A.log.streamLen st) := by
            simp only [aSaveOut, if_neg hne, pL] at ho
            cases hle : A.leaked with
            | true => rw [hle] at ho; simp at ho
            | false =>
              rw [hle] at ho
              cases e with
              | none => simp at ho
              | some y =>
                by_cases hy : y = A.log.streamLen st
                · simp [hy] at ho
                · simp [hy] at ho; exact ⟨y, rfl, ho.symm⟩
          obtain ⟨y, rfl, rfl⟩ := hx
          exact q4 _ _ rfl (he y rfl) (by omega) ho
        | panic =>
          rw [ho] at q2 q3
          cases hr : (Rem.save other (ldSave (serializer unbound)) fl sR st e ers).2 with
          | ok n => exact absurd ((q2 n).mp hr) (by simp)
          | err x => exact absurd (q3.mp ⟨x, hr⟩) (by simp)
          | none => rfl
        | blocked =>
          rw [ho] at q2 q3
          cases hr : (Rem.save other (ldSave (serializer unbound)) fl sR st e ers).2 with
          | ok n => exact absurd ((q2 n).mp hr) (by simp)
          | err x => exact absurd (q3.mp ⟨x, hr⟩) (by simp)
          | none => rfl
      · show LD.SimA N _ (Rem.save other (ldSave (serializer unbound)) fl sR st e ers).1 _
        rw [q1]; exact sR'
      · simp only [HCall.hereLD, cL]; exact sL'
      · simp only [Op.size] at lL; omega
      · intro r hr
        simp only [aStep, if_neg hne] at hr
        split at hr
        · exact h.back r hr
        · split at hr
          · simp only [Log.append, show (goodZ ty).view = id from rfl, List.map_id, List.mem_append] at hr
            rcases hr with hr | hr
            · exact h.back r hr
            · exact numbered_back hv _ (fun er her => (hg er her).1) _ _ r hr
          · exact h.back r hr
  | delete st n =>
    obtain ⟨hv, hn64⟩ := hc
    simp only [HCall.size, Nat.add_zero] at hk ⊢
    obtain ⟨q1, q2, q3, q4, q5, _⟩ := C42_delete other hq (Srv.ldDelete (serializer unbound)) sR st n hv
    have hnL : (Op.delete st n false).NamesIn N := hn
    have cL : LD.deleteStream (serializer ty) sL st n false = LD.deleteStream (goodZ ty) sL st n false :=
      ld_delete_deser (z1 := serializer ty) (z2 := goodZ ty) rfl _ _ _ _
    have cR : LD.deleteStream (serializer unbound) sR st n false = LD.deleteStream (goodZ unbound) sR st n false :=
      ld_delete_deser (z1 := serializer unbound) (z2 := goodZ unbound) rfl _ _ _ _
    have oL := LD.simA_delete h.here st n false hn
    have oR := LD.simA_delete h.server st n false hn
    obtain ⟨sL', lL⟩ := LD.step_simA (goodZ_lawful ty) h.here (.delete st n false) hnL
      (by simp only [Op.size]; omega)
    obtain ⟨sR', lR⟩ := LD.step_simA (goodZ_lawful unbound) h.server (.delete st n false) hnL
      (by show A.log.last + 0 < _; omega)
    have hsl : (sentA A).log.streamLen st = A.log.streamLen st := sentLog_streamLen _ _
    have hlen := streamLen_le_last h.here.wf st
    have hout : aDeleteOut (sentA A) st n false = aDeleteOut A st n false := by
      simp only [aDeleteOut, hsl]; rfl
    have hst : aStep (goodZ unbound) (sentA A) (.delete st n false) = sentA (aStep (goodZ ty) A (.delete st n false)) := by
      simp only [aStep, hsl, Bool.false_eq_true, if_false]
      cases hle : A.leaked with
      | true => simp [sentA, hle]
      | false =>
        have hle' : (sentA A).leaked = false := hle
        simp only [hle', Bool.false_eq_true, if_false]
        split
        · rfl
        · show AState.mk _ _ _ = AState.mk _ _ _
          congr 1
          exact sentLog_delete A.log st
    simp only [Srv.ldDelete, cR] at q1 q2 q3 q4 q5
    rw [hst] at sR'
    simp only [LD.step] at sR' sL'
    refine ⟨?_, aStep (goodZ ty) A (.delete st n false), ?_, ?_, ?_, ?_⟩
    · simp only [HCall.remoteLD, HCall.hereLD, cL, oL]
      rw [oR, hout] at q2 q3 q4 q5
      cases ho : aDeleteOut A st n false with
      | ok u => rw [q2.mpr ho]; rfl
      | err x =>
        have hx : x = .notFound ∨ x = .unexpected n (A.log.streamLen st) := by
          simp only [aDeleteOut, Bool.false_eq_true, if_false] at ho
          repeat' split at ho
          all_goals simp at ho
          · exact Or.inl ho.symm
          · exact Or.inr ho.symm
        rcases hx with rfl | rfl
        · rw [q4.mpr ho]; rfl
        · rw [q5 _ _ hn64 (by omega) ho]; rfl
      | panic =>
        rw [ho] at q2 q3
        cases hr : (Rem.delete other (Srv.ldDelete (serializer unbound)) sR st n).2 with
        | ok u => exact absurd (q2.mp hr) (by simp)
        | err x => exact absurd (q3.mp ⟨x, hr⟩) (by simp)
        | none => rfl
      | blocked =>
        rw [ho] at q2 q3
        cases hr : (Rem.delete other (Srv.ldDelete (serializer unbound)) sR st n).2 with
        | ok u => exact absurd (q2.mp hr) (by simp)
        | err x => exact absurd (q3.mp ⟨x, hr⟩) (by simp)
        | none => rfl
    · simp only [HCall.remoteLD]
      rw [q1]; exact sR'
    · simp only [HCall.hereLD, cL]; exact sL'
    · simp only [Op.size] at lL; omega
    · intro r hr
      refine h.back r ?_
      simp only [aStep] at hr
      repeat' split at hr
      all_goals first
        | exact hr
        | exact (List.mem_filter.mp hr).1

theorem pairLD_run {other : Err → Str} (hq : Quiet other) {ty : Types} {fl : Str → Option Str} (calls : List HCall) :
    ∀ {sR sL : LD.State} {A : AState} {k : Nat}, PairLD N ty fl sR sL A k → (∀ c ∈ calls, c.Clean ty fl ∧ c.NamesIn N) →
      k + (calls.map HCall.size).sum < 2 ^ 64 →
      ∃ A', PairLD N ty fl (calls.foldl (fun s c => (c.remoteLD other fl s).1) sR)
        (calls.foldl (fun s c => (c.hereLD ty s).1) sL) A' (k + (calls.map HCall.size).sum) := by
  induction calls with
  | nil => intro sR sL A k h _ _; exact ⟨A, h⟩
  | cons c calls ih =>
    intro sR sL A k h hc hk
    simp only [List.map_cons, List.sum_cons] at hk ⊢
    obtain ⟨_, A', h'⟩ := pairLD_step hq h c (hc c (by simp)).1 (hc c (by simp)).2 (by omega)
    rw [← Nat.add_assoc]
    exact ih h' (fun x hx => hc x (by simp [hx])) (by omega)

end RangeDB.Rem

import Verif.Spec.ValidWrite
import Verif.Model.InMemory

/-! # Lemmas for `Thm/ValidWrite.lean` -/

namespace RangeDB

variable {z : Serializer}

theorem firstProblem_valid (st t i : Str) : ∀ (ers : List EventRecord) (gsn seq : Nat) (expected : Option Nat) (k : Nat)
    (prev : Option EventRecord), (∀ er ∈ ers, er.event.aggType = t ∧ er.event.aggId = i) →
    (∀ er ∈ ers, ∀ g q, (z.ser (mkRecord st g q er)).isSome) → Right expected seq →
    (∀ p, prev = some p → p.event.aggType = t ∧ p.event.aggId = i) →
    firstProblem z.ser st none gsn seq expected k prev ers = none
  | [], _, _, _, _, _, _, _, _, _ => rfl
  | er :: ers, gsn, seq, expected, k, prev, ho, ha, he, hp => by
    have h1 := ho er (by simp)
    have h2 := ha er (by simp) (gsn + 1) (seq + 1)
    have hd : differs Event.aggType prev er = false ∧ differs Event.aggId prev er = false := by
      cases prev with
      | none => exact ⟨rfl, rfl⟩
      | some p =>
        obtain ⟨h3, h4⟩ := hp p rfl
        simp [differs, h1, h3, h4]
    have ih := firstProblem_valid st t i ers (gsn + 1) (seq + 1) (expected.map (· + 1)) (k + 1) (some er)
      (fun x hx => ho x (by simp [hx])) (fun x hx => ha x (by simp [hx]))
      (by rcases he with rfl | rfl
          · exact .inl rfl
          · exact .inr rfl)
      (by rintro p ⟨⟩; exact h1)
    unfold firstProblem
    have hn : problem (z.ser (mkRecord st (gsn + 1) (seq + 1) er)).isSome seq expected none k prev er = none := by
      unfold problem
      rw [hd.1, hd.2, h2]
      rcases he with rfl | rfl <;> simp [ctxDone]
    rw [hn]
    exact ih

theorem batchProblem_valid {L : Log} {st : Str} {expected : Option Nat} {ers : List EventRecord} (h : ValidBatch z st ers)
    (he : Right expected (L.streamLen st)) : batchProblem z L st expected none ers = none := by
  obtain ⟨t, i, ho⟩ := h.one
  exact firstProblem_valid st t i ers L.last _ expected 0 none ho h.accepted he (by simp)

namespace IM

theorem store_ok (s : State) (st : Str) (expected : Option Nat) (er : EventRecord) (he : Right expected (streamSeq s st))
    (ha : ∀ g q, (z.ser (mkRecord st g q er)).isSome) :
    ∃ s' data r, saveEvent z s st expected er = (s', .ok (data, r)) ∧ r.seq = streamSeq s st + 1 ∧
      streamSeq s' st = streamSeq s st + 1 := by
  obtain ⟨data, hd⟩ := Option.isSome_iff_exists.mp (ha (s.gsn + 1) (streamSeq s st + 1))
  have hs : saveEvent z s st expected er = saveEvent.store z s st (streamSeq s st) er := by
    rcases he with rfl | rfl
    · rfl
    · simp [saveEvent]
  rw [hs]
  simp only [saveEvent.store, hd]
  refine ⟨_, _, _, rfl, rfl, ?_⟩
  simp [streamSeq, IM.get, setMap]

theorem saveLoop_valid (st t i : Str) : ∀ (ers : List EventRecord) (k : Nat) (s : State) (pt pi : Str) (expected : Option Nat)
    (created : List Nat) (pending : List Str) (last : Nat), (∀ er ∈ ers, er.event.aggType = t ∧ er.event.aggId = i) →
    (∀ er ∈ ers, ∀ g q, (z.ser (mkRecord st g q er)).isSome) → Right expected (streamSeq s st) →
    (pt = [] ∨ pt = t) → (pi = [] ∨ pi = i) → (ers = [] → last = streamSeq s st) →
    ∃ s' pend, saveLoop z st none k s pt pi expected created pending last ers = (s', .ok (streamSeq s st + ers.length, pend))
  | [], k, s, pt, pi, expected, created, pending, last, _, _, _, _, _, hl => by
    rw [hl rfl]
    exact ⟨s, pending, rfl⟩
  | er :: ers, k, s, pt, pi, expected, created, pending, last, ho, ha, he, ht, hi, _ => by
    have h1 := ho er (by simp)
    obtain ⟨s1, data, r, hs, hr, hq⟩ := store_ok s st expected er he (ha er (by simp))
    have c1 : ¬ (pt ≠ [] ∧ pt ≠ er.event.aggType) := by rw [h1.1]; rintro ⟨a, b⟩; exact ht.elim a b
    have c2 : ¬ (pi ≠ [] ∧ pi ≠ er.event.aggId) := by rw [h1.2]; rintro ⟨a, b⟩; exact hi.elim a b
    obtain ⟨s', pend, h⟩ := saveLoop_valid st t i ers (k + 1) s1 er.event.aggType er.event.aggId (expected.map (· + 1))
      (created ++ [r.gsn]) (pending ++ [data]) r.seq (fun x hx => ho x (by simp [hx])) (fun x hx => ha x (by simp [hx]))
      (by rw [hq]
          rcases he with rfl | rfl
          · exact .inl rfl
          · exact .inr rfl)
      (.inr h1.1) (.inr h1.2) (fun _ => by rw [hr, hq])
    refine ⟨s', pend, ?_⟩
    simp only [saveLoop]
    rw [if_neg c1, if_neg c2, if_neg (by simp [ctxDone]), hs]
    simp only []
    rw [h, hq]
    simp only [List.length_cons]
    congr 3
    omega

end IM

end RangeDB

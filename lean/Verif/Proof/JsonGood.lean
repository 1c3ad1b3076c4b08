import Verif.Proof.JsonStore

/-! # What the stores hold with the JSON serializer: good records only -/

namespace RangeDB.Json

theorem goodZ_some {ty : Types} {r : Record} {b : Str} (h : (goodZ ty).ser r = some b) : Good ty r := by
  simp only [goodZ] at h
  split at h
  · assumption
  · simp at h

/-! ## In-memory store -/

/-- All that is stored was serialized. -/
def Stored (z : Serializer) (s : IM.State) : Prop := ∀ id b, s.data id = some b → ∃ r, z.ser r = some b

theorem stored_set {z : Serializer} {s : IM.State} (h : Stored z s) (g : Nat) (v : Option Str)
    (hv : ∀ b, v = some b → ∃ r, z.ser r = some b) :
    ∀ id b, IM.setMap s.data g v id = some b → ∃ r, z.ser r = some b := by
  intro id b hb
  simp only [IM.setMap] at hb
  split at hb
  · exact hv b hb
  · exact h id b hb

theorem stored_saveEvent {z : Serializer} {s : IM.State} (h : Stored z s) (st : Str) (expected : Option Nat)
    (er : EventRecord) : Stored z (IM.saveEvent z s st expected er).1 := by
  have hst : ∀ q, Stored z (IM.saveEvent.store z s st q er).1 := by
    intro q
    unfold IM.saveEvent.store
    simp only []
    cases hz : z.ser (mkRecord st (s.gsn + 1) (q + 1) er) with
    | none => exact h
    | some b => exact stored_set h _ _ (fun b' hb' => ⟨_, by rw [hz, ← hb']⟩)
  unfold IM.saveEvent
  simp only []
  cases expected with
  | none => exact hst _
  | some e =>
    simp only []
    split
    · exact h
    · exact hst _

theorem stored_removed {z : Serializer} (gsns : List Nat) : ∀ (d : Nat → Option Str),
    (∀ id b, d id = some b → ∃ r, z.ser r = some b) →
    ∀ id b, gsns.foldl (fun d g => IM.setMap d g none) d id = some b → ∃ r, z.ser r = some b := by
  induction gsns with
  | nil => intro d h; exact h
  | cons g gs ih =>
    intro d h
    refine ih _ ?_
    intro id b hb
    simp only [IM.setMap] at hb
    split at hb
    · simp at hb
    · exact h id b hb

theorem stored_removeRecent {z : Serializer} {s : IM.State} (h : Stored z s) (gsns : List Nat) (t i : Str) :
    Stored z (IM.removeRecentEvents s gsns t i).1 := by
  have := stored_removed (z := z) gsns s.data h
  unfold IM.removeRecentEvents
  simp only []
  split
  · exact this
  · split
    · exact this
    · split <;> exact this

theorem stored_saveLoop {z : Serializer} (st : Str) (cancelAt : Option Nat) (ers : List EventRecord) :
    ∀ (i : Nat) (s : IM.State) (pt pi : Str) (expected : Option Nat) (created : List Nat) (pending : List Str)
      (last : Nat), Stored z s →
      Stored z (IM.saveLoop z st cancelAt i s pt pi expected created pending last ers).1 := by
  induction ers with
  | nil => intro i s pt pi expected created pending last h; exact h
  | cons er ers ih =>
    intro i s pt pi expected created pending last h
    unfold IM.saveLoop
    by_cases h1 : pt ≠ [] ∧ pt ≠ er.event.aggType
    · rw [if_pos h1]; exact h
    rw [if_neg h1]
    by_cases h2 : pi ≠ [] ∧ pi ≠ er.event.aggId
    · rw [if_pos h2]; exact h
    rw [if_neg h2]
    by_cases h3 : ctxDone cancelAt i = true
    · rw [if_pos h3]; exact h
    rw [if_neg h3]
    have he := stored_saveEvent h st expected er
    rcases hs : IM.saveEvent z s st expected er with ⟨s1, r⟩
    rw [hs] at he
    cases r with
    | error e =>
      simp only []
      have hr := stored_removeRecent he created er.event.aggType er.event.aggId
      rcases hq : IM.removeRecentEvents s1 created er.event.aggType er.event.aggId with ⟨s2, p⟩
      rw [hq] at hr
      cases p <;> exact hr
    | ok p => exact ih _ _ _ _ _ _ _ _ he

theorem stored_deleteLoop {z : Serializer} (gsns : List Nat) : ∀ (s : IM.State), Stored z s →
    Stored z (IM.deleteLoop s gsns).1 := by
  induction gsns with
  | nil => intro s h; exact h
  | cons x xs ih =>
    intro s h
    unfold IM.deleteLoop IM.deleteOne
    cases IM.removeAll x s.records with
    | none => exact h
    | some records =>
      simp only []
      refine ih _ ?_
      intro id b hb
      simp only [] at hb
      split at hb
      · exact stored_set h _ _ (fun _ hx => by simp at hx) id b hb
      · exact h id b hb

theorem stored_save {z : Serializer} {s : IM.State} (h : Stored z s) (st : Str) (expected cancelAt : Option Nat)
    (ers : List EventRecord) : Stored z (IM.saveEvents z s st expected cancelAt ers).state := by
  unfold IM.saveEvents
  split
  · exact h
  · split
    · exact h
    · have := stored_saveLoop (z := z) st cancelAt ers 0 s [] [] expected [] [] 0 h
      split <;> rename_i heq <;> rw [heq] at this <;> exact this

theorem stored_step {z : Serializer} {s : IM.State} (h : Stored z s) (op : Op) : Stored z (IM.step z s op) := by
  cases op with
  | save st expected cancelAt ers => exact stored_save h st expected cancelAt ers
  | delete st expected c =>
    simp only [IM.step, IM.deleteStream]
    split
    · exact h
    · split
      · exact h
      · split
        · exact h
        · split
          · exact h
          · rename_i gsns _ _
            have := stored_deleteLoop (z := z) gsns s h
            split <;> rename_i heq <;> rw [heq] at this <;> exact this

theorem stored_run (z : Serializer) (ops : List Op) : Stored z (IM.run z ops) := by
  have : ∀ (ops : List Op) (s : IM.State), Stored z s → Stored z (ops.foldl (IM.step z) s) := by
    intro ops
    induction ops with
    | nil => intro s h; exact h
    | cons op ops ih => intro s h; exact ih _ (stored_step h op)
  exact this ops IM.init (by intro id b hb; simp [IM.init] at hb)

theorem stored_recordsByIDs {ty : Types} {s : IM.State} (h : Stored (goodZ ty) s) (c : Option Nat)
    (keep : Record → Bool) (ids : List Nat) :
    ∀ n, ∀ r ∈ (IM.recordsByIDs (goodZ ty) s c keep n ids).recs, Good ty r := by
  induction ids with
  | nil => intro n r hr; simp [IM.recordsByIDs] at hr
  | cons id ids ih =>
    intro n r hr
    unfold IM.recordsByIDs at hr
    cases hd : s.data id with
    | none => simp [hd] at hr
    | some b =>
      simp only [hd] at hr
      obtain ⟨r0, hr0⟩ := h id b hd
      have hz := (goodZ_lawful ty).roundTrip r0 b hr0
      have : (goodZ ty).view r0 = r0 := rfl
      rw [hz, this] at hr
      simp only [] at hr
      split at hr
      · split at hr
        · simp at hr
        · rcases List.mem_cons.mp hr with hr | hr
          · subst hr; exact goodZ_some hr0
          · exact ih _ r hr
      · exact ih _ r hr

/-- What the in-memory store returns is good. -/
theorem im_events_good {ty : Types} {s : IM.State} (h : Stored (goodZ ty) s) (c : Option Nat) (g : Nat) :
    ∀ r ∈ (IM.events (goodZ ty) s c g).recs, Good ty r := stored_recordsByIDs h c _ _ 0

/-! ## The specified log, which LevelDB refines -/

theorem problem_none {accepts : Bool} {len : Nat} {expected cancelAt : Option Nat} {i : Nat}
    {prev : Option EventRecord} {er : EventRecord} (h : problem accepts len expected cancelAt i prev er = none) :
    accepts = true := by
  unfold problem at h
  cases accepts with
  | true => rfl
  | false =>
    cases expected with
    | none => repeat' (first | assumption | (split at h) | (simp at h; done))
    | some e => repeat' (first | assumption | (split at h) | (simp at h; done))

theorem firstProblem_none {ser : Record → Option Str} {st : Str} {cancelAt : Option Nat} (ers : List EventRecord) :
    ∀ {g q : Nat} {expected : Option Nat} {i : Nat} {prev : Option EventRecord},
      firstProblem ser st cancelAt g q expected i prev ers = none → ∀ r ∈ numbered st g q ers, (ser r).isSome := by
  induction ers with
  | nil => intro g q expected i prev _ r hr; simp [numbered] at hr
  | cons er ers ih =>
    intro g q expected i prev h r hr
    simp only [firstProblem] at h
    cases hp : problem (ser (mkRecord st (g + 1) (q + 1) er)).isSome q expected cancelAt i prev er with
    | some e => simp [hp] at h
    | none =>
      simp only [hp] at h
      rcases List.mem_cons.mp hr with hr | hr
      · subst hr; exact problem_none hp
      · exact ih h r hr

theorem aStep_good {ty : Types} {A : AState} (h : ∀ r ∈ A.log.recs, Good ty r) (op : Op) :
    ∀ r ∈ (aStep (goodZ ty) A op).log.recs, Good ty r := by
  cases op with
  | save st expected cancelAt ers =>
    simp only [aStep]
    split
    · exact h
    · split
      · exact h
      · cases hb : batchProblem (goodZ ty) A.log st expected cancelAt ers with
        | some e => exact h
        | none =>
          simp only [Log.append]
          intro r hr
          rw [List.mem_append] at hr
          rcases hr with hr | hr
          · exact h r hr
          · have e : (goodZ ty).view = id := rfl
            rw [e, List.map_id] at hr
            have := firstProblem_none ers hb r hr
            obtain ⟨b, hb⟩ := Option.isSome_iff_exists.mp this
            exact goodZ_some hb
  | delete st expected c =>
    simp only [aStep]
    split
    · exact h
    · split
      · exact h
      · split
        · exact h
        · intro r hr
          exact h r (List.mem_filter.mp hr).1

theorem aRun_good (ty : Types) (ops : List Op) : ∀ r ∈ (aRun (goodZ ty) ops).log.recs, Good ty r := by
  have : ∀ (ops : List Op) (A : AState), (∀ r ∈ A.log.recs, Good ty r) →
      ∀ r ∈ (ops.foldl (aStep (goodZ ty)) A).log.recs, Good ty r := by
    intro ops
    induction ops with
    | nil => intro A h; exact h
    | cons op ops ih => intro A h; exact ih _ (aStep_good h op)
  exact this ops AState.init (by simp [AState.init, Log.empty])

end RangeDB.Json

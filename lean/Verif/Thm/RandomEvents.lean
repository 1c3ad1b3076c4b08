import Verif.Model.RandomEvents
import Verif.Thm.Constants

/-!
# The command gen-random-events saves the number of events asked for (C121)
-/

namespace RangeDB.Rnd

/-! ## Specification -/

/-- The events that were saved. -/
def savedEvents (bs : List Batch) : Nat := (bs.map (·.size)).sum

/-- What the random source may return: `rand.Intn(max)` is below `max`. -/
def Drawn (maxPerStream : Nat) (ds : List Draw) : Prop := ∀ d ∈ ds, d.intn < maxPerStream

/-- The full statement of **C121**: when the program has ended it has saved as many events as was asked for. -/
def C121_full : Prop :=
  ∀ (m : Nat) (ty : Str) (wanted : Nat) (ds : List Draw), Drawn m ds →
    (program m ty wanted ds).2 = .done → savedEvents (program m ty wanted ds).1 = wanted

/-! ## Proofs -/

theorem loop_done (m : Nat) (ty : Str) (wanted : Nat) (hw : wanted + m < 2 ^ 64) :
    ∀ (ds : List Draw) (total : Nat), Drawn m ds → (total < wanted ∨ total = 0) →
      (loop m ty wanted total ds).2 = .done →
      wanted ≤ total + savedEvents (loop m ty wanted total ds).1 ∧
      total + savedEvents (loop m ty wanted total ds).1 < max wanted 1 + m ∧
      (loop m ty wanted total ds).1 ≠ [] := by
  intro ds
  induction ds with
  | nil => intro total _ _ h; simp [loop] at h
  | cons d ds ih =>
    intro total hd ht h
    have hdm := hd d (by simp)
    simp only [loop] at h ⊢
    rw [if_neg (by omega)] at h ⊢
    cases ha : aggregateOf ty with
    | none => rw [ha] at h; simp at h
    | some t =>
      rw [ha] at h
      simp only at h ⊢
      by_cases hs : d.saved = true
      · rw [if_pos hs] at h ⊢
        have hmod : (total + (d.intn + 1)) % 2 ^ 64 = total + (d.intn + 1) := Nat.mod_eq_of_lt (by omega)
        rw [hmod] at h ⊢
        by_cases hle : wanted ≤ total + (d.intn + 1)
        · rw [if_pos hle]
          simp only [savedEvents, List.map_cons, List.map_nil, List.sum_cons, List.sum_nil]
          refine ⟨by omega, by omega, by simp⟩
        · rw [if_neg hle] at h ⊢
          simp only at h
          obtain ⟨i1, i2, _⟩ := ih (total + (d.intn + 1)) (fun x hx => hd x (List.mem_cons_of_mem _ hx)) (Or.inl (by omega)) h
          simp only [savedEvents, List.map_cons, List.sum_cons] at i1 i2 ⊢
          refine ⟨by omega, by omega, by simp⟩
      · rw [if_neg hs] at h; simp at h

/-- **C121**, partial: the program saves at least as many events as asked for, and fewer than one stream more. Missing: it
does not stop in the middle of a stream (`C121_false`), and it saves a stream even if no events were asked for
(`C121_zero`). -/
theorem C121_partial (m : Nat) (ty : Str) (wanted : Nat) (ds : List Draw) (hw : wanted + m < 2 ^ 64) (hd : Drawn m ds)
    (h : (program m ty wanted ds).2 = .done) :
    wanted ≤ savedEvents (program m ty wanted ds).1 ∧
    savedEvents (program m ty wanted ds).1 < max wanted 1 + m ∧ (program m ty wanted ds).1 ≠ [] := by
  have := loop_done m ty wanted hw ds 0 hd (Or.inr rfl) h
  simpa [program] using this

/-- **C121**, and it comes to an end if the server saves: after as many rounds as events were asked for it has ended. -/
theorem C121_ends (m : Nat) (ty t : Str) (wanted : Nat) (ds : List Draw) (hw : wanted + m < 2 ^ 64) (hm : 0 < m)
    (ht : aggregateOf ty = some t) (hd : Drawn m ds) (hs : ∀ d ∈ ds, d.saved = true) (hl : wanted ≤ ds.length)
    (hne : ds ≠ []) : (program m ty wanted ds).2 = .done := by
  have key : ∀ (ds : List Draw) (total : Nat), Drawn m ds → (∀ d ∈ ds, d.saved = true) → wanted ≤ total + ds.length →
      ds ≠ [] → (total < wanted ∨ total = 0) → (loop m ty wanted total ds).2 = .done := by
    intro ds
    induction ds with
    | nil => intro _ _ _ _ h; exact absurd rfl h
    | cons d ds ih =>
      intro total hd hs hl _ htot
      have hdm := hd d (by simp)
      simp only [List.length_cons] at hl
      simp only [loop]
      rw [if_neg (by omega), ht]
      simp only
      rw [if_pos (hs d (by simp))]
      have hmod : (total + (d.intn + 1)) % 2 ^ 64 = total + (d.intn + 1) := Nat.mod_eq_of_lt (by omega)
      rw [hmod]
      by_cases hle : wanted ≤ total + (d.intn + 1)
      · rw [if_pos hle]
      · rw [if_neg hle]
        refine ih _ (fun x hx => hd x (List.mem_cons_of_mem _ hx)) (fun x hx => hs x (List.mem_cons_of_mem _ hx)) (by omega)
          ?_ (Or.inl (by omega))
        intro e
        rw [e] at hl
        simp only [List.length_nil] at hl
        omega
  exact key ds 0 hd hs (by omega) hne (Or.inr rfl)

/-- **C121**, the streams: every batch goes to the stream of the event's aggregate type with a new ID, in the order of the
rounds, and holds between one event and the limit. -/
theorem C121_streams (m : Nat) (ty t : Str) (wanted : Nat) (ds : List Draw) (hm : 0 < m) (ht : aggregateOf ty = some t)
    (hd : Drawn m ds) :
    (∀ b ∈ (program m ty wanted ds).1, 1 ≤ b.size ∧ b.size ≤ m) ∧
    (program m ty wanted ds).1.map (·.stream) <+: ds.map (fun d => getStream t d.id) := by
  have key : ∀ (ds : List Draw) (total : Nat), Drawn m ds →
      (∀ b ∈ (loop m ty wanted total ds).1, 1 ≤ b.size ∧ b.size ≤ m) ∧
      (loop m ty wanted total ds).1.map (·.stream) <+: ds.map (fun d => getStream t d.id) := by
    intro ds
    induction ds with
    | nil => intro total _; simp [loop]
    | cons d ds ih =>
      intro total hd
      have hdm := hd d (by simp)
      simp only [loop]
      rw [if_neg (by omega), ht]
      simp only
      split
      · split
        · refine ⟨fun b hb => ?_, by simp⟩
          obtain rfl := List.mem_singleton.mp hb
          exact ⟨by simp, by simp only; omega⟩
        · obtain ⟨h1, h2⟩ := ih ((total + (d.intn + 1)) % 2 ^ 64) (fun x hx => hd x (List.mem_cons_of_mem _ hx))
          refine ⟨fun b hb => ?_, ?_⟩
          · rcases List.mem_cons.mp hb with rfl | hb
            · exact ⟨by simp, by simp only; omega⟩
            · exact h1 b hb
          · simpa using h2
      · simp
  exact key ds 0 hd

/-- **C121**, what is refused: a limit below one panics, and a type that is not known ends the program, before anything is
saved. -/
theorem C121_refused (m : Int) (ty : Str) (wanted : Nat) (d : Draw) (ds : List Draw) :
    (m ≤ 0 → program m ty wanted (d :: ds) = ([], .panicked)) ∧
    (0 < m → aggregateOf ty = none → program m ty wanted (d :: ds) = ([], .fatal)) := by
  refine ⟨fun h => ?_, fun h ha => ?_⟩
  · simp [program, loop, h]
  · simp [program, loop, ha, Int.not_le.mpr h]

/-- **C121** is false: seven events when five were asked for. -/
theorem C121_false : ¬ C121_full := by
  intro h
  have := h 10 (bytes "ThingWasDone") 5 [⟨6, bytes "a", [], true⟩] (by intro d hd; simp at hd; subst hd; simp) (by decide)
  revert this
  decide

/-- **C121**, with `-total 0` a stream is saved all the same. -/
theorem C121_zero : program 10 (bytes "ThingWasDone") 0 [⟨3, bytes "a", [], true⟩] =
    ([⟨bytes "thing!a", 4⟩], .done) := by decide

/-- The three types. -/
theorem C121_types (ty : Str) : (aggregateOf ty).isSome = true ↔
    ty ∈ [bytes "AnotherWasComplete", bytes "ThatWasDone", bytes "ThingWasDone"] := by
  have h1 : bytes "AnotherWasComplete" =
      [65, 110, 111, 116, 104, 101, 114, 87, 97, 115, 67, 111, 109, 112, 108, 101, 116, 101] := by decide
  have h2 : bytes "ThatWasDone" = [84, 104, 97, 116, 87, 97, 115, 68, 111, 110, 101] := by decide
  have h3 : bytes "ThingWasDone" = [84, 104, 105, 110, 103, 87, 97, 115, 68, 111, 110, 101] := by decide
  rw [h1, h2, h3]
  unfold aggregateOf
  simp only [List.mem_cons, List.not_mem_nil, or_false]
  split
  · simp_all
  · split
    · simp_all
    · split <;> simp_all

example : Drawn 10 [⟨6, bytes "a", [], true⟩, ⟨0, bytes "b", [], true⟩] ∧
    program 10 (bytes "ThatWasDone") 8 [⟨6, bytes "a", [], true⟩, ⟨0, bytes "b", [], true⟩] =
      ([⟨bytes "that!a", 7⟩, ⟨bytes "that!b", 1⟩], .done) := by
  refine ⟨?_, by decide⟩
  intro d hd
  simp at hd
  rcases hd with rfl | rfl <;> simp

end RangeDB.Rnd

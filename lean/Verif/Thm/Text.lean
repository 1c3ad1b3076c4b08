import Verif.Proof.Text

/-!
# Theorems: error texts and stream names (C36, C37)
-/

namespace RangeDB.Txt

/-- **C36.** The client-side parse of the server's text of `UnexpectedSequenceNumber{e, a}` gives the
same numbers back, for all 64-bit numbers, whatever text without the marker "unexpected sequence
number:" stands in front (the server and gRPC both put some there). -/
theorem C36_error_text (e a : Nat) (he : e < 2 ^ 64) (ha : a < 2 ^ 64) (pre : Str)
    (hpre : ¬ marker <:+: pre) : parseUnexpected (pre ++ unexpectedText e a) = (e, a) := by
  have hc : cut marker pre = none := by
    rw [cut_none]
    intro x y hxy
    exact hpre ⟨x, y, hxy.symm⟩
  have e0 : pre ++ unexpectedText e a = pre ++ marker
      ++ ([32] ++ Dec.natText e ++ [44, 32] ++ actualText ++ [32] ++ Dec.natText a) := by
    simp [unexpectedText]
  unfold parseUnexpected
  rw [e0, split_some (by decide) (cut_marker pre _ hc), split_none (cut_marker_none (no_q_numbers e a))]
  simp only [sscanf_text e a he ha, Option.getD_some]

/-- Two such errors with the same text are the same error. -/
theorem C36_text_injective (e a e' a' : Nat) (he : e < 2 ^ 64) (ha : a < 2 ^ 64) (he' : e' < 2 ^ 64)
    (ha' : a' < 2 ^ 64) (h : unexpectedText e a = unexpectedText e' a') : e = e' ∧ a = a' := by
  have h0 : ¬ marker <:+: [] := by
    rintro ⟨x, y, h⟩
    have := congrArg List.length h
    have hm : marker.length = 27 := rfl
    simp only [List.length_append, List.length_nil] at this
    omega
  have h1 := C36_error_text e a he ha [] h0
  have h2 := C36_error_text e' a' he' ha' [] h0
  simp only [List.nil_append] at h1 h2
  rw [h, h2] at h1
  simp only [Prod.mk.injEq] at h1
  exact ⟨h1.1.symm, h1.2.symm⟩

/-- A text without the marker is reported as the zero error. -/
theorem C36_no_marker (s : Str) (h : ¬ marker <:+: s) : parseUnexpected s = (0, 0) := by
  have hc : cut marker s = none := by
    rw [cut_none]
    intro x y hxy
    exact h ⟨x, y, hxy.symm⟩
  unfold parseUnexpected
  rw [split_none hc]

/-- A text that was cut off before the second number is reported as the zero error: no number is made up. -/
theorem C36_cut (e : Nat) (he : e < 2 ^ 64) (pre : Str) (hpre : ¬ marker <:+: pre) (k : Nat) :
    parseUnexpected (pre ++ marker ++ [32] ++ Dec.natText e ++ ([44, 32] ++ actualText ++ [32]).take k) = (0, 0) := by
  have hc : cut marker pre = none := by
    rw [cut_none]
    intro x y hxy
    exact hpre ⟨x, y, hxy.symm⟩
  have hq : 113 ∉ [32] ++ Dec.natText e ++ ([44, 32] ++ actualText ++ [32]).take k := by
    intro h
    simp only [List.mem_append] at h
    rcases h with (h | h) | h
    · revert h; decide
    · have := natText_all h; omega
    · have h := List.mem_of_mem_take h
      revert h; decide
  have e0 : pre ++ marker ++ [32] ++ Dec.natText e ++ ([44, 32] ++ actualText ++ [32]).take k
      = pre ++ marker ++ ([32] ++ Dec.natText e ++ ([44, 32] ++ actualText ++ [32]).take k) := by simp
  unfold parseUnexpected
  rw [e0, split_some (by decide) (cut_marker pre _ hc), split_none (cut_marker_none hq)]
  have h1 : scanUint ([32] ++ Dec.natText e ++ ([44, 32] ++ actualText ++ [32]).take k)
      = some (e, ([44, 32] ++ actualText ++ [32]).take k) := by
    rw [List.append_assoc]
    refine (scanUint_blank _).trans (scanUint_natText e he _ ?_)
    intro c cs hcs
    cases k with
    | zero => simp at hcs
    | succ k => simp at hcs; rw [← hcs.1]; decide
  have h3 : ∀ k ≤ 10, (do
      let s ← lits [44] (([44, 32] ++ actualText ++ [32]).take k)
      let s ← fmtSpace s
      let s ← lits actualText s
      let s ← fmtSpace s
      let (a, _) ← scanUint s
      some (e, a) : Option (Nat × Nat)) = none := by
    intro k hk
    have : k = 0 ∨ k = 1 ∨ k = 2 ∨ k = 3 ∨ k = 4 ∨ k = 5 ∨ k = 6 ∨ k = 7 ∨ k = 8 ∨ k = 9 ∨ k = 10 := by omega
    rcases this with h | h | h | h | h | h | h | h | h | h | h <;> subst h <;> rfl
  have h4 : ([44, 32] ++ actualText ++ [32]).take k = ([44, 32] ++ actualText ++ [32]).take (min k 10) := by
    by_cases hk : k ≤ 10
    · rw [Nat.min_eq_left hk]
    · rw [Nat.min_eq_right (by omega), List.take_of_length_le (by simp [actualText]; omega),
        List.take_of_length_le (by simp [actualText])]
  have h5 : sscanfNumbers ([32] ++ Dec.natText e ++ ([44, 32] ++ actualText ++ [32]).take k) = none := by
    unfold sscanfNumbers
    rw [h1, h4]
    exact h3 _ (Nat.min_le_right _ _)
  simp only [h5, Option.getD_none]

/-- "unable to save to store: " -/
def savePrefix : Str :=
  [117, 110, 97, 98, 108, 101, 32, 116, 111, 32, 115, 97, 118, 101, 32, 116, 111, 32, 115, 116, 111, 114,
   101, 58, 32]

example : ¬ marker <:+: savePrefix := by
  rintro ⟨a, b, h⟩
  exact (cut_none.mp (by decide : cut marker savePrefix = none)) a b h.symm

example : parseUnexpected (savePrefix ++ unexpectedText (2 ^ 64 - 1) 40) = (2 ^ 64 - 1, 40) := by
  decide +kernel

/-- "unable to save to store: unexpected sequence number: 7, act". -/
example : parseUnexpected (savePrefix ++ marker ++ [32] ++ Dec.natText 7 ++ ([44, 32] ++ actualText ++ [32]).take 5)
    = (0, 0) := by decide +kernel

/-- The full C37: every stream name made from a type and an ID parses back to them. -/
def C37_full : Prop := ∀ t id : Str, parseStream (getStream t id) = .ok (t, id)

/-- **C37 is false**: an ID that contains '!' is cut off there. -/
theorem C37_false : ¬ C37_full := fun h => by
  have := h [65] [66, 33, 67]
  revert this
  decide

/-- **C37**, what does hold: a stream name made from a type and an ID parses back to them exactly when
neither contains '!'. -/
theorem C37_partial (t id : Str) :
    parseStream (getStream t id) = .ok (t, id) ↔ 33 ∉ t ∧ 33 ∉ id := by
  constructor
  · intro h
    unfold parseStream at h
    have key : ∀ (s a b : Str) (r : List Str), split [33] s = a :: b :: r → 33 ∉ a ∧ 33 ∉ b := by
      have hfirst : ∀ (n : Nat) (s a : Str), (splitFuel [33] (n + 1) s).head? = some a → s.length ≤ n →
          33 ∉ a := by
        intro n s a h hl
        unfold splitFuel at h
        cases hc : cut [33] s with
        | none =>
          rw [hc] at h
          simp only [List.head?_cons, Option.some.injEq] at h
          subst h
          intro hm
          obtain ⟨x, y, hxy⟩ := List.append_of_mem hm
          exact cut_none.mp hc x y (by simp [hxy])
        | some p =>
          obtain ⟨x, y⟩ := p
          rw [hc] at h
          simp only [List.head?_cons, Option.some.injEq] at h
          subst h
          clear hl
          -- the part before the first '!' has no '!'
          induction s generalizing x with
          | nil => simp [cut] at hc
          | cons d ds ih =>
            simp only [cut] at hc
            split at hc
            · simp only [Option.some.injEq, Prod.mk.injEq] at hc
              rw [← hc.1]; simp
            · rename_i hd
              cases hc' : cut [33] ds with
              | none => rw [hc'] at hc; simp at hc
              | some q =>
                obtain ⟨x', y'⟩ := q
                rw [hc'] at hc
                simp only [Option.map_some, Option.some.injEq, Prod.mk.injEq] at hc
                have := ih x' (by rw [hc', hc.2])
                rw [← hc.1]
                simp only [List.mem_cons, not_or]
                refine ⟨?_, this⟩
                intro hd'
                apply hd
                simp [← hd']
      intro s a b r hs
      unfold split at hs
      constructor
      · exact hfirst s.length s a (by rw [hs]; rfl) (Nat.le_refl _)
      · unfold splitFuel at hs
        cases hc : cut [33] s with
        | none => rw [hc] at hs; simp at hs
        | some p =>
          obtain ⟨x, y⟩ := p
          rw [hc] at hs
          simp only [List.cons.injEq] at hs
          have hl := congrArg List.length (cut_some hc)
          simp only [List.length_append, List.length_cons, List.length_nil] at hl
          have : splitFuel [33] (y.length + 1) y = b :: r := by
            rw [← hs.2]
            exact splitFuel_fuel (by simp) _ _ y (by omega) (by omega)
          exact hfirst y.length y b (by rw [this]; rfl) (Nat.le_refl _)
    split at h
    · rename_i a b r hs
      simp only [Outcome.ok.injEq, Prod.mk.injEq] at h
      rw [← h.1, ← h.2]
      exact key _ a b r hs
    · simp at h
  · rintro ⟨ht, hid⟩
    unfold parseStream getStream
    rw [split_some (by simp) (cut_byte id ht), split_none (cut_byte_none hid)]

/-- **C37**, the panic: `ParseStream` panics exactly on names without '!'. -/
theorem C37_panic (s : Str) : parseStream s = .panic ↔ 33 ∉ s := by
  constructor
  · intro h hm
    obtain ⟨x, y, hxy⟩ := List.append_of_mem hm
    unfold parseStream at h
    cases hc : cut [33] s with
    | none => exact cut_none.mp hc x y (by simp [hxy])
    | some p =>
      obtain ⟨a, b⟩ := p
      rw [split_some (by simp) hc] at h
      have hb : ∃ u v, split [33] b = u :: v := by
        unfold split splitFuel
        cases cut [33] b with
        | none => exact ⟨_, _, rfl⟩
        | some q => exact ⟨_, _, rfl⟩
      obtain ⟨u, v, huv⟩ := hb
      rw [huv] at h
      simp at h
  · intro h
    unfold parseStream
    rw [split_none (cut_byte_none h)]

/-- **C37**, ambiguity: types without '!' (or types of the same length) give every (type, ID) pair its
own stream name... -/
theorem C37_names_injective (t id t' id' : Str) (ht : 33 ∉ t) (ht' : 33 ∉ t')
    (h : getStream t id = getStream t' id') : t = t' ∧ id = id' := by
  have h1 := cut_byte id ht
  have h2 := cut_byte id' ht'
  unfold getStream at h
  rw [h, h2] at h1
  simp only [Option.some.injEq, Prod.mk.injEq] at h1
  exact ⟨h1.1.symm, h1.2.symm⟩

/-- ... and in general different pairs share a name. -/
theorem C37_names_collide : ∃ t id t' id' : Str, (t, id) ≠ (t', id') ∧ getStream t id = getStream t' id' :=
  ⟨[65], [66, 33, 67], [65, 33, 66], [67], by decide, by decide⟩

example : parseStream (getStream [116, 104, 105, 110, 103] [49, 50]) = .ok ([116, 104, 105, 110, 103], [49, 50]) := by
  decide

example : parseStream [116, 104] = .panic := by decide

end RangeDB.Txt

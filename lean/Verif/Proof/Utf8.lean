import Verif.Proof.Json

/-! # `utf8.Valid` accepts exactly the concatenated encodings of scalar values -/

namespace RangeDB.Json

theorem btw_true {lo hi b : Nat} (h1 : lo ≤ b) (h2 : b ≤ hi) : btw lo hi b = true := by
  simp [btw, h1, h2]

theorem btw_iff {lo hi b : Nat} : btw lo hi b = true ↔ lo ≤ b ∧ b ≤ hi := by simp [btw]

theorem btw_false {lo hi b : Nat} (h : b < lo ∨ hi < b) : btw lo hi b = false := by
  simp only [btw, Bool.and_eq_false_iff, decide_eq_false_iff_not, Nat.not_le]
  omega

/-- The decoder recognises the encoding of a scalar value. -/
theorem runeLen_bytes {c : Nat} (hc : Scalar c) (h80 : 0x80 ≤ c) (rest : Str) :
    ∃ b t, runeBytes c = b :: t ∧ 0x80 ≤ b ∧ runeLen b (t ++ rest) = some (t.length + 1) := by
  unfold Scalar at hc
  unfold runeBytes
  rw [if_neg (by omega)]
  by_cases h1 : c < 0x800
  · rw [if_pos h1]
    refine ⟨_, _, rfl, by omega, ?_⟩
    simp only [runeLen, List.cons_append, List.nil_append, List.length_cons, List.length_nil]
    rw [btw_true (lo := 0xC2) (by omega) (by omega), if_pos rfl, btw_true (by omega) (by omega), if_pos rfl]
  · rw [if_neg h1]
    by_cases h2 : c < 0x10000
    · rw [if_pos h2]
      refine ⟨_, _, rfl, by omega, ?_⟩
      simp only [runeLen, List.cons_append, List.nil_append, List.length_cons, List.length_nil]
      rw [btw_false (lo := 0xC2) (by omega), if_neg (by simp), btw_true (lo := 0xE0) (by omega) (by omega), if_pos rfl,
        btw_true (b := 0x80 + c / 64 % 64) (by split <;> omega) (by split <;> omega), if_pos rfl,
        btw_true (by omega) (by omega), if_pos rfl]
    · rw [if_neg h2]
      refine ⟨_, _, rfl, by omega, ?_⟩
      simp only [runeLen, List.cons_append, List.nil_append, List.length_cons, List.length_nil]
      rw [btw_false (lo := 0xC2) (by omega), if_neg (by simp), btw_false (lo := 0xE0) (by omega), if_neg (by simp),
        btw_true (lo := 0xF0) (by omega) (by omega), if_pos rfl,
        btw_true (b := 0x80 + c / 4096 % 64) (by split <;> omega) (by split <;> omega), if_pos rfl,
        btw_true (b := 0x80 + c / 64 % 64) (by omega) (by omega), if_pos rfl,
        btw_true (b := 0x80 + c % 64) (by omega) (by omega), if_pos rfl]

theorem utf8_valid {s : Str} (h : Utf8 s) : Valid s := by
  obtain ⟨cs, hcs, rfl⟩ := h
  unfold Valid
  induction cs with
  | nil => rfl
  | cons c cs ih =>
    have ih := ih (fun c hc => hcs c (by simp [hc]))
    have hc := hcs c (by simp)
    rw [List.flatMap_cons]
    by_cases h : c < 0x80
    · have : runeBytes c = [c] := by simp [runeBytes, h]
      rw [this, List.singleton_append]
      simp only [sanitize, h, if_true, ih]
    · obtain ⟨b, t, e1, e2, e3⟩ := runeLen_bytes hc (by omega) (cs.flatMap runeBytes)
      rw [e1, List.cons_append]
      simp only [sanitize]
      rw [if_neg (by omega)]
      simp only [e3]
      rw [sanitize_copy _ _ (by simp)]
      simp [ih]

theorem sanitize_length (s : Str) : ∀ k, s.length ≤ (sanitize k s).length := by
  induction s with
  | nil => intro k; simp
  | cons b t ih =>
    intro k
    cases k with
    | succ k => have := ih k; simp [sanitize]; omega
    | zero =>
      simp only [sanitize]
      split
      · have := ih 0; simp; omega
      · split
        · rename_i n _; have := ih n; simp; omega
        · have := ih 0; simp [replacement]; omega

/-- What the decoder recognises is the encoding of a scalar value. -/
theorem runeLen_scalar {b : Nat} {t : Str} {n : Nat} (h : runeLen b t = some (n + 1)) :
    n ≤ t.length ∧ ∃ c, Scalar c ∧ b :: t.take n = runeBytes c := by
  unfold runeLen at h
  split at h
  · rename_i h0
    rw [btw_iff] at h0
    cases t with
    | nil => simp at h
    | cons b1 t =>
      simp only at h
      split at h
      · rename_i h1
        rw [btw_iff] at h1
        simp only [Option.some.injEq] at h
        obtain rfl : n = 1 := by omega
        refine ⟨by simp, (b - 0xC0) * 64 + (b1 - 0x80), ?_, ?_⟩
        · unfold Scalar; omega
        · unfold runeBytes
          rw [if_neg (by omega), if_pos (by omega)]
          simp only [List.take_succ_cons, List.take_zero, List.cons.injEq, and_true]
          omega
      · simp at h
  · split at h
    · rename_i h0
      rw [btw_iff] at h0
      cases t with
      | nil => simp at h
      | cons b1 t =>
        simp only at h
        by_cases h1 : btw (if b = 0xE0 then 0xA0 else 0x80) (if b = 0xED then 0x9F else 0xBF) b1 = true
        · rw [if_pos h1] at h
          rw [btw_iff] at h1
          cases t with
          | nil => simp at h
          | cons b2 t =>
            simp only at h
            split at h
            · rename_i h2
              rw [btw_iff] at h2
              simp only [Option.some.injEq] at h
              obtain rfl : n = 2 := by omega
              have h1a : 0x80 ≤ b1 ∧ b1 ≤ 0xBF ∧ (b = 0xE0 → 0xA0 ≤ b1) ∧ (b = 0xED → b1 ≤ 0x9F) := by
                obtain ⟨x, y⟩ := h1
                split at x <;> split at y <;> omega
              refine ⟨by simp, (b - 0xE0) * 4096 + (b1 - 0x80) * 64 + (b2 - 0x80), ?_, ?_⟩
              · unfold Scalar; omega
              · unfold runeBytes
                rw [if_neg (by omega), if_neg (by omega), if_pos (by omega)]
                simp only [List.take_succ_cons, List.take_zero, List.cons.injEq, and_true]
                omega
            · simp at h
        · rw [if_neg h1] at h; simp at h
    · split at h
      · rename_i h0
        rw [btw_iff] at h0
        cases t with
        | nil => simp at h
        | cons b1 t =>
          simp only at h
          by_cases h1 : btw (if b = 0xF0 then 0x90 else 0x80) (if b = 0xF4 then 0x8F else 0xBF) b1 = true
          · rw [if_pos h1] at h
            rw [btw_iff] at h1
            cases t with
            | nil => simp at h
            | cons b2 t =>
              simp only at h
              split at h
              · rename_i h2
                rw [btw_iff] at h2
                cases t with
                | nil => simp at h
                | cons b3 t =>
                  simp only at h
                  split at h
                  · rename_i h3
                    rw [btw_iff] at h3
                    simp only [Option.some.injEq] at h
                    obtain rfl : n = 3 := by omega
                    have h1a : 0x80 ≤ b1 ∧ b1 ≤ 0xBF ∧ (b = 0xF0 → 0x90 ≤ b1) ∧ (b = 0xF4 → b1 ≤ 0x8F) := by
                      obtain ⟨x, y⟩ := h1
                      split at x <;> split at y <;> omega
                    refine ⟨by simp, (b - 0xF0) * 262144 + (b1 - 0x80) * 4096 + (b2 - 0x80) * 64 + (b3 - 0x80), ?_, ?_⟩
                    · unfold Scalar; omega
                    · unfold runeBytes
                      rw [if_neg (by omega), if_neg (by omega), if_neg (by omega)]
                      simp only [List.take_succ_cons, List.take_zero, List.cons.injEq, and_true]
                      omega
                  · simp at h
              · simp at h
          · rw [if_neg h1] at h; simp at h
      · simp at h

theorem valid_utf8 (m : Nat) : ∀ s : Str, s.length ≤ m → Valid s → Utf8 s := by
  induction m with
  | zero => intro s h _; exact ⟨[], by simp, by simpa using List.eq_nil_of_length_eq_zero (by omega)⟩
  | succ m ih =>
    intro s hm hv
    cases s with
    | nil => exact ⟨[], by simp, rfl⟩
    | cons b t =>
      simp only [Valid, sanitize] at hv
      simp only [List.length_cons] at hm
      split at hv
      · rename_i h
        obtain ⟨cs, h1, h2⟩ := ih t (by omega) (List.cons.inj hv).2
        refine ⟨b :: cs, ?_, ?_⟩
        · intro c hc
          rcases List.mem_cons.mp hc with rfl | hc
          · exact Or.inl (by omega)
          · exact h1 c hc
        · rw [List.flatMap_cons, ← h2]; simp [runeBytes, h]
      · split at hv
        · rename_i n hn
          obtain ⟨hl, c, hc, e⟩ := runeLen_scalar hn
          have h3 := (List.cons.inj hv).2
          rw [sanitize_copy n t hl] at h3
          have h4 : sanitize 0 (t.drop n) = t.drop n := by
            have : t.take n ++ sanitize 0 (t.drop n) = t.take n ++ t.drop n := by rw [h3, List.take_append_drop]
            exact List.append_cancel_left this
          obtain ⟨cs, h1, h2⟩ := ih (t.drop n) (by simp; omega) h4
          refine ⟨c :: cs, ?_, ?_⟩
          · intro x hx
            rcases List.mem_cons.mp hx with rfl | hx
            · exact hc
            · exact h1 x hx
          · rw [List.flatMap_cons, ← e, ← h2, List.cons_append, List.take_append_drop]
        · have := congrArg List.length hv
          have := sanitize_length t 0
          simp [replacement] at *
          omega

theorem valid_iff_utf8 {s : Str} : Valid s ↔ Utf8 s := ⟨valid_utf8 s.length s (Nat.le_refl _), utf8_valid⟩

end RangeDB.Json

import Verif.Spec.Msgpack

/-! # Lemmas about the msgpack model -/

namespace RangeDB.Mp

/-! ## Decoders and reads -/

/-- `D` reads exactly `cs` and returns `a`; it says `eof` at a seam and `torn` inside a read. -/
structure Reads {α : Type} (D : R α) (cs : List Str) (a : α) : Prop where
  full : ∀ rest, D (cs.flatten ++ rest) = .ok (a, rest)
  cut : ∀ p q, cs.flatten = p ++ q → q ≠ [] →
    (D p = .error .eof ∧ Seam cs p) ∨ (D p = .error .torn ∧ ¬ Seam cs p)

theorem seam_left {cs ds : List Str} {p q : Str} (h : cs.flatten = p ++ q) (hq : q ≠ []) :
    Seam (cs ++ ds) p ↔ Seam cs p := by
  constructor
  · rintro ⟨j, hj, hp⟩
    by_cases hl : j < cs.length
    · refine ⟨j, hl, ?_⟩
      rw [hp, List.take_append_of_le_length (by omega)]
    · exfalso
      rw [List.take_append, List.take_of_length_le (by omega), List.flatten_append] at hp
      have h1 : p.length = cs.flatten.length + ((ds.take (j - cs.length)).flatten).length := by
        conv => lhs; rw [hp]
        simp
      have h2 : cs.flatten.length = p.length + q.length := by rw [h]; simp
      have : 0 < q.length := List.length_pos_iff.2 hq
      omega
  · rintro ⟨j, hj, hp⟩
    refine ⟨j, by simp; omega, ?_⟩
    rw [hp, List.take_append_of_le_length (by omega)]

theorem seam_right {cs ds : List Str} {p : Str} (hd : ds ≠ []) :
    Seam (cs ++ ds) (cs.flatten ++ p) ↔ Seam ds p := by
  have hpos := List.length_pos_iff.2 hd
  constructor
  · rintro ⟨j, hj, hp⟩
    by_cases hl : j ≤ cs.length
    · rw [List.take_append_of_le_length hl] at hp
      have h1 : (cs.flatten ++ p).length = ((cs.take j).flatten).length := by rw [hp]
      have h2 : cs.flatten.length = ((cs.take j).flatten).length + ((cs.drop j).flatten).length := by
        conv => lhs; rw [← List.take_append_drop j cs, List.flatten_append]
        simp
      have : p = [] := by
        apply List.eq_nil_of_length_eq_zero
        simp only [List.length_append] at h1
        omega
      exact ⟨0, hpos, by simp [this]⟩
    · rw [List.take_append, List.take_of_length_le (by omega), List.flatten_append] at hp
      refine ⟨j - cs.length, by simp only [List.length_append] at hj; omega, ?_⟩
      exact List.append_cancel_left hp
  · rintro ⟨j, hj, hp⟩
    refine ⟨cs.length + j, by simp only [List.length_append]; omega, ?_⟩
    rw [hp, List.take_append, List.take_of_length_le (l := cs) (by omega), List.flatten_append]
    simp

theorem split_append {a b p q : Str} (h : a ++ b = p ++ q) :
    (∃ q', q' ≠ [] ∧ a = p ++ q') ∨ ∃ p', p = a ++ p' ∧ b = p' ++ q := by
  rcases List.append_eq_append_iff.1 h with ⟨p', h1, h2⟩ | ⟨q', h1, h2⟩
  · exact Or.inr ⟨p', h1, h2⟩
  · by_cases hq : q' = []
    · subst hq
      refine Or.inr ⟨[], ?_, ?_⟩
      · simpa using h1.symm
      · simpa using h2.symm
    · exact Or.inl ⟨q', hq, h1⟩

theorem Reads.seq {α β : Type} {D : R α} {k : α → R β} {cs ds : List Str} {a : α} {b : β} (h1 : Reads D cs a)
    (h2 : Reads (k a) ds b) : Reads (andThen D k) (cs ++ ds) b where
  full rest := by
    unfold andThen
    rw [List.flatten_append, List.append_assoc, h1.full]
    exact h2.full rest
  cut p q h hq := by
    rw [List.flatten_append] at h
    rcases split_append h with ⟨q', hq', hc⟩ | ⟨p', hp, he⟩
    · rw [seam_left hc hq']
      unfold andThen
      rcases h1.cut p q' hc hq' with ⟨h3, h4⟩ | ⟨h3, h4⟩
      · exact Or.inl ⟨by rw [h3], h4⟩
      · exact Or.inr ⟨by rw [h3], h4⟩
    · have hd : ds ≠ [] := by
        rintro rfl
        simp at he
        exact hq he.2
      rw [hp, seam_right hd]
      unfold andThen
      rw [h1.full]
      exact h2.cut p' q he hq

theorem Reads.pure {α : Type} (a : α) : Reads (Mp.pure a) [] a where
  full _ := rfl
  cut p q h hq := by
    simp at h
    exact absurd h.2 hq

theorem Reads.map {α β : Type} {D : R α} {cs : List Str} {a : α} (h : Reads D cs a) (f : α → β) :
    Reads (andThen D fun x => Mp.pure (f x)) cs (f a) := by
  have := h.seq (k := fun x => Mp.pure (f x)) (Reads.pure (f a))
  simpa using this

theorem Reads.byte (c : Nat) : Reads readByte [[c]] c where
  full _ := rfl
  cut p q h hq := by
    cases p with
    | nil => exact Or.inl ⟨rfl, 0, by simp, by simp⟩
    | cons x p =>
      simp at h
      exact absurd h.2.2 hq

theorem Reads.bytes {s : Str} (hs : s ≠ []) : Reads (readN s.length) [s] s where
  full rest := by
    have h0 : s.length ≠ 0 := by simpa using hs
    have h1 : s ++ rest ≠ [] := by simp [hs]
    have h2 : ¬ s.length + rest.length < s.length := by omega
    simp [readN, h0, hs, h2]
  cut p q h hq := by
    have h0 : s.length ≠ 0 := by simpa using hs
    simp only [List.flatten_cons, List.flatten_nil, List.append_nil] at h
    have hl : p.length < s.length := by
      have : 0 < q.length := List.length_pos_iff.2 hq
      rw [h]; simp; omega
    by_cases hp : p = []
    · exact Or.inl ⟨by simp [readN, h0, hp], 0, by simp, by simp [hp]⟩
    · refine Or.inr ⟨by simp [readN, h0, hp, hl], ?_⟩
      rintro ⟨j, hj, he⟩
      have : j = 0 := by simp at hj; omega
      subst this
      exact hp (by simpa using he)

theorem Reads.body (s : Str) : Reads (readN s.length) (bodyReads s) s := by
  unfold bodyReads
  split
  · next h =>
    subst h
    exact ⟨fun rest => by simp [readN], (Reads.pure ([] : Str)).cut⟩
  · next h => exact Reads.bytes h

/-! ## Numbers -/

theorem be_length : ∀ w n, (be w n).length = w
  | 0, _ => rfl
  | w + 1, n => by simp [be, be_length w]

theorem unbe_be : ∀ w n, n < 256 ^ w → unbe (be w n) = n
  | 0, n, h => by
    have : n = 0 := by simpa using h
    simp [be, unbe, this]
  | w + 1, n, h => by
    have h1 : n / 256 < 256 ^ w := by
      rw [Nat.pow_succ] at h
      exact Nat.div_lt_of_lt_mul (by omega)
    have := unbe_be w (n / 256) h1
    unfold unbe at this ⊢
    simp only [be, List.foldl_append, this, List.foldl_cons, List.foldl_nil]
    omega

theorem be_ne {w n : Nat} (h : 0 < w) : be w n ≠ [] := by
  intro e
  have := be_length w n
  rw [e] at this
  simp at this
  omega

theorem Reads.num {w n : Nat} (hw : 0 < w) (hn : n < 256 ^ w) : Reads (readLen w) [be w n] n := by
  have h := (Reads.bytes (be_ne (n := n) hw)).map unbe
  rw [be_length, unbe_be w n hn] at h
  exact h

/-! ## Lengths -/

theorem be_one {n : Nat} (h : n < 256) : be 1 n = [n] := by
  simp [be]
  omega

theorem lenReads_cons {c : Nat} {s : Str} (h : s ≠ []) : lenReads (c :: s) = [[c], s] := by
  cases s with
  | nil => exact absurd rfl h
  | cons d s => rfl

/-- `len n` is a first byte `c` whose length reader reads the rest. -/
def LenOk (sel : Nat → Option (R Nat)) (s : Str) (n : Nat) : Prop :=
  ∃ c cs r, lenReads s = [c] :: cs ∧ sel c = some r ∧ Reads r cs n ∧ s = ([c] :: cs).flatten

theorem lenOk_be {sel : Nat → Option (R Nat)} {c w n : Nat} (hs : sel c = some (readLen w)) (hw : 0 < w)
    (hn : n < 256 ^ w) : LenOk sel (c :: be w n) n :=
  ⟨c, [be w n], readLen w, lenReads_cons (be_ne hw), hs, Reads.num hw hn, by simp⟩

theorem lenOk_str {n : Nat} (h : n < 2 ^ 32) : LenOk strLenR (strLen n) n := by
  unfold strLen
  split
  · next h1 =>
    refine ⟨160 + n, [], Mp.pure n, rfl, ?_, Reads.pure n, rfl⟩
    simp [strLenR]
    omega
  · split
    · next h1 h2 =>
      rw [← be_one h2]
      exact lenOk_be (by simp [strLenR]) (by omega) (by omega)
    · split
      · next h3 => exact lenOk_be (by simp [strLenR]) (by omega) (by omega)
      · exact lenOk_be (by simp [strLenR]) (by omega) (by omega)

theorem lenOk_bin {n : Nat} (h : n < 2 ^ 32) : LenOk binLenR (binLen n) n := by
  unfold binLen
  split
  · next h2 =>
    rw [← be_one h2]
    exact lenOk_be (by simp [binLenR]) (by omega) (by omega)
  · split
    · next h3 => exact lenOk_be (by simp [binLenR]) (by omega) (by omega)
    · exact lenOk_be (by simp [binLenR]) (by omega) (by omega)

theorem lenOk_arr {n : Nat} (h : n < 2 ^ 32) : LenOk arrLenR (arrLen n) n := by
  unfold arrLen
  split
  · next h1 =>
    refine ⟨144 + n, [], Mp.pure n, rfl, ?_, Reads.pure n, rfl⟩
    simp [arrLenR]
    omega
  · split
    · next h3 => exact lenOk_be (by simp [arrLenR]) (by omega) (by omega)
    · exact lenOk_be (by simp [arrLenR]) (by omega) (by omega)

theorem lenOk_map {n : Nat} (h : n < 2 ^ 32) : LenOk mapLenR (mapLen n) n := by
  unfold mapLen
  split
  · next h1 =>
    refine ⟨128 + n, [], Mp.pure n, rfl, ?_, Reads.pure n, rfl⟩
    simp [mapLenR]
    omega
  · split
    · next h3 => exact lenOk_be (by simp [mapLenR]) (by omega) (by omega)
    · exact lenOk_be (by simp [mapLenR]) (by omega) (by omega)

/-! ## First bytes -/

theorem kindOf_none {c : Nat} (h : c < 202 ∨ 211 < c) : kindOf c = none := by
  simp only [kindOf, List.find?_eq_none]
  intro k _
  simp only [decide_eq_true_eq]
  cases k <;> simp [Kind.code] <;> omega

theorem kindOf_code (k : Kind) : kindOf k.code = some k := by cases k <;> rfl

theorem decCode_num (d : R Val) (k : Kind) :
    decCode d k.code = andThen (readN k.width) fun b => pure (.num k (unbe b)) := by
  cases k <;> rfl

theorem strLenR_range {c : Nat} {r} (h : strLenR c = some r) : (160 ≤ c ∧ c < 192) ∨ (217 ≤ c ∧ c ≤ 219) := by
  unfold strLenR at h
  repeat' split at h
  all_goals first | omega | simp at h

theorem binLenR_range {c : Nat} {r} (h : binLenR c = some r) : 196 ≤ c ∧ c ≤ 198 := by
  unfold binLenR at h
  repeat' split at h
  all_goals first | omega | simp at h

theorem arrLenR_range {c : Nat} {r} (h : arrLenR c = some r) : (144 ≤ c ∧ c < 160) ∨ c = 220 ∨ c = 221 := by
  unfold arrLenR at h
  repeat' split at h
  all_goals first | omega | simp at h

theorem mapLenR_range {c : Nat} {r} (h : mapLenR c = some r) : (128 ≤ c ∧ c < 144) ∨ c = 222 ∨ c = 223 := by
  unfold mapLenR at h
  repeat' split at h
  all_goals first | omega | simp at h

theorem strLenR_none {c : Nat} (h : ¬ ((160 ≤ c ∧ c < 192) ∨ (217 ≤ c ∧ c ≤ 219))) : strLenR c = none := by
  cases e : strLenR c with
  | none => rfl
  | some r => exact absurd (strLenR_range e) h

theorem binLenR_none {c : Nat} (h : ¬ (196 ≤ c ∧ c ≤ 198)) : binLenR c = none := by
  cases e : binLenR c with
  | none => rfl
  | some r => exact absurd (binLenR_range e) h

theorem arrLenR_none {c : Nat} (h : ¬ ((144 ≤ c ∧ c < 160) ∨ c = 220 ∨ c = 221)) : arrLenR c = none := by
  cases e : arrLenR c with
  | none => rfl
  | some r => exact absurd (arrLenR_range e) h

theorem decCode_str (d : R Val) {c : Nat} {r : R Nat} (h : strLenR c = some r) :
    decCode d c = andThen r fun n => andThen (readN n) fun s => pure (.str s) := by
  have hr := strLenR_range h
  unfold decCode
  rw [if_neg (by omega), if_neg (by omega), if_neg (by omega), if_neg (by omega), kindOf_none (by omega), h]

theorem decCode_bin (d : R Val) {c : Nat} {r : R Nat} (h : binLenR c = some r) :
    decCode d c = andThen r fun n => andThen (readN n) fun s => pure (.bin s) := by
  have hr := binLenR_range h
  unfold decCode
  rw [if_neg (by omega), if_neg (by omega), if_neg (by omega), if_neg (by omega), kindOf_none (by omega),
    strLenR_none (by omega), h]

theorem decCode_arr (d : R Val) {c : Nat} {r : R Nat} (h : arrLenR c = some r) :
    decCode d c = andThen r fun n => andThen (decList d n) fun vs => pure (.arr vs) := by
  have hr := arrLenR_range h
  unfold decCode
  rw [if_neg (by omega), if_neg (by omega), if_neg (by omega), if_neg (by omega), kindOf_none (by omega),
    strLenR_none (by omega), binLenR_none (by omega), h]

theorem decCode_map (d : R Val) {c : Nat} {r : R Nat} (h : mapLenR c = some r) :
    decCode d c = andThen r fun n => andThen (decMap d n) fun fs => pure (.map fs) := by
  have hr := mapLenR_range h
  unfold decCode
  rw [if_neg (by omega), if_neg (by omega), if_neg (by omega), if_neg (by omega), kindOf_none (by omega),
    strLenR_none (by omega), binLenR_none (by omega), arrLenR_none (by omega), h]

/-! ## Values -/

theorem Reads.first {α : Type} {c : Nat} {k : Nat → R α} {cs : List Str} {a : α} (h : Reads (k c) cs a) :
    Reads (andThen readByte k) ([c] :: cs) a := by
  have := (Reads.byte c).seq (k := k) h
  simpa using this

theorem Reads.key {k : Str} (h : k.length < 2 ^ 32) :
    Reads decKey (lenReads (strLen k.length) ++ bodyReads k) k := by
  obtain ⟨c, cs, r, h1, h2, h3, _⟩ := lenOk_str h
  rw [h1, List.cons_append]
  refine Reads.first ?_
  simp only [h2]
  exact h3.seq (Reads.body k)

mutual
theorem reads_val : ∀ (f : Nat) (v : Val), Val.ok f v = true → Reads (decV f) (reads v) v
  | 0, v, h => by simp [Val.ok] at h
  | f + 1, .nil, _ => by
    simp only [decV, reads]
    exact Reads.first (Reads.pure _)
  | f + 1, .bool false, _ => by
    simp only [decV, reads]
    exact Reads.first (Reads.pure _)
  | f + 1, .bool true, _ => by
    simp only [decV, reads]
    exact Reads.first (Reads.pure _)
  | f + 1, .num k n, h => by
    simp only [Val.ok, decide_eq_true_eq] at h
    simp only [decV, reads]
    refine Reads.first ?_
    rw [decCode_num]
    have hw : 0 < k.width := by cases k <;> decide
    have h1 := (Reads.bytes (be_ne (n := n) hw)).map (fun b => Val.num k (unbe b))
    rw [be_length, unbe_be _ n h] at h1
    exact h1
  | f + 1, .str s, h => by
    simp only [Val.ok, decide_eq_true_eq] at h
    simp only [decV, reads]
    obtain ⟨c, cs, r, h1, h2, h3, _⟩ := lenOk_str h
    rw [h1, List.cons_append]
    refine Reads.first ?_
    rw [decCode_str _ h2]
    exact h3.seq ((Reads.body s).map Val.str)
  | f + 1, .bin s, h => by
    simp only [Val.ok, decide_eq_true_eq] at h
    simp only [decV, reads]
    obtain ⟨c, cs, r, h1, h2, h3, _⟩ := lenOk_bin h
    rw [h1, List.cons_append]
    refine Reads.first ?_
    rw [decCode_bin _ h2]
    exact h3.seq ((Reads.body s).map Val.bin)
  | f + 1, .arr vs, h => by
    simp only [Val.ok, decide_eq_true_eq, Bool.and_eq_true] at h
    simp only [decV, reads]
    obtain ⟨c, cs, r, h1, h2, h3, _⟩ := lenOk_arr h.1
    rw [h1, List.cons_append]
    refine Reads.first ?_
    rw [decCode_arr _ h2]
    exact h3.seq ((reads_list f vs h.2).map Val.arr)
  | f + 1, .map fs, h => by
    simp only [Val.ok, decide_eq_true_eq, Bool.and_eq_true] at h
    simp only [decV, reads]
    obtain ⟨c, cs, r, h1, h2, h3, _⟩ := lenOk_map h.1
    rw [h1, List.cons_append]
    refine Reads.first ?_
    rw [decCode_map _ h2]
    exact h3.seq ((reads_map f fs h.2).map Val.map)
theorem reads_list : ∀ (f : Nat) (vs : List Val), Val.okL f vs = true →
    Reads (decList (decV f) vs.length) (readsL vs) vs
  | f, [], _ => by simpa [decList, readsL] using Reads.pure ([] : List Val)
  | f, v :: vs, h => by
    simp only [Val.okL, Bool.and_eq_true] at h
    simp only [List.length_cons, decList, readsL]
    exact (reads_val f v h.1).seq ((reads_list f vs h.2).map (fun vs => v :: vs))
theorem reads_map : ∀ (f : Nat) (fs : List (Str × Val)), Val.okM f fs = true →
    Reads (decMap (decV f) fs.length) (readsM fs) fs
  | f, [], _ => by simpa [decMap, readsM] using Reads.pure ([] : List (Str × Val))
  | f, (k, v) :: fs, h => by
    simp only [Val.okM, Bool.and_eq_true, decide_eq_true_eq] at h
    simp only [List.length_cons, decMap, readsM]
    rw [List.append_assoc (lenReads (strLen k.length) ++ bodyReads k)]
    refine Reads.seq (Reads.key h.1.1) ?_
    refine Reads.seq (reads_val f v h.1.2) ?_
    exact (reads_map f fs h.2).map (fun fs => (k, v) :: fs)
end

theorem flatten_body (s : Str) : (bodyReads s).flatten = s := by
  unfold bodyReads
  split <;> simp_all

theorem flatten_len (s : Str) : (lenReads s).flatten = s := by
  match s with
  | [] => rfl
  | [c] => rfl
  | c :: d :: s => simp [lenReads]

mutual
theorem flatten_reads : ∀ v, (reads v).flatten = enc v
  | .nil => rfl
  | .bool false => rfl
  | .bool true => rfl
  | .num k n => by simp [reads, enc]
  | .str s => by simp [reads, enc, flatten_len, flatten_body]
  | .bin s => by simp [reads, enc, flatten_len, flatten_body]
  | .arr vs => by simp [reads, enc, flatten_len, flatten_readsL vs]
  | .map fs => by simp [reads, enc, flatten_len, flatten_readsM fs]
theorem flatten_readsL : ∀ vs, (readsL vs).flatten = encL vs
  | [] => rfl
  | v :: vs => by simp [readsL, encL, flatten_reads v, flatten_readsL vs]
theorem flatten_readsM : ∀ fs, (readsM fs).flatten = encM fs
  | [] => rfl
  | (k, v) :: fs => by simp [readsM, encM, flatten_len, flatten_body, flatten_reads v, flatten_readsM fs]
end

theorem len_ne {s c : Str} (h : c ∈ lenReads s) : c ≠ [] := by
  match s with
  | [] => simp [lenReads] at h
  | [x] => simp [lenReads] at h; simp [h]
  | x :: y :: s => simp [lenReads] at h; rcases h with h | h <;> simp [h]

theorem body_ne {s c : Str} (h : c ∈ bodyReads s) : c ≠ [] := by
  unfold bodyReads at h
  split at h
  · simp at h
  · next hs => simp at h; rw [h]; exact hs

mutual
theorem reads_ne : ∀ v, ∀ c ∈ reads v, c ≠ []
  | .nil, c, h => by simp [reads] at h; simp [h]
  | .bool false, c, h => by simp [reads] at h; simp [h]
  | .bool true, c, h => by simp [reads] at h; simp [h]
  | .num k n, c, h => by
    have hw : 0 < k.width := by cases k <;> decide
    simp [reads] at h
    rcases h with h | h
    · simp [h]
    · rw [h]; exact be_ne hw
  | .str s, c, h => by
    simp only [reads, List.mem_append] at h
    exact h.elim len_ne body_ne
  | .bin s, c, h => by
    simp only [reads, List.mem_append] at h
    exact h.elim len_ne body_ne
  | .arr vs, c, h => by
    simp only [reads, List.mem_append] at h
    exact h.elim len_ne (readsL_ne vs c)
  | .map fs, c, h => by
    simp only [reads, List.mem_append] at h
    exact h.elim len_ne (readsM_ne fs c)
theorem readsL_ne : ∀ vs, ∀ c ∈ readsL vs, c ≠ []
  | [], c, h => by simp [readsL] at h
  | v :: vs, c, h => by
    simp only [readsL, List.mem_append] at h
    exact h.elim (reads_ne v c) (readsL_ne vs c)
theorem readsM_ne : ∀ fs, ∀ c ∈ readsM fs, c ≠ []
  | [], c, h => by simp [readsM] at h
  | (k, v) :: fs, c, h => by
    simp only [readsM, List.mem_append] at h
    rcases h with ((h | h) | h) | h
    · exact len_ne h
    · exact body_ne h
    · exact reads_ne v c h
    · exact readsM_ne fs c h
end

/-! ## Records -/

/-- Setting fields one after the other. -/
def setAll : Rec → List (Str × Val) → Option Rec
  | r, [] => some r
  | r, (k, v) :: fs => (r.set k v).bind fun r' => setAll r' fs

theorem reads_fields (f : Nat) : ∀ (fs : List (Str × Val)) (r r' : Rec), Val.okM f fs = true →
    setAll r fs = some r' → Reads (decFields f fs.length r) (readsM fs) r'
  | [], r, r', _, hs => by
    simp only [setAll, Option.some.injEq] at hs
    subst hs
    simpa [decFields, readsM] using Reads.pure r
  | (k, v) :: fs, r, r', h, hs => by
    simp only [Val.okM, Bool.and_eq_true, decide_eq_true_eq] at h
    simp only [setAll] at hs
    cases e : r.set k v with
    | none => simp [e] at hs
    | some r1 =>
      simp only [e, Option.bind_some] at hs
      simp only [List.length_cons, decFields, readsM]
      rw [List.append_assoc (lenReads (strLen k.length) ++ bodyReads k)]
      refine Reads.seq (Reads.key h.1.1) ?_
      refine Reads.seq (reads_val f v h.1.2) ?_
      simp only [e]
      exact reads_fields f fs r1 r' h.2 hs

theorem ok_pos {f : Nat} {v : Val} (h : Val.ok f v = true) : ∃ g, f = g + 1 := by
  cases f with
  | zero => simp [Val.ok] at h
  | succ g => exact ⟨g, rfl⟩

theorem okM_fields {f : Nat} {r : Rec} (h : r.ok f = true) : Val.okM f r.fields = true := by
  simp only [Rec.ok, Bool.and_eq_true, decide_eq_true_eq] at h
  obtain ⟨⟨⟨⟨⟨⟨⟨⟨⟨h1, h2⟩, h3⟩, h4⟩, h5⟩, h6⟩, h7⟩, h8⟩, h9⟩, h10⟩ := h
  obtain ⟨g, rfl⟩ := ok_pos h9
  simp [Rec.fields, Val.okM, Val.ok, Kind.width, h1, h2, h3, h4, h5, h6, h7, h8, h10]

theorem reads_head {f : Nat} {r : Rec} (h : r.ok f = true) :
    Reads (decHeader f) (headReads r) { r with data := .nil } := by
  have h1 := reads_fields f r.fields Rec.zero { r with data := .nil } (okM_fields h) rfl
  unfold headReads
  simp only [reads]
  obtain ⟨c, cs, rd, g1, g2, g3, _⟩ := lenOk_map (n := r.fields.length) (by simp [Rec.fields])
  rw [g1, List.cons_append]
  unfold decHeader
  refine Reads.first ?_
  simp only [g2]
  exact g3.seq h1

theorem flatten_head (r : Rec) : (headReads r).flatten = enc (.map r.fields) := flatten_reads _

theorem marshal_eq (r : Rec) : marshal r = (headReads r).flatten ++ (reads r.data).flatten := by
  rw [flatten_head, flatten_reads]; rfl

theorem unmarshal_marshal {f : Nat} {ty : Types} {r : Rec} {d : Val} (h : r.ok f = true)
    (ht : ty.read r.evType r.data = some d) (rest : Str) :
    unmarshal f ty (marshal r ++ rest) = .ok ({ r with data := d }, rest) := by
  have hv : Val.ok f r.data = true := by
    simp only [Rec.ok, Bool.and_eq_true] at h
    exact h.1.2
  unfold unmarshal andThen
  rw [marshal_eq, List.append_assoc, (reads_head h).full]
  simp only [decData, (reads_val f r.data hv).full, ht]

/-- What is made of a record cut short. -/
theorem unmarshal_cut {f : Nat} {ty : Types} {r : Rec} (h : r.ok f = true) {p q : Str} (he : marshal r = p ++ q)
    (hq : q ≠ []) :
    (unmarshal f ty p = .error .eof ∧ Seam (headReads r) p) ∨
    (∃ e, e ≠ .eof ∧ unmarshal f ty p = .error e ∧ ¬ Seam (headReads r) p) := by
  have hv : Val.ok f r.data = true := by
    simp only [Rec.ok, Bool.and_eq_true] at h
    exact h.1.2
  rw [marshal_eq] at he
  unfold unmarshal andThen
  rcases split_append he with ⟨q', hq', hc⟩ | ⟨p', hp, hd⟩
  · rcases (reads_head h).cut p q' hc hq' with ⟨h1, h2⟩ | ⟨h1, h2⟩
    · exact Or.inl ⟨by rw [h1], h2⟩
    · exact Or.inr ⟨.torn, by simp, by rw [h1], h2⟩
  · refine Or.inr ⟨.bad, by simp, ?_, ?_⟩
    · rw [hp, (reads_head h).full]
      rcases (reads_val f r.data hv).cut p' q hd hq with ⟨h1, _⟩ | ⟨h1, _⟩
      · simp [decData, h1]
      · simp [decData, h1]
    · rintro ⟨j, hj, hs⟩
      rw [hp] at hs
      have h2 : (headReads r).flatten.length = (((headReads r).take j).flatten).length +
          (((headReads r).drop j).flatten).length := by
        conv => lhs; rw [← List.take_append_drop j (headReads r), List.flatten_append]
        simp
      have h1 : ((headReads r).flatten ++ p').length = (((headReads r).take j).flatten).length := by rw [hs]
      have h3 : ((headReads r).drop j).flatten = [] := by
        apply List.eq_nil_of_length_eq_zero
        simp only [List.length_append] at h1
        omega
      have h4 : (headReads r)[j] ∈ (headReads r).drop j := by
        rw [List.drop_eq_getElem_cons hj]
        exact List.mem_cons_self
      exact reads_ne _ _ (List.mem_of_mem_drop h4) (List.flatten_eq_nil_iff.1 h3 _ h4)

/-! ## Files -/

theorem headReads_ne (r : Rec) : headReads r ≠ [] := by
  intro h
  have := flatten_head r
  rw [h] at this
  simp [enc, Rec.fields, mapLen] at this

theorem marshal_ne (r : Rec) : marshal r ≠ [] := by
  simp [marshal, enc, Rec.fields, mapLen]

theorem unmarshal_seen {f : Nat} {ty : Types} {r : Rec} (h : r.ok f = true)
    (ht : (ty.read r.evType r.data).isSome) (rest : Str) :
    unmarshal f ty (marshal r ++ rest) = .ok (ty.seen r, rest) := by
  obtain ⟨d, hd⟩ := Option.isSome_iff_exists.1 ht
  rw [unmarshal_marshal h hd]
  simp [Types.seen, hd]

theorem unmarshal_nil {f : Nat} {ty : Types} : unmarshal f ty [] = .error .eof := rfl

theorem readLoop_all {f : Nat} {ty : Types} : ∀ (rs : List Rec) (fuel : Nat),
    (∀ r ∈ rs, r.ok f = true ∧ (ty.read r.evType r.data).isSome) → (writeAll rs).length < fuel →
    readLoop f ty fuel (writeAll rs) = (rs.map ty.seen, none)
  | [], fuel, _, hf => by
    obtain ⟨g, rfl⟩ : ∃ g, fuel = g + 1 := ⟨fuel - 1, by omega⟩
    rfl
  | r :: rs, fuel, h, hf => by
    obtain ⟨g, rfl⟩ : ∃ g, fuel = g + 1 := ⟨fuel - 1, by omega⟩
    have hr := h r (by simp)
    have hl : 0 < (marshal r).length := List.length_pos_iff.2 (marshal_ne r)
    simp only [writeAll, List.length_append] at hf
    have ih := readLoop_all rs g (fun x hx => h x (by simp [hx])) (by omega)
    simp [readLoop, writeAll, unmarshal_seen hr.1 hr.2, ih]

theorem readLoop_cut {f : Nat} {ty : Types} : ∀ (rs : List Rec) (fuel : Nat) (p q : Str),
    (∀ r ∈ rs, r.ok f = true ∧ (ty.read r.evType r.data).isSome) → p.length < fuel →
    writeAll rs = p ++ q → q ≠ [] →
    ∃ k r p', rs[k]? = some r ∧ p = writeAll (rs.take k) ++ p' ∧ (∃ q', q' ≠ [] ∧ marshal r = p' ++ q') ∧
      (readLoop f ty fuel p).1 = (rs.take k).map ty.seen ∧
      ((readLoop f ty fuel p).2 = none ↔ Seam (headReads r) p')
  | [], _, p, q, _, _, he, hq => by
    simp [writeAll] at he
    exact absurd he.2 hq
  | r :: rs, fuel, p, q, h, hf, he, hq => by
    obtain ⟨g, rfl⟩ : ∃ g, fuel = g + 1 := ⟨fuel - 1, by omega⟩
    have hr := h r (by simp)
    have hl : 0 < (marshal r).length := List.length_pos_iff.2 (marshal_ne r)
    simp only [writeAll] at he
    rcases split_append he with ⟨q', hq', hc⟩ | ⟨p', hp, hd⟩
    · refine ⟨0, r, p, by simp, by simp [writeAll], ⟨q', hq', hc⟩, ?_⟩
      rcases unmarshal_cut (ty := ty) hr.1 hc hq' with ⟨h1, h2⟩ | ⟨e, h0, h1, h2⟩
      · simp [readLoop, h1, h2]
      · cases e with
        | eof => exact absurd rfl h0
        | torn => simp [readLoop, h1, h2]
        | bad => simp [readLoop, h1, h2]
    · subst hp
      simp only [List.length_append] at hf
      obtain ⟨k, x, y, h1, h2, h3, h4, h5⟩ :=
        readLoop_cut rs g p' q (fun x hx => h x (by simp [hx])) (by omega) hd hq
      refine ⟨k + 1, x, y, by simpa using h1, ?_, h3, ?_, ?_⟩
      · simp only [List.take_succ_cons, writeAll, List.append_assoc]
        rw [← h2]
      · simp [readLoop, unmarshal_seen hr.1 hr.2, h4]
      · simp only [readLoop, unmarshal_seen hr.1 hr.2]
        exact h5

end RangeDB.Mp

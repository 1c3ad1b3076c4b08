import Verif.Model.LevelDB
import Verif.Spec.AtomicLog

/-! # Lemmas about the key-value store and the key encoding -/

namespace RangeDB.KV

theorem ltKey_irrefl (a : Str) : ltKey a a = false := by
  induction a with
  | nil => rfl
  | cons x xs ih => simp [ltKey, ih]

theorem ltKey_trans {a b c : Str} (h1 : ltKey a b = true) (h2 : ltKey b c = true) :
    ltKey a c = true := by
  induction a generalizing b c with
  | nil =>
    cases b with
    | nil => simp [ltKey] at h1
    | cons y ys => cases c with
      | nil => simp [ltKey] at h2
      | cons => rfl
  | cons x xs ih =>
    cases b with
    | nil => simp [ltKey] at h1
    | cons y ys => cases c with
      | nil => simp [ltKey] at h2
      | cons w ws =>
        simp only [ltKey] at h1 h2 ⊢
        split at h1
        · split at h2
          · rw [if_pos (by omega)]
          · split at h2
            · simp at h2
            · rw [if_pos (by omega)]
        · split at h1
          · simp at h1
          · split at h2
            · rw [if_pos (by omega)]
            · split at h2
              · simp at h2
              · rw [if_neg (by omega), if_neg (by omega)]
                exact ih h1 h2

theorem ltKey_total {a b : Str} (h1 : ltKey a b = false) (h2 : ltKey b a = false) : a = b := by
  induction a generalizing b with
  | nil => cases b with
    | nil => rfl
    | cons => simp [ltKey] at h1
  | cons x xs ih => cases b with
    | nil => simp [ltKey] at h2
    | cons y ys =>
      simp only [ltKey] at h1 h2
      split at h1
      · simp at h1
      · split at h1
        · rename_i h; rw [if_pos h] at h2; simp at h2
        · rename_i h3 h4
          rw [if_neg h4, if_neg h3] at h2
          have : x = y := by omega
          subst this
          rw [ih h1 h2]

theorem ltKey_asymm {a b : Str} (h : ltKey a b = true) : ltKey b a = false := by
  cases h2 : ltKey b a with
  | false => rfl
  | true => have := ltKey_trans h h2; rw [ltKey_irrefl] at this; simp at this

theorem ltKey_append (p a b : Str) : ltKey (p ++ a) (p ++ b) = ltKey a b := by
  induction p with
  | nil => rfl
  | cons x xs ih => simp [ltKey, ih]

/-- A database is stored in ascending key order. -/
def Sorted (db : DB) : Prop := db.Pairwise (fun a b => ltKey a.1 b.1 = true)

theorem mem_put {db : DB} (hs : Sorted db) (k v : Str) (k' v' : Str) :
    (k', v') ∈ put db k v ↔ (k' = k ∧ v' = v) ∨ (k' ≠ k ∧ (k', v') ∈ db) := by
  induction db with
  | nil => simp [put]
  | cons e es ih =>
    obtain ⟨ke, ve⟩ := e
    unfold Sorted at hs
    rw [List.pairwise_cons] at hs
    have hne : ∀ x w, (x, w) ∈ es → x ≠ ke := by
      intro x w hx he
      have := hs.1 (x, w) hx
      simp only [he, ltKey_irrefl] at this
      simp at this
    unfold put
    split
    · rename_i h; subst h
      simp only [List.mem_cons, Prod.mk.injEq]
      constructor
      · rintro (⟨rfl, rfl⟩ | h)
        · exact Or.inl ⟨rfl, rfl⟩
        · exact Or.inr ⟨hne _ _ h, Or.inr h⟩
      · rintro (⟨rfl, rfl⟩ | ⟨h1, ⟨h2, _⟩ | h2⟩)
        · exact Or.inl ⟨rfl, rfl⟩
        · exact absurd h2 h1
        · exact Or.inr h2
    · rename_i hk
      split
      · rename_i hlt
        simp only [List.mem_cons, Prod.mk.injEq]
        constructor
        · rintro (⟨rfl, rfl⟩ | ⟨rfl, rfl⟩ | h)
          · exact Or.inl ⟨rfl, rfl⟩
          · exact Or.inr ⟨fun h => hk h.symm, Or.inl ⟨rfl, rfl⟩⟩
          · refine Or.inr ⟨?_, Or.inr h⟩
            rintro rfl
            have h1 := hs.1 (k', v') h
            have := ltKey_trans hlt h1
            simp [ltKey_irrefl] at this
        · rintro (h | ⟨_, h | h⟩)
          · exact Or.inl h
          · exact Or.inr (Or.inl h)
          · exact Or.inr (Or.inr h)
      · simp only [List.mem_cons, Prod.mk.injEq, ih hs.2]
        constructor
        · rintro (⟨rfl, rfl⟩ | h | ⟨h1, h2⟩)
          · exact Or.inr ⟨fun h => hk h.symm, Or.inl ⟨rfl, rfl⟩⟩
          · exact Or.inl h
          · exact Or.inr ⟨h1, Or.inr h2⟩
        · rintro (h | ⟨h1, h | h⟩)
          · exact Or.inr (Or.inl h)
          · exact Or.inl h
          · exact Or.inr (Or.inr ⟨h1, h⟩)

theorem put_sorted {db : DB} (hs : Sorted db) (k v : Str) : Sorted (put db k v) := by
  induction db with
  | nil => simp [put, Sorted]
  | cons e es ih =>
    obtain ⟨ke, ve⟩ := e
    have hs' := hs
    unfold Sorted at hs
    rw [List.pairwise_cons] at hs
    unfold put
    split
    · rename_i h; subst h
      unfold Sorted
      rw [List.pairwise_cons]
      exact ⟨hs.1, hs.2⟩
    · rename_i hk
      split
      · rename_i hlt
        unfold Sorted
        rw [List.pairwise_cons]
        refine ⟨?_, hs'⟩
        intro a ha
        rcases List.mem_cons.mp ha with rfl | ha
        · exact hlt
        · exact ltKey_trans hlt (hs.1 a ha)
      · rename_i hnlt
        unfold Sorted
        rw [List.pairwise_cons]
        refine ⟨?_, ih hs.2⟩
        rintro ⟨ka, va⟩ ha
        rcases (mem_put hs.2 k v ka va).mp ha with ⟨rfl, rfl⟩ | ⟨_, h⟩
        · cases hh : ltKey ke ka with
          | true => rfl
          | false => exact absurd (ltKey_total (by simpa using hnlt) hh) hk
        · exact hs.1 _ h

theorem del_sorted {db : DB} (hs : Sorted db) (k : Str) : Sorted (del db k) := hs.filter _

theorem mem_del (db : DB) (k k' v' : Str) : (k', v') ∈ del db k ↔ k' ≠ k ∧ (k', v') ∈ db := by
  simp [del, and_comm]

theorem get_mem {db : DB} {k v : Str} (h : get db k = some v) : (k, v) ∈ db := by
  induction db with
  | nil => simp [get] at h
  | cons e es ih =>
    obtain ⟨ke, ve⟩ := e
    simp only [get] at h
    split at h
    · rename_i hk; subst hk; simp at h; subst h; simp
    · exact List.mem_cons_of_mem _ (ih h)

theorem mem_get {db : DB} (hs : Sorted db) {k v : Str} (h : (k, v) ∈ db) : get db k = some v := by
  induction db with
  | nil => simp at h
  | cons e es ih =>
    obtain ⟨ke, ve⟩ := e
    unfold Sorted at hs
    rw [List.pairwise_cons] at hs
    rcases List.mem_cons.mp h with h | h
    · simp only [Prod.mk.injEq] at h
      obtain ⟨rfl, rfl⟩ := h
      simp [get]
    · have := hs.1 _ h
      simp only [get]
      rw [if_neg]
      · exact ih hs.2 h
      · rintro rfl; simp [ltKey_irrefl] at this

theorem get_none {db : DB} {k : Str} (h : ∀ v, (k, v) ∉ db) : get db k = none := by
  cases hg : get db k with
  | none => rfl
  | some v => exact absurd (get_mem hg) (h v)

/-- Keys determine entries. -/
theorem Sorted.inj {db : DB} (hs : Sorted db) {k v w : Str} (h1 : (k, v) ∈ db) (h2 : (k, w) ∈ db) :
    v = w := by
  have := (mem_get hs h1).symm.trans (mem_get hs h2)
  simpa using this

/-- Two databases with the same entries are equal. -/
theorem sorted_ext {a b : DB} (ha : Sorted a) (hb : Sorted b) (h : ∀ e, e ∈ a ↔ e ∈ b) : a = b := by
  have nodup : ∀ {l : DB}, Sorted l → l.Nodup := by
    intro l hl
    rw [List.nodup_iff_pairwise_ne]
    refine hl.imp ?_
    rintro x y hxy rfl
    simp [ltKey_irrefl] at hxy
  have hp : a.Perm b := (List.perm_ext_iff_of_nodup (nodup ha) (nodup hb)).mpr h
  refine List.Perm.eq_of_pairwise (le := fun (x y : Str × Str) => ltKey x.1 y.1 = true) ?_ ha hb hp
  intro x y _ _ h1 h2
  rw [ltKey_asymm h1] at h2; simp at h2

theorem prefixLimit_snoc (q : Str) (c : Nat) (hc : c < 255) :
    prefixLimit (q ++ [c]) = some (q ++ [c + 1]) := by
  simp [prefixLimit, show ¬ 255 ≤ c by omega]

theorem range_iff_prefix (q : Str) (c : Nat) (k : Str) :
    (ltKey k (q ++ [c]) = false ∧ ltKey k (q ++ [c + 1]) = true) ↔ q ++ [c] <+: k := by
  induction q generalizing k with
  | nil =>
    cases k with
    | nil => simp [ltKey]
    | cons x xs =>
      have hx : ltKey xs [] = false := by cases xs <;> rfl
      simp only [List.nil_append, ltKey, hx, List.cons_prefix_cons, List.nil_prefix, and_true]
      constructor
      · rintro ⟨h1, h2⟩
        by_cases hlt : x < c
        · simp [hlt] at h1
        · by_cases h3 : x < c + 1
          · omega
          · simp [h3] at h2
      · rintro rfl; simp
  | cons y ys ih =>
    cases k with
    | nil => simp [ltKey]
    | cons x xs =>
      simp only [List.cons_append, ltKey, List.cons_prefix_cons]
      by_cases h1 : x < y
      · simp [h1]; omega
      · by_cases h2 : y < x
        · simp [h1, h2]; omega
        · have : x = y := by omega
          subst this
          simp [ih]

/-- An iterator over `util.BytesPrefix(p)` visits exactly the keys that start with `p`. -/
theorem mem_slice (db : DB) (q : Str) (c : Nat) (hc : c < 255) (e : Str × Str) :
    e ∈ slice db (q ++ [c]) ↔ e ∈ db ∧ q ++ [c] <+: e.1 := by
  simp only [slice, prefixLimit_snoc q c hc, List.mem_filter, Bool.and_eq_true, Bool.not_eq_true',
    range_iff_prefix]

theorem slice_sorted {db : DB} (hs : Sorted db) (p : Str) : Sorted (slice db p) := hs.filter _

namespace DbIter

theorem each_at (items : DB) : ∀ (fuel i : Nat), items.length - (i + 1) < fuel →
    each fuel ⟨items, .at i⟩ = items.drop (i + 1) := by
  intro fuel
  induction fuel with
  | zero => intro i h; omega
  | succ fuel ih =>
    intro i h
    simp only [each, next]
    by_cases hi : i + 1 < items.length
    · rw [if_pos hi]
      simp only [entry, List.getElem?_eq_getElem hi]
      rw [ih (i + 1) (by omega), List.drop_eq_getElem_cons hi]
    · rw [if_neg hi]
      simp only
      rw [List.drop_eq_nil_of_le (by omega)]

theorem each_soi (items : DB) (fuel : Nat) (h : items.length < fuel) :
    each fuel ⟨items, .soi⟩ = items := by
  cases fuel with
  | zero => omega
  | succ fuel =>
    simp only [each, next]
    cases items with
    | nil => simp
    | cons e es =>
      rw [if_pos (by simp)]
      simp only [entry, List.getElem?_cons_zero]
      rw [each_at (e :: es) fuel 0 (by simp at h ⊢; omega)]
      simp

theorem each_eoi (items : DB) (fuel : Nat) : each fuel ⟨items, .eoi⟩ = [] := by
  cases fuel <;> simp [each, next]

end DbIter
end RangeDB.KV

namespace RangeDB.LD

open KV

theorem beBytes_length (k n : Nat) : (beBytes k n).length = k := by
  induction k generalizing n with
  | zero => rfl
  | succ k ih => simp [beBytes, ih]

theorem ltKey_beBytes (k n m : Nat) (hn : n < 256 ^ k) (hm : m < 256 ^ k) :
    ltKey (beBytes k n) (beBytes k m) = decide (n < m) := by
  induction k generalizing n m with
  | zero =>
    have : n = 0 := by simpa using hn
    have : m = 0 := by simpa using hm
    subst_vars; simp [beBytes, ltKey]
  | succ k ih =>
    have hp : 0 < 256 ^ k := Nat.pow_pos (by omega)
    simp only [beBytes, ltKey]
    have e1 := Nat.div_add_mod n (256 ^ k)
    have e2 := Nat.div_add_mod m (256 ^ k)
    have l1 := Nat.mod_lt n hp
    have l2 := Nat.mod_lt m hp
    by_cases h1 : n / 256 ^ k < m / 256 ^ k
    · rw [if_pos h1]
      have : 256 ^ k * (n / 256 ^ k) + 256 ^ k ≤ 256 ^ k * (m / 256 ^ k) := by
        rw [← Nat.mul_succ]; exact Nat.mul_le_mul_left _ h1
      symm; simp; omega
    · rw [if_neg h1]
      by_cases h2 : m / 256 ^ k < n / 256 ^ k
      · rw [if_pos h2]
        have : 256 ^ k * (m / 256 ^ k) + 256 ^ k ≤ 256 ^ k * (n / 256 ^ k) := by
          rw [← Nat.mul_succ]; exact Nat.mul_le_mul_left _ h2
        symm; simp; omega
      · rw [if_neg h2, ih _ _ l1 l2]
        have : n / 256 ^ k = m / 256 ^ k := by omega
        rw [this] at e1
        congr 1
        apply propext
        omega

theorem foldl_beBytes (k n acc : Nat) (hn : n < 256 ^ k) :
    (beBytes k n).foldl (fun acc x => acc * 256 + x) acc = acc * 256 ^ k + n := by
  induction k generalizing n acc with
  | zero => have : n = 0 := by simpa using hn
            subst this; simp [beBytes]
  | succ k ih =>
    have hp : 0 < 256 ^ k := Nat.pow_pos (by omega)
    simp only [beBytes, List.foldl_cons]
    rw [ih _ _ (Nat.mod_lt n hp)]
    have e1 := Nat.div_add_mod n (256 ^ k)
    rw [Nat.add_mul, Nat.pow_succ, Nat.mul_assoc, Nat.mul_comm 256 (256 ^ k), Nat.add_assoc,
      Nat.mul_comm (n / 256 ^ k), e1]

theorem pow_64 : 2 ^ 64 = 256 ^ 8 := by decide

theorem uint64_length (n : Nat) : (uint64ToBytes n).length = 8 := beBytes_length _ _

theorem beBytes_lt : ∀ (k n : Nat), n < 256 ^ k → ∀ c ∈ beBytes k n, c < 256
  | 0, _, _, c, hc => by simp [beBytes] at hc
  | k + 1, n, hn, c, hc => by
    simp only [beBytes, List.mem_cons] at hc
    rcases hc with rfl | hc
    · rw [Nat.pow_succ, Nat.mul_comm] at hn
      exact (Nat.div_lt_iff_lt_mul (Nat.pow_pos (by omega))).mpr hn
    · exact beBytes_lt k _ (Nat.mod_lt _ (Nat.pow_pos (by omega))) c hc

theorem uint64_lt (n : Nat) : ∀ c ∈ uint64ToBytes n, c < 256 :=
  beBytes_lt 8 _ (by rw [show (256 : Nat) ^ 8 = 2 ^ 64 from by decide]; exact Nat.mod_lt _ (by decide))

/-- Every text of `k` bytes spells a number. -/
theorem beBytes_surj : ∀ (x : Str), (∀ c ∈ x, c < 256) → ∃ n, n < 256 ^ x.length ∧ x = beBytes x.length n
  | [], _ => ⟨0, by simp, rfl⟩
  | c :: cs, h => by
    obtain ⟨n, hn, he⟩ := beBytes_surj cs (fun d hd => h d (by simp [hd]))
    have hc := h c (by simp)
    have hp : 0 < 256 ^ cs.length := Nat.pow_pos (by omega)
    refine ⟨c * 256 ^ cs.length + n, ?_, ?_⟩
    · rw [List.length_cons, Nat.pow_succ]
      have : (c + 1) * 256 ^ cs.length ≤ 256 * 256 ^ cs.length := Nat.mul_le_mul_right _ hc
      rw [Nat.add_mul] at this
      omega
    · simp only [List.length_cons, beBytes]
      rw [Nat.mul_comm c, Nat.mul_add_div hp, Nat.div_eq_of_lt hn, Nat.mul_add_mod,
        Nat.mod_eq_of_lt hn, ← he]
      simp

theorem uint64_surj {x : Str} (hl : x.length = 8) (h : ∀ c ∈ x, c < 256) :
    ∃ n, n < 2 ^ 64 ∧ x = uint64ToBytes n := by
  obtain ⟨n, hn, he⟩ := beBytes_surj x h
  rw [hl] at hn he
  have hn' : n < 2 ^ 64 := hn
  exact ⟨n, hn', by unfold uint64ToBytes; rw [Nat.mod_eq_of_lt hn']; exact he⟩

theorem bytes_uint64 (n : Nat) (hn : n < 2 ^ 64) : bytesToUint64 (uint64ToBytes n) = n := by
  unfold bytesToUint64
  rw [if_neg (by rw [uint64_length]; omega), List.take_of_length_le (by rw [uint64_length]; omega)]
  unfold uint64ToBytes
  rw [Nat.mod_eq_of_lt hn, foldl_beBytes _ _ _ (by rw [← pow_64]; exact hn)]
  simp

theorem uint64_inj {n m : Nat} (hn : n < 2 ^ 64) (hm : m < 2 ^ 64)
    (h : uint64ToBytes n = uint64ToBytes m) : n = m := by
  rw [← bytes_uint64 n hn, ← bytes_uint64 m hm, h]

theorem ltKey_uint64 (n m : Nat) (hn : n < 2 ^ 64) (hm : m < 2 ^ 64) :
    ltKey (uint64ToBytes n) (uint64ToBytes m) = decide (n < m) := by
  unfold uint64ToBytes
  rw [Nat.mod_eq_of_lt hn, Nat.mod_eq_of_lt hm]
  exact ltKey_beBytes 8 n m (by rw [← pow_64]; exact hn) (by rw [← pow_64]; exact hm)

theorem noSep_tail {a : Nat} {s : Str} (h : NoSep (a :: s) = true) : NoSep s = true := by
  cases s with
  | nil => rfl
  | cons b r => simp only [NoSep, Bool.and_eq_true] at h; exact h.2

/-- `NoSep` says what it is meant to say. -/
theorem noSep_iff (s : Str) : NoSep s = true ↔ ¬ ∃ a b, s = a ++ [36, 33] ++ b := by
  induction s with
  | nil => simp [NoSep]
  | cons x xs ih =>
    cases xs with
    | nil =>
      simp only [NoSep, true_iff]
      rintro ⟨a, b, h⟩
      have := congrArg List.length h
      simp at this
      omega
    | cons y ys =>
      simp only [NoSep, Bool.and_eq_true, ih]
      constructor
      · rintro ⟨h1, h2⟩ ⟨a, b, h⟩
        cases a with
        | nil => simp at h; obtain ⟨rfl, rfl, _⟩ := h; simp at h1
        | cons u us => simp at h; exact h2 ⟨us, b, by simp [h.2]⟩
      · intro h
        refine ⟨?_, ?_⟩
        · cases h1 : (x == 36 && y == 33) with
          | false => rfl
          | true =>
            simp at h1
            exact absurd ⟨[], ys, by simp [h1.1, h1.2]⟩ h
        · rintro ⟨a, b, h'⟩
          exact h ⟨x :: a, b, by simp [h']⟩

/-- A name terminated by `$!` determines where it ends. -/
theorem sep_unique {a b : Str} (ha : NoSep a = true) (hb : NoSep b = true) (x : Str)
    (h : a ++ [36, 33] <+: b ++ [36, 33] ++ x) : a = b := by
  induction a generalizing b with
  | nil =>
    cases b with
    | nil => rfl
    | cons y ys =>
      exfalso
      cases ys with
      | nil =>
        simp only [List.nil_append, List.cons_append, List.cons_prefix_cons] at h
        omega
      | cons w ws =>
        simp only [List.nil_append, List.cons_append, List.cons_prefix_cons] at h
        simp only [NoSep, Bool.and_eq_true] at hb
        have := hb.1
        simp [← h.1, ← h.2.1] at this
  | cons u us ih =>
    cases b with
    | nil =>
      exfalso
      cases us with
      | nil =>
        simp only [List.nil_append, List.cons_append, List.cons_prefix_cons] at h
        omega
      | cons w ws =>
        simp only [List.nil_append, List.cons_append, List.cons_prefix_cons] at h
        simp only [NoSep, Bool.and_eq_true] at ha
        have := ha.1
        simp [h.1, h.2.1] at this
    | cons y ys =>
      simp only [List.cons_append, List.cons_prefix_cons] at h
      rw [h.1, ih (noSep_tail ha) (noSep_tail hb) h.2]

/-- Names without `$!` never clash. -/
def _root_.RangeDB.Names.plain : Names where
  streams s := NoSep s = true
  types s := NoSep s = true
  streams_apart _ _ ha hb h := by obtain ⟨x, _, _, hx⟩ := h; exact sep_unique ha hb x hx
  types_apart _ _ ha hb h := by obtain ⟨x, _, _, hx⟩ := h; exact sep_unique ha hb x hx

theorem clash_uint64 {a b : Str} {n : Nat} (h : a ++ [36, 33] <+: b ++ [36, 33] ++ uint64ToBytes n) :
    Clash a b :=
  ⟨uint64ToBytes n, uint64_length n, uint64_lt n, h⟩

/-- The key of an event in its stream. -/
def streamKey (st : Str) (n : Nat) : Str := getKeyWithNumber (getStreamKeyPrefix st) n
/-- The key of an event in its aggregate type. -/
def typeKey (t : Str) (g : Nat) : Str := getKeyWithNumber (getAggregateTypeKeyPrefix t) g
/-- The key of an event in the list of all events. -/
def allKey (g : Nat) : Str := getKeyWithNumber allEventsPrefix g

theorem streamKey_inj {st st' : Str} {n n' : Nat} (hn : n < 2 ^ 64) (hn' : n' < 2 ^ 64)
    (h : streamKey st n = streamKey st' n') : st = st' ∧ n = n' := by
  unfold streamKey getKeyWithNumber at h
  have := List.append_inj' h (by rw [uint64_length, uint64_length])
  refine ⟨?_, uint64_inj hn hn' this.2⟩
  have h1 := this.1
  unfold getStreamKeyPrefix at h1
  exact (List.append_inj' (List.append_cancel_left h1) rfl).1

theorem typeKey_inj {st st' : Str} {n n' : Nat} (hn : n < 2 ^ 64) (hn' : n' < 2 ^ 64)
    (h : typeKey st n = typeKey st' n') : st = st' ∧ n = n' := by
  unfold typeKey getKeyWithNumber at h
  have := List.append_inj' h (by rw [uint64_length, uint64_length])
  refine ⟨?_, uint64_inj hn hn' this.2⟩
  have h1 := this.1
  unfold getAggregateTypeKeyPrefix at h1
  exact (List.append_inj' (List.append_cancel_left h1) rfl).1

theorem allKey_inj {n n' : Nat} (hn : n < 2 ^ 64) (hn' : n' < 2 ^ 64)
    (h : allKey n = allKey n') : n = n' :=
  uint64_inj hn hn' (List.append_cancel_left h)

theorem stream_ne_type (a b : Str) (n m : Nat) : streamKey a n ≠ typeKey b m := by
  simp [streamKey, typeKey, getKeyWithNumber, getStreamKeyPrefix, getAggregateTypeKeyPrefix,
    streamPrefix, aggregateTypePrefix]
theorem stream_ne_all (a : Str) (n m : Nat) : streamKey a n ≠ allKey m := by
  simp [streamKey, allKey, getKeyWithNumber, getStreamKeyPrefix, allEventsPrefix, streamPrefix]
theorem type_ne_all (a : Str) (n m : Nat) : typeKey a n ≠ allKey m := by
  simp [typeKey, allKey, getKeyWithNumber, getAggregateTypeKeyPrefix, allEventsPrefix,
    aggregateTypePrefix]
theorem stream_ne_gsn (a : Str) (n : Nat) : streamKey a n ≠ globalSequenceNumberKey := by
  simp [streamKey, getKeyWithNumber, getStreamKeyPrefix, globalSequenceNumberKey, streamPrefix]
theorem type_ne_gsn (a : Str) (n : Nat) : typeKey a n ≠ globalSequenceNumberKey := by
  simp [typeKey, getKeyWithNumber, getAggregateTypeKeyPrefix, globalSequenceNumberKey,
    aggregateTypePrefix]
theorem all_ne_gsn (n : Nat) : allKey n ≠ globalSequenceNumberKey := by
  simp [allKey, getKeyWithNumber, allEventsPrefix, globalSequenceNumberKey]

/-- Which keys lie under the prefix of stream `st`. -/
theorem streamPrefix_stream {N : Names} {st st' : Str} (h : N.streams st) (h' : N.streams st') (n : Nat) :
    getStreamKeyPrefix st <+: streamKey st' n ↔ st' = st := by
  unfold streamKey getKeyWithNumber getStreamKeyPrefix
  rw [List.append_assoc, List.prefix_append_right_inj]
  constructor
  · intro hp; exact (N.streams_apart _ _ h h' (clash_uint64 hp)).symm
  · rintro rfl; exact List.prefix_append _ _

theorem streamPrefix_type (st t : Str) (n : Nat) : ¬ getStreamKeyPrefix st <+: typeKey t n := by
  simp [typeKey, getKeyWithNumber, getStreamKeyPrefix, getAggregateTypeKeyPrefix,
    streamPrefix, aggregateTypePrefix]
theorem streamPrefix_all (st : Str) (n : Nat) : ¬ getStreamKeyPrefix st <+: allKey n := by
  simp [allKey, getKeyWithNumber, getStreamKeyPrefix, allEventsPrefix, streamPrefix]
theorem streamPrefix_gsn (st : Str) : ¬ getStreamKeyPrefix st <+: globalSequenceNumberKey := by
  simp [getStreamKeyPrefix, globalSequenceNumberKey, streamPrefix]

theorem typePrefix_type {N : Names} {t t' : Str} (h : N.types t) (h' : N.types t') (n : Nat) :
    getAggregateTypeKeyPrefix t <+: typeKey t' n ↔ t' = t := by
  unfold typeKey getKeyWithNumber getAggregateTypeKeyPrefix
  rw [List.append_assoc, List.prefix_append_right_inj]
  constructor
  · intro hp; exact (N.types_apart _ _ h h' (clash_uint64 hp)).symm
  · rintro rfl; exact List.prefix_append _ _

theorem typePrefix_stream (t st : Str) (n : Nat) :
    ¬ getAggregateTypeKeyPrefix t <+: streamKey st n := by
  simp [streamKey, getKeyWithNumber, getStreamKeyPrefix, getAggregateTypeKeyPrefix,
    streamPrefix, aggregateTypePrefix]
theorem typePrefix_all (t : Str) (n : Nat) : ¬ getAggregateTypeKeyPrefix t <+: allKey n := by
  simp [allKey, getKeyWithNumber, getAggregateTypeKeyPrefix, allEventsPrefix, aggregateTypePrefix]
theorem typePrefix_gsn (t : Str) : ¬ getAggregateTypeKeyPrefix t <+: globalSequenceNumberKey := by
  simp [getAggregateTypeKeyPrefix, globalSequenceNumberKey, aggregateTypePrefix]

theorem allPrefix_all (n : Nat) : allEventsPrefix <+: allKey n := List.prefix_append _ _
theorem allPrefix_stream (st : Str) (n : Nat) : ¬ allEventsPrefix <+: streamKey st n := by
  simp [streamKey, getKeyWithNumber, getStreamKeyPrefix, streamPrefix, allEventsPrefix]
theorem allPrefix_type (t : Str) (n : Nat) : ¬ allEventsPrefix <+: typeKey t n := by
  simp [typeKey, getKeyWithNumber, getAggregateTypeKeyPrefix, aggregateTypePrefix, allEventsPrefix]
theorem allPrefix_gsn : ¬ allEventsPrefix <+: globalSequenceNumberKey := by
  simp [globalSequenceNumberKey, allEventsPrefix]

end RangeDB.LD

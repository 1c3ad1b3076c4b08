import Verif.Spec.EventParser
import Verif.Proof.Text
import Verif.Thm.Crypto

/-! # Lemmas about the event generator -/

namespace RangeDB.Gen

open Cry Key

variable {σ : Type} {unq : Str → Option Str}

/-! ## Reading tags -/

theorem keyChar_of {s : Str} (h : PlainKey s) : ∀ c ∈ s, keyChar c = true := by
  intro c hc
  obtain ⟨_, h1, h2, h3⟩ := h
  have := h1 c hc
  have h4 : c ≠ 32 := fun e => h2 (e ▸ hc)
  have h5 : c ≠ 58 := fun e => h3 (e ▸ hc)
  simp [keyChar]; omega

theorem takeWhile_key {k : Str} (h : ∀ c ∈ k, keyChar c = true) (x : Str) :
    (k ++ 58 :: x).takeWhile keyChar = k := by
  induction k with
  | nil => simp [keyChar]
  | cons c k ih =>
    simp only [List.cons_append, List.takeWhile_cons, h c List.mem_cons_self, if_true]
    rw [ih (fun c hc => h c (List.mem_cons_of_mem _ hc))]

theorem dropWhile_key {k : Str} (h : ∀ c ∈ k, keyChar c = true) (x : Str) :
    (k ++ 58 :: x).dropWhile keyChar = 58 :: x := by
  induction k with
  | nil => simp [keyChar]
  | cons c k ih =>
    simp only [List.cons_append, List.dropWhile_cons, h c List.mem_cons_self, if_true]
    rw [ih (fun c hc => h c (List.mem_cons_of_mem _ hc))]

theorem scanQuoted_plain {v : Str} (h : PlainText v) (x : Str) :
    scanQuoted (v ++ 34 :: x) = some (v, x) := by
  induction v with
  | nil => cases x <;> simp [scanQuoted]
  | cons c v ih =>
    have hc := h c List.mem_cons_self
    have ih := ih (fun d hd => h d (List.mem_cons_of_mem _ hd))
    rw [List.cons_append]
    cases hx : v ++ 34 :: x with
    | nil => simp at hx
    | cons d cs =>
      rw [hx] at ih
      rw [scanQuoted, if_neg (by omega), if_neg (by omega), ih]
      rfl

theorem parseLoop_tag (hu : UnquoteOk unq) {p : Str × Str} (hk : PlainKey p.1) (hv : PlainText p.2)
    (fuel : Nat) (x : Str) :
    parseLoop unq (fuel + 1) (tagText p ++ x)
      = (parseLoop unq fuel x).map (fun ts => mkTag p.1 p.2 :: ts) := by
  obtain ⟨k, v⟩ := p
  simp only at hk hv
  have hkc := keyChar_of hk
  have he : tagText (k, v) ++ x = k ++ 58 :: (34 :: (v ++ 34 :: x)) := by simp [tagText]
  have hd : (tagText (k, v) ++ x).dropWhile (· == 32) = tagText (k, v) ++ x := by
    rw [he]
    cases k with
    | nil => exact absurd rfl hk.1
    | cons c k =>
      have : c ≠ 32 := fun e => hk.2.2.1 (e ▸ List.mem_cons_self)
      rw [List.cons_append, List.dropWhile_cons]
      simp [this]
  simp only [parseLoop]
  rw [hd, he, if_neg (by simp), takeWhile_key hkc, dropWhile_key hkc, if_neg hk.1]
  simp only [scanQuoted_plain hv]
  rw [hu v hv]

theorem parseLoop_space (fuel : Nat) (x : Str) :
    parseLoop unq fuel (32 :: x) = parseLoop unq fuel x := by
  cases fuel with
  | zero => rfl
  | succ f => simp only [parseLoop, List.dropWhile_cons]; simp

theorem parseLoop_tags (hu : UnquoteOk unq) : ∀ (l : List (Str × Str)) (fuel : Nat), l.length < fuel →
    (∀ p ∈ l, PlainKey p.1 ∧ PlainText p.2) →
    parseLoop unq fuel (tagsText l) = some (l.map (fun p => mkTag p.1 p.2))
  | [], fuel, hf, _ => by
    cases fuel with
    | zero => simp at hf
    | succ f => simp [parseLoop, tagsText]
  | [p], fuel, hf, h => by
    have hp := h p List.mem_cons_self
    cases fuel with
    | zero => simp at hf
    | succ f =>
      have := parseLoop_tag hu hp.1 hp.2 f []
      rw [List.append_nil] at this
      rw [tagsText, this]
      cases f with
      | zero => simp at hf
      | succ f => simp [parseLoop]
  | p :: q :: ps, fuel, hf, h => by
    have hp := h p List.mem_cons_self
    cases fuel with
    | zero => simp at hf
    | succ f =>
      rw [tagsText, List.append_assoc, parseLoop_tag hu hp.1 hp.2 f]
      rw [show [32] ++ tagsText (q :: ps) = 32 :: tagsText (q :: ps) from rfl, parseLoop_space,
        parseLoop_tags hu (q :: ps) f (by simp at hf ⊢; omega)
          (fun p hp => h p (List.mem_cons_of_mem _ hp))]
      rfl

theorem tagsText_length : ∀ (l : List (Str × Str)), l.length ≤ (tagsText l).length
  | [] => by simp [tagsText]
  | [p] => by simp [tagsText, tagText]; omega
  | p :: q :: ps => by
    have := tagsText_length (q :: ps)
    simp only [tagsText, List.length_append, List.length_cons, tagText] at *
    omega

theorem tagsText_ne {l : List (Str × Str)} (h : l ≠ []) : tagsText l ≠ [] := by
  intro e
  have := tagsText_length l
  rw [e] at this
  cases l with
  | nil => exact h rfl
  | cons _ _ => simp at this

theorem parse_tags (hu : UnquoteOk unq) (l : List (Str × Str)) (hl : l ≠ [])
    (h : ∀ p ∈ l, PlainKey p.1 ∧ PlainText p.2) :
    parse unq (tagsText l) = .ok (l.map (fun p => mkTag p.1 p.2)) := by
  have := tagsText_length l
  simp only [parse]
  rw [parseLoop_tags hu l _ (by omega) h]
  simp only [List.map_eq_nil_iff, hl, and_false, if_false]

/-! ## Source text -/

theorem dropTicks_none {s : Str} (h : 96 ∉ s) (n : Nat) : dropTicks n s = s := by
  induction s generalizing n with
  | nil => cases n <;> rfl
  | cons c s ih =>
    cases n with
    | zero => rfl
    | succ n =>
      have h1 : c ≠ 96 := fun e => h (e ▸ List.mem_cons_self)
      rw [dropTicks, if_neg h1, ih (fun hc => h (List.mem_cons_of_mem _ hc))]

theorem dropTicks_ticks {s : Str} (h : 96 ∉ s) : dropTicks 2 ([96] ++ s ++ [96]) = s := by
  have : ∀ t : Str, 96 ∉ t → dropTicks 1 (t ++ [96]) = t := by
    intro t
    induction t with
    | nil => intro _; rfl
    | cons c t ih =>
      intro ht
      have h1 : c ≠ 96 := fun e => ht (e ▸ List.mem_cons_self)
      rw [List.cons_append, dropTicks, if_neg h1, ih (fun hc => ht (List.mem_cons_of_mem _ hc))]
  rw [List.append_assoc, List.singleton_append, dropTicks, if_pos rfl, this s h]

theorem tagsText_ticks : ∀ (l : List (Str × Str)), (∀ p ∈ l, PlainKey p.1 ∧ PlainText p.2) →
    96 ∉ tagsText l
  | [], _ => by simp [tagsText]
  | [p], h => by
    obtain ⟨h1, h2⟩ := h p List.mem_cons_self
    have a1 : 96 ∉ p.1 := fun hc => (h1.2.1 _ hc).2.2.2.2 rfl
    have a2 : 96 ∉ p.2 := fun hc => (h2 _ hc).2.2.2.2 rfl
    simp [tagsText, tagText, a1, a2]
  | p :: q :: ps, h => by
    obtain ⟨h1, h2⟩ := h p List.mem_cons_self
    have a1 : 96 ∉ p.1 := fun hc => (h1.2.1 _ hc).2.2.2.2 rfl
    have a2 : 96 ∉ p.2 := fun hc => (h2 _ hc).2.2.2.2 rfl
    have := tagsText_ticks (q :: ps) (fun p hp => h p (List.mem_cons_of_mem _ hp))
    simp [tagsText, tagText, a1, a2, this]

theorem escaped_ticks {s : Str} (h : 96 ∉ s) : 96 ∉ escaped s := by
  induction s with
  | nil => simp [escaped]
  | cons c s ih =>
    have h1 : c ≠ 96 := fun e => h (e ▸ List.mem_cons_self)
    have h2 := ih (fun hc => h (List.mem_cons_of_mem _ hc))
    simp only [escaped]
    split
    · simp [h2]
    · simp [h2]; omega

theorem parse_quote (s : Str) : parse unq (34 :: s) = .bad := by
  simp only [parse, List.length_cons, parseLoop, List.dropWhile_cons]
  simp [keyChar]

theorem plainKey_encrypt : PlainKey kEncrypt := by
  refine ⟨by decide, ?_, by decide, by decide⟩
  intro c hc; revert c; decide

theorem plainKey_serialized : PlainKey kSerialized := by
  refine ⟨by decide, ?_, by decide, by decide⟩
  intro c hc; revert c; decide

theorem plainText_subject : PlainText vSubject := by intro c hc; revert c; decide
theorem plainText_personal : PlainText vPersonal := by intro c hc; revert c; decide

theorem FieldDecl.Good.tags {d : FieldDecl} (h : d.Good) :
    ∀ p ∈ d.tags, PlainKey p.1 ∧ PlainText p.2 := by
  intro p hp
  simp only [FieldDecl.tags, List.mem_append] at hp
  have hk := h.keys p
  simp only [List.mem_append] at hk
  rcases hp with (hp | hp) | hp
  · exact ⟨(hk (Or.inl hp)).1, (hk (Or.inl hp)).2.1⟩
  · cases hm : d.mark with
    | plain => simp [hm, Mark.tags] at hp
    | subject =>
      simp only [hm, Mark.tags, List.mem_singleton] at hp
      subst hp; exact ⟨plainKey_encrypt, plainText_subject⟩
    | personal =>
      simp only [hm, Mark.tags, List.mem_singleton] at hp
      subst hp; exact ⟨plainKey_encrypt, plainText_personal⟩
    | serialized t =>
      simp only [hm, Mark.tags, List.mem_cons, List.not_mem_nil, or_false] at hp
      rcases hp with rfl | rfl
      · exact ⟨plainKey_encrypt, plainText_personal⟩
      · exact ⟨plainKey_serialized, (h.target t hm).2.1⟩
  · exact ⟨(hk (Or.inr hp)).1, (hk (Or.inr hp)).2.1⟩

/-- Nothing but the mark decides what `Get` finds. -/
theorem get_tags {d : FieldDecl} (h : d.Good) (k : Str) (hk : k = kEncrypt ∨ k = kSerialized) :
    get (d.tags.map (fun p => mkTag p.1 p.2)) k = get (d.mark.tags.map (fun p => mkTag p.1 p.2)) k := by
  have hkey : ∀ (p : Str × Str), (mkTag p.1 p.2).key = p.1 := by
    intro p; simp only [mkTag]; split <;> rfl
  have hno : ∀ l : List (Str × Str), (∀ p ∈ l, p.1 ≠ kEncrypt ∧ p.1 ≠ kSerialized) →
      (l.map (fun p => mkTag p.1 p.2)).find? (fun t => t.key = k) = none := by
    intro l hl
    rw [List.find?_eq_none]
    intro t ht
    obtain ⟨p, hp, rfl⟩ := List.mem_map.mp ht
    have := hl p hp
    rw [hkey]
    rcases hk with rfl | rfl
    · simpa using this.1
    · simpa using this.2
  have hb := hno d.before (fun p hp => ⟨(h.keys p (List.mem_append_left _ hp)).2.2.1,
    (h.keys p (List.mem_append_left _ hp)).2.2.2⟩)
  have ha := hno d.after (fun p hp => ⟨(h.keys p (List.mem_append_right _ hp)).2.2.1,
    (h.keys p (List.mem_append_right _ hp)).2.2.2⟩)
  simp only [get, FieldDecl.tags, List.map_append, List.find?_append, hb, ha, Option.none_or,
    Option.or_none]

/-! ## The visitor -/

/-- What one declaration adds, in terms of its mark. -/
def accOf (a : Acc) (d : FieldDecl) : Acc :=
  match d.names with
  | [] => a
  | n :: _ =>
    if d.raw then
      match d.mark with
      | .plain => a
      | .subject => { a with subject := n }
      | .personal => { a with fields := a.fields ++ [n] }
      | .serialized t => { a with ser := put t n a.ser }
    else a

theorem mkTag_plain (k : Str) {v : Str} (h : 44 ∉ v) : mkTag k v = ⟨k, v, []⟩ := by
  simp only [mkTag, Txt.split_none (Txt.cut_byte_none h)]

theorem collectField_source (hu : UnquoteOk unq) {d : FieldDecl} (h : d.Good) (a : Acc) :
    collectField unq a d.source = some (accOf a d) := by
  obtain ⟨n, ns, hn⟩ : ∃ n ns, d.names = n :: ns := by
    cases hd : d.names with
    | nil => exact absurd hd h.named.1
    | cons n ns => exact ⟨n, ns, rfl⟩
  by_cases ht : d.tags = []
  · have hm : d.mark = .plain := by
      cases hm : d.mark <;> simp [FieldDecl.tags, hm, Mark.tags] at ht
      rfl
    simp only [collectField, FieldDecl.source, if_pos ht, accOf, hn, hm]
    split <;> simp
  · have hticks := tagsText_ticks d.tags h.tags
    by_cases hr : d.raw = true
    · have e1 : parse unq (dropTicks 2 ([96] ++ tagsText d.tags ++ [96]))
          = .ok (d.tags.map (fun p => mkTag p.1 p.2)) := by
        rw [dropTicks_ticks hticks, parse_tags hu _ ht h.tags]
      simp only [collectField, FieldDecl.source, if_neg ht, hn, hr, if_true, accOf]
      rw [e1]
      simp only
      rw [get_tags h kEncrypt (Or.inl rfl), get_tags h kSerialized (Or.inr rfl)]
      cases hm : d.mark with
      | plain => simp [Mark.tags, get]
      | subject =>
        have : mkTag kEncrypt vSubject = ⟨kEncrypt, vSubject, []⟩ := mkTag_plain _ (by decide)
        simp [Mark.tags, get, this, Tag.value, Txt.join]
      | personal =>
        have : mkTag kEncrypt vPersonal = ⟨kEncrypt, vPersonal, []⟩ := mkTag_plain _ (by decide)
        have h2 : vPersonal ≠ vSubject := by decide
        have h3 : kEncrypt ≠ kSerialized := by decide
        simp [Mark.tags, get, this, Tag.value, Txt.join, h2, h3]
      | serialized t =>
        have : mkTag kEncrypt vPersonal = ⟨kEncrypt, vPersonal, []⟩ := mkTag_plain _ (by decide)
        have h2 : vPersonal ≠ vSubject := by decide
        have h3 : kEncrypt ≠ kSerialized := by decide
        have h4 := mkTag_plain kSerialized (h.target t hm).2.2
        simp [Mark.tags, get, this, Tag.value, Txt.join, h2, h3, h4]
    · have e1 : parse unq (dropTicks 2 ([34] ++ escaped (tagsText d.tags) ++ [34])) = .bad := by
        rw [dropTicks_none (by have := escaped_ticks hticks; simp [this])]
        exact parse_quote _
      simp only [collectField, FieldDecl.source, if_neg ht, hn, accOf, hr]
      rw [show (if false = true then [96] ++ tagsText d.tags ++ [96]
        else [34] ++ escaped (tagsText d.tags) ++ [34]) = [34] ++ escaped (tagsText d.tags) ++ [34] from rfl, e1]
      simp

theorem collect_source (hu : UnquoteOk unq) : ∀ (ds : List FieldDecl) (a : Acc), (∀ d ∈ ds, d.Good) →
    collect unq a (ds.map FieldDecl.source) = some (ds.foldl accOf a)
  | [], _, _ => rfl
  | d :: ds, a, h => by
    rw [List.map_cons, collect, collectField_source hu (h d List.mem_cons_self)]
    exact collect_source hu ds _ (fun d hd => h d (List.mem_cons_of_mem _ hd))

/-- The generator's result for declarations as programmers write them. -/
theorem visit_source (hu : UnquoteOk unq) (ds : List FieldDecl) (h : ∀ d ∈ ds, d.Good) :
    visit unq (ds.map FieldDecl.source) =
      if (ds.map FieldDecl.source).any (badTarget (ds.foldl accOf ⟨[], [], []⟩).ser) then .err
      else if (ds.foldl accOf ⟨[], [], []⟩).subject ≠ [] then
        .ok (some ⟨(ds.foldl accOf ⟨[], [], []⟩).subject, (ds.foldl accOf ⟨[], [], []⟩).fields,
          (ds.foldl accOf ⟨[], [], []⟩).ser⟩)
      else .ok none := by
  simp only [visit, collect_source hu ds _ h]

theorem accOf_fields (ds : List FieldDecl) (a : Acc) :
    ∀ n ∈ (ds.foldl accOf a).fields, n ∈ a.fields ∨
      ∃ d ∈ ds, d.raw = true ∧ d.mark = .personal ∧ d.names.head? = some n := by
  induction ds generalizing a with
  | nil => intro n hn; exact Or.inl hn
  | cons d ds ih =>
    intro n hn
    rcases ih _ n hn with h | ⟨d', hd', h⟩
    · simp only [accOf] at h
      split at h
      · exact Or.inl h
      · rename_i m ms hm
        split at h
        · rename_i hr
          split at h
          · exact Or.inl h
          · exact Or.inl h
          · rename_i hp
            simp only [List.mem_append, List.mem_singleton] at h
            rcases h with h | rfl
            · exact Or.inl h
            · exact Or.inr ⟨d, List.mem_cons_self, hr, hp, by simp [hm]⟩
          · exact Or.inl h
        · exact Or.inl h
    · exact Or.inr ⟨d', List.mem_cons_of_mem _ hd', h⟩

theorem mem_put {k v : Str} {l : List (Str × Str)} {p : Str × Str} (h : p ∈ put k v l) :
    p = (k, v) ∨ (p ∈ l) := by
  induction l with
  | nil => simp only [put, List.mem_singleton] at h; exact Or.inl h
  | cons q l ih =>
    simp only [put] at h
    split at h
    · rcases List.mem_cons.mp h with h | h
      · exact Or.inl h
      · exact Or.inr (List.mem_cons_of_mem _ h)
    · rcases List.mem_cons.mp h with h | h
      · exact Or.inr (h ▸ List.mem_cons_self)
      · exact (ih h).imp id (List.mem_cons_of_mem _)

theorem accOf_ser (ds : List FieldDecl) (a : Acc) :
    ∀ p ∈ (ds.foldl accOf a).ser, p ∈ a.ser ∨
      ∃ d ∈ ds, d.raw = true ∧ d.mark = .serialized p.1 ∧ d.names.head? = some p.2 := by
  induction ds generalizing a with
  | nil => intro n hn; exact Or.inl hn
  | cons d ds ih =>
    intro p hp
    rcases ih _ p hp with h | ⟨d', hd', h⟩
    · simp only [accOf] at h
      split at h
      · exact Or.inl h
      · rename_i m ms hm
        split at h
        · rename_i hr
          split at h
          · exact Or.inl h
          · exact Or.inl h
          · exact Or.inl h
          · rename_i t ht
            rcases mem_put h with rfl | h
            · exact Or.inr ⟨d, List.mem_cons_self, hr, ht, by simp [hm]⟩
            · exact Or.inl h
        · exact Or.inl h
    · exact Or.inr ⟨d', List.mem_cons_of_mem _ hd', h⟩

theorem accOf_subject (ds : List FieldDecl) (a : Acc) :
    (ds.foldl accOf a).subject = a.subject ∨
      ∃ d ∈ ds, d.raw = true ∧ d.mark = .subject ∧ d.names.head? = some (ds.foldl accOf a).subject := by
  induction ds generalizing a with
  | nil => exact Or.inl rfl
  | cons d ds ih =>
    rw [List.foldl_cons]
    rcases ih (accOf a d) with h | ⟨d', hd', h⟩
    · rw [h]
      simp only [accOf]
      split
      · exact Or.inl rfl
      · rename_i m ms hm
        split
        · rename_i hr
          split
          · exact Or.inl rfl
          · rename_i hs
            exact Or.inr ⟨d, List.mem_cons_self, hr, hs, by simp [hm]⟩
          · exact Or.inl rfl
          · exact Or.inl rfl
        · exact Or.inl rfl
    · exact Or.inr ⟨d', List.mem_cons_of_mem _ hd', h⟩

/-! ## Assignments -/

theorem assign_notMem {α : Type} {l : List (Str × α)} {f : Str → α} {n : Str}
    (h : n ∉ l.map (·.1)) : assign l f n = f n := by
  induction l generalizing f with
  | nil => rfl
  | cons p l ih =>
    obtain ⟨m, x⟩ := p
    simp only [List.map_cons, List.mem_cons, not_or] at h
    rw [assign, ih h.2, if_neg h.1]

theorem assign_mem {α : Type} {l : List (Str × α)} {f : Str → α} {n : Str} {x : α}
    (hd : (l.map (·.1)).Nodup) (h : (n, x) ∈ l) : assign l f n = x := by
  induction l generalizing f with
  | nil => simp at h
  | cons p l ih =>
    obtain ⟨m, y⟩ := p
    simp only [List.map_cons, List.nodup_cons] at hd
    rcases List.mem_cons.mp h with h | h
    · obtain ⟨rfl, rfl⟩ := Prod.mk.injEq .. ▸ h
      rw [assign, assign_notMem hd.1, if_pos rfl]
    · rw [assign, ih hd.2 h]

theorem insertKey_perm (p : Str × Str) : ∀ l, (insertKey p l).Perm (p :: l)
  | [] => List.Perm.refl _
  | q :: qs => by
    simp only [insertKey]
    split
    · exact ((insertKey_perm p qs).cons q).trans (List.Perm.swap p q qs)
    · exact List.Perm.refl _

theorem sorted_perm (pd : PersonalData) : pd.sorted.Perm pd.ser := by
  have : ∀ l : List (Str × Str), (l.foldr insertKey []).Perm l := by
    intro l
    induction l with
    | nil => exact List.Perm.refl _
    | cons p l ih => exact (insertKey_perm p _).trans (ih.cons p)
  exact this pd.ser

theorem zip_fst_subset {α β : Type} {a : List α} {b : List β} {x : α}
    (h : x ∈ (a.zip b).map (·.1)) : x ∈ a := by
  obtain ⟨p, hp, rfl⟩ := List.mem_map.mp h
  exact (List.of_mem_zip hp).1

/-- A text field that is neither among the collected fields nor a target keeps its value. -/
theorem write_str (pd : PersonalData) (v : Val) (e : PEvent) {n : Str} (h1 : n ∉ pd.fields)
    (h2 : n ∉ pd.ser.map (·.1)) : (pd.write v e).str n = v.str n := by
  have h3 : n ∉ pd.sorted.map (·.1) := fun h => h2 (((sorted_perm pd).map (·.1)).mem_iff.mp h)
  simp only [PersonalData.write]
  rw [assign_notMem (fun h => h3 (zip_fst_subset h)), assign_notMem (fun h => h1 (zip_fst_subset h))]

/-- A number field that is not a source keeps its value. -/
theorem write_int (pd : PersonalData) (v : Val) (e : PEvent) {n : Str} (h : n ∉ pd.ser.map (·.2)) :
    (pd.write v e).int n = v.int n := by
  have h3 : n ∉ pd.sorted.map (·.2) := fun h' => h (((sorted_perm pd).map (·.2)).mem_iff.mp h')
  simp only [PersonalData.write]
  rw [assign_notMem (fun h => h3 (zip_fst_subset h))]

/-! ## Careful structs -/

theorem put_new {k v : Str} {l : List (Str × Str)} (h : k ∉ l.map (·.1)) : put k v l = l ++ [(k, v)] := by
  induction l with
  | nil => rfl
  | cons q l ih =>
    simp only [List.map_cons, List.mem_cons, not_or] at h
    rw [put, if_neg (fun e => h.1 e.symm), ih h.2]
    rfl

theorem careful_fields (ds : List FieldDecl) (a : Acc)
    (h1 : ∀ d ∈ ds, d.mark ≠ .plain → d.names.length = 1) (h2 : ∀ d ∈ ds, d.mark ≠ .plain → d.raw = true) :
    (ds.foldl accOf a).fields = a.fields ++ ds.flatMap FieldDecl.personal := by
  induction ds generalizing a with
  | nil => simp
  | cons d ds ih =>
    rw [List.foldl_cons, ih _ (fun d hd => h1 d (List.mem_cons_of_mem _ hd))
      (fun d hd => h2 d (List.mem_cons_of_mem _ hd)), List.flatMap_cons, ← List.append_assoc]
    congr 1
    by_cases hm : d.mark = .plain
    · simp only [accOf, FieldDecl.personal, hm]
      split
      · simp
      · split <;> simp
    · have hl := h1 d List.mem_cons_self hm
      have hr := h2 d List.mem_cons_self hm
      match hn : d.names with
      | [] => simp [hn] at hl
      | _ :: _ :: _ => simp [hn] at hl
      | [n] =>
        simp only [accOf, FieldDecl.personal, hn, hr, if_true]
        cases d.mark <;> simp

theorem careful_ser (ds : List FieldDecl) (a : Acc)
    (h1 : ∀ d ∈ ds, d.mark ≠ .plain → d.names.length = 1) (h2 : ∀ d ∈ ds, d.mark ≠ .plain → d.raw = true)
    (h3 : ((a.ser ++ ds.flatMap FieldDecl.numbers).map (·.1)).Nodup) :
    (ds.foldl accOf a).ser = a.ser ++ ds.flatMap FieldDecl.numbers := by
  induction ds generalizing a with
  | nil => simp
  | cons d ds ih =>
    have key : (accOf a d).ser = a.ser ++ d.numbers := by
      by_cases hm : d.mark = .plain
      · simp only [accOf, FieldDecl.numbers, hm]
        split
        · simp
        · split <;> simp
      · have hl := h1 d List.mem_cons_self hm
        have hr := h2 d List.mem_cons_self hm
        match hn : d.names with
        | [] => simp [hn] at hl
        | _ :: _ :: _ => simp [hn] at hl
        | [n] =>
          simp only [accOf, FieldDecl.numbers, hn, hr, if_true]
          cases hk : d.mark with
          | plain => simp
          | subject => simp
          | personal => simp
          | serialized t =>
            simp only [List.map_cons, List.map_nil]
            apply put_new
            intro ht
            rw [List.flatMap_cons] at h3
            simp only [FieldDecl.numbers, hk, hn, List.map_cons, List.map_nil, List.map_append,
              List.singleton_append] at h3
            exact (List.nodup_append.mp h3).2.2 t ht t List.mem_cons_self rfl
    rw [List.foldl_cons, ih _ (fun d hd => h1 d (List.mem_cons_of_mem _ hd))
      (fun d hd => h2 d (List.mem_cons_of_mem _ hd)) (by
        rw [key, List.append_assoc, ← List.flatMap_cons]; exact h3), key, List.append_assoc,
      ← List.flatMap_cons]

theorem careful_subject (ds : List FieldDecl) (a : Acc) (h0 : ∀ d ∈ ds, d.Good)
    (h2 : ∀ d ∈ ds, d.mark ≠ .plain → d.raw = true)
    (h : (∃ d ∈ ds, d.mark = .subject) ∨ a.subject ≠ []) : (ds.foldl accOf a).subject ≠ [] := by
  induction ds generalizing a with
  | nil => rcases h with ⟨d, hd, _⟩ | h
           · simp at hd
           · exact h
  | cons d ds ih =>
    rw [List.foldl_cons]
    apply ih _ (fun d hd => h0 d (List.mem_cons_of_mem _ hd)) (fun d hd => h2 d (List.mem_cons_of_mem _ hd))
    have hg := h0 d List.mem_cons_self
    obtain ⟨n, ns, hn⟩ : ∃ n ns, d.names = n :: ns := by
      cases hd : d.names with
      | nil => exact absurd hd hg.named.1
      | cons n ns => exact ⟨n, ns, rfl⟩
    have hne : n ≠ [] := fun e => hg.named.2 (by rw [hn, e]; exact List.mem_cons_self)
    by_cases hm : d.mark = .subject
    · right
      have hr := h2 d List.mem_cons_self (by rw [hm]; intro h; cases h)
      simp only [accOf, hn, hr, if_true, hm]
      exact hne
    · rcases h with ⟨d', hd', hs⟩ | h
      · rcases List.mem_cons.mp hd' with rfl | hd'
        · exact absurd hs hm
        · exact Or.inl ⟨d', hd', hs⟩
      · right
        simp only [accOf, hn]
        split
        · split
          · exact h
          · exact absurd (by assumption) hm
          · exact h
          · exact h
        · exact h

theorem personal_sublist (ds : List FieldDecl) :
    (ds.flatMap FieldDecl.personal).Sublist (ds.flatMap (·.names)) := by
  induction ds with
  | nil => simp
  | cons d ds ih =>
    rw [List.flatMap_cons, List.flatMap_cons]
    apply List.Sublist.append _ ih
    simp only [FieldDecl.personal]
    split
    · exact List.Sublist.refl _
    · exact List.nil_sublist _

theorem numbers_sublist (ds : List FieldDecl) :
    ((ds.flatMap FieldDecl.numbers).map (·.2)).Sublist (ds.flatMap (·.names)) := by
  induction ds with
  | nil => simp
  | cons d ds ih =>
    rw [List.flatMap_cons, List.flatMap_cons, List.map_append]
    apply List.Sublist.append _ ih
    simp only [FieldDecl.numbers]
    split
    · rw [List.map_map, show ((fun x : Str × Str => x.2) ∘ fun n => (_, n)) = id from rfl, List.map_id]
      exact List.Sublist.refl _
    · exact List.nil_sublist _

end RangeDB.Gen

import Verif.Model.Consumers
import Verif.Spec.Consumers

/-!
# Loops over iterators: helper lemmas
-/

namespace RangeDB.Use

open RangeDB.Key RangeDB.Cry RangeDB.ES

variable {ι ε α σ : Type}

/-- No result on the channel has both a record and an error. -/
def Clean (chan : List ResultRecord) : Prop := ∀ r ∈ chan, r.record.isSome = true → r.err = none

theorem clean_results (it : Iter) : Clean it.results := by
  intro r hr h
  unfold Iter.results at hr
  rcases List.mem_append.mp hr with hr | hr
  · obtain ⟨x, _, rfl⟩ := List.mem_map.mp hr
    rfl
  · cases he : it.err with
    | none => simp [he] at hr
    | some e => simp [he] at hr; subst hr; simp at h

theorem next_clean {it : RecordIterator} (h : Clean it.chan) :
    Clean it.next.1.chan ∧ (it.next.2 = true → it.next.1.error = none) := by
  unfold RecordIterator.next
  split
  · exact ⟨h, by simp⟩
  · split
    · rename_i hc
      exact ⟨by simp [hc, Clean], by simp⟩
    · rename_i r rs hc
      rw [hc] at h
      refine ⟨fun x hx => h x (by simp [hx]), fun hs => ?_⟩
      exact h r (by simp) hs

theorem dnext_clean {it : DIter} (h : Clean it.parent.chan) :
    Clean it.next.1.parent.chan ∧ (it.next.2 = true → it.next.1.error = none) := by
  unfold DIter.next
  split
  · exact ⟨h, by simp⟩
  · rename_i hc
    have hc' : it.currentErr = none := by simpa using hc
    obtain ⟨h1, h2⟩ := next_clean h
    generalize it.parent.next = x at h1 h2
    obtain ⟨p, b⟩ := x
    refine ⟨h1, fun hb => ?_⟩
    have := h2 hb
    simp only [DIter.error, hc']
    simp only [RecordIterator.error] at this ⊢
    rw [this]
    rfl

theorem record_clean {C : Codec} {K : Store σ} {enc : Encryptor} {w : World σ} {it : DIter} (h : Clean it.parent.chan) :
    Clean (it.record C K enc w).2.1.parent.chan := by
  unfold DIter.record
  split
  · exact h
  · split
    · exact h
    · exact h
    · exact h

theorem loop_consume (C : Codec) (K : Store σ) (enc : Encryptor) (enough : α → Bool) (body : α → Option Record → Body α)
    (fuel : Nat) : ∀ (w : World σ) (it : DIter) (a : α), Clean it.parent.chan →
    loop (decrypting C K enc) enough body fuel (w, it) a =
      fold enough body a (consume C K enc fuel w it).2.recs (consume C K enc fuel w it).2.err
        (consume C K enc fuel w it).2.panicked := by
  induction fuel with
  | zero => intro w it a _; simp [loop, consume, fold, decrypting]
  | succ fuel ih =>
    intro w it a hc
    obtain ⟨h1, h2⟩ := dnext_clean hc
    simp only [loop, consume, decrypting]
    generalize it.next = x at h1 h2
    obtain ⟨it', b⟩ := x
    cases b with
    | false => simp [fold]
    | true =>
      simp only [h2 rfl]
      have h3 := record_clean (C := C) (K := K) (enc := enc) (w := w) h1
      generalize it'.record C K enc w = y at h3
      obtain ⟨w', it'', o⟩ := y
      cases o with
      | none =>
        simp only [fold, if_pos]
      | some r =>
        have hi := fun a => ih w' it'' a h3
        simp only [fold]
        split
        · rfl
        · cases body a r with
          | go a' => exact hi a'
          | stop a' => rfl
          | panic => rfl

theorem overEncrypted_eq (C : Codec) (K : Store σ) (enc : Encryptor) (enough : α → Bool)
    (body : α → Option Record → Body α) (w : World σ) (it : Iter) (a : α) :
    overEncrypted C K enc enough body w it a =
      fold enough body a (readAll C K enc w it).2.recs (readAll C K enc w it).2.err (readAll C K enc w it).2.panicked :=
  loop_consume C K enc enough body _ w (DIter.new it) a (clean_results it)

theorem loop_plain (enough : α → Bool) (body : α → Option Record → Body α) (recs : List Record) (err : Option Err) :
    ∀ (fuel : Nat) (cur : ResultRecord) (a : α), recs.length < fuel → cur.err = none →
    loop plain enough body fuel ⟨Iter.results ⟨recs, err⟩, cur⟩ a = fold enough body a (recs.map some) err false := by
  induction recs with
  | nil =>
    intro fuel cur a hf hcur
    obtain ⟨fuel, rfl⟩ : ∃ n, fuel = n + 1 := ⟨fuel - 1, by simp at hf; omega⟩
    cases err with
    | none =>
      simp [loop, plain, Iter.results, RecordIterator.next, hcur, fold, RecordIterator.error, ResultRecord.zero]
    | some e =>
      simp [loop, plain, Iter.results, RecordIterator.next, hcur, fold, RecordIterator.error]
  | cons r recs ih =>
    intro fuel cur a hf hcur
    obtain ⟨fuel, rfl⟩ : ∃ n, fuel = n + 1 := ⟨fuel - 1, by simp at hf; omega⟩
    have hch : Iter.results ⟨r :: recs, err⟩ = ⟨some r, none⟩ :: Iter.results ⟨recs, err⟩ := by
      simp [Iter.results]
    rw [hch]
    simp only [loop, plain, RecordIterator.next, hcur, ne_eq, not_true_eq_false, if_false, Option.isSome_some,
      RecordIterator.error, RecordIterator.record, List.map_cons, fold]
    split
    · rfl
    · cases body a (some r) with
      | go a' => exact ih fuel _ a' (by simp at hf; omega) rfl
      | stop a' => rfl
      | panic => rfl

theorem overPlain_eq (enough : α → Bool) (body : α → Option Record → Body α) (it : Iter) (a : α) :
    overPlain enough body it a = fold enough body a (it.recs.map some) it.err false :=
  loop_plain enough body it.recs it.err _ _ a (by omega) rfl

/-! ## The bodies -/

theorem fold_sub (accept : Record → Bool) (recs : List Record) (ha : ∀ r ∈ recs, accept r = true) (more : List (Option Record))
    (e : Option ε) (p : Bool) : ∀ s : Sub,
    fold (fun _ => false) (subBody accept) s (recs.map some ++ more) e p =
      fold (fun _ => false) (subBody accept) ⟨(recs.getLast?.map Record.gsn).getD s.last, s.out ++ recs⟩ more e p := by
  induction recs with
  | nil => intro s; simp
  | cons r recs ih =>
    intro s
    have h1 := ha r (by simp)
    simp only [List.map_cons, List.cons_append, fold, subBody, h1, Bool.false_eq_true, if_false, if_true]
    rw [ih (fun x hx => ha x (by simp [hx]))]
    cases recs with
    | nil => simp
    | cons x xs =>
      simp [List.getLast?_cons]

theorem fold_send (send : Record → Bool) (recs : List Record) (ha : ∀ r ∈ recs, send r = true) (more : List (Option Record))
    (e : Option ε) (p : Bool) : ∀ out : List Record,
    fold (fun _ => false) (sendBody send) out (recs.map some ++ more) e p =
      fold (fun _ => false) (sendBody send) (out ++ recs) more e p := by
  induction recs with
  | nil => intro s; simp
  | cons r recs ih =>
    intro s
    have h1 := ha r (by simp)
    simp only [List.map_cons, List.cons_append, fold, sendBody, h1, Bool.false_eq_true, if_false, if_true]
    rw [ih (fun x hx => ha x (by simp [hx]))]
    simp

theorem fold_sub_any (accept : Record → Bool) (e : Option ε) (recs : List Record) : ∀ s : Sub,
    fold (fun _ => false) (subBody accept) s (recs.map some) e false =
      if recs.all accept then .over ⟨lastOf s.last recs, s.out ++ recs⟩ e
      else .stopped ⟨lastOf s.last (offered accept recs), s.out ++ offered accept recs⟩ := by
  induction recs with
  | nil => intro s; simp [fold, lastOf]
  | cons r recs ih =>
    intro s
    by_cases h1 : accept r = true
    · have hl : ∀ l : List Record, lastOf r.gsn l = lastOf s.last (r :: l) := by
        intro l
        cases l with
        | nil => simp [lastOf]
        | cons x xs => simp [lastOf, List.getLast?_cons]
      simp only [List.map_cons, fold, subBody, h1, Bool.false_eq_true, if_false, if_true, ih, List.all_cons, Bool.true_and]
      simp only [offered, List.takeWhile_cons, List.dropWhile_cons, h1, if_true, hl, List.append_assoc, List.cons_append,
        List.nil_append]
    · simp [fold, subBody, h1, offered, lastOf]

theorem takeWhile_all (f : Record → Bool) : ∀ l : List Record, l.all f = true → l.takeWhile f = l
  | [], _ => rfl
  | r :: l, h => by
    rw [List.all_cons, Bool.and_eq_true] at h
    rw [List.takeWhile_cons, if_pos h.1, takeWhile_all f l h.2]

theorem fold_send_any (send : Record → Bool) (recs : List Record) (more : List (Option Record)) (e : Option ε) (p : Bool) :
    ∀ out : List Record,
    fold (fun _ => false) (sendBody send) out (recs.map some ++ more) e p =
      if recs.all send then fold (fun _ => false) (sendBody send) (out ++ recs) more e p
      else .stopped (out ++ recs.takeWhile send) := by
  induction recs with
  | nil => intro s; simp
  | cons r recs ih =>
    intro s
    by_cases h1 : send r = true
    · simp only [List.map_cons, List.cons_append, fold, sendBody, h1, Bool.false_eq_true, if_false, if_true, ih, List.all_cons,
        Bool.true_and, List.takeWhile_cons, List.append_assoc, List.nil_append]
    · simp [fold, sendBody, h1]

/-- The texts `l` after `text`, with the separator before each but the first of all. -/
def joined (sep : Str) : Written → List Str → Written
  | w, [] => w
  | w, t :: l => joined sep ⟨w.text ++ (if w.saved then sep else []) ++ t, true⟩ l

theorem fold_export (fm : Json.Format) (marshal : Record → Option Str) (f : Record → Str) (recs : List Record)
    (ha : ∀ r ∈ recs, marshal r = some (f r)) (more : List (Option Record)) (e : Option ε) (p : Bool) : ∀ w : Written,
    fold (fun _ => false) (exportBody fm marshal) w (recs.map some ++ more) e p =
      fold (fun _ => false) (exportBody fm marshal) (joined fm.between w (recs.map f)) more e p := by
  induction recs with
  | nil => intro s; simp [joined]
  | cons r recs ih =>
    intro s
    have h1 := ha r (by simp)
    simp only [List.map_cons, List.cons_append, fold, exportBody, h1, Bool.false_eq_true, if_false, joined]
    rw [ih (fun x hx => ha x (by simp [hx]))]

theorem joined_saved (sep : Str) (l : List Str) : ∀ text, (joined sep ⟨text, true⟩ l).text =
    text ++ (l.map (fun t => sep ++ t)).flatten := by
  induction l with
  | nil => intro text; simp [joined]
  | cons t l ih => intro text; simp [joined, ih]

theorem intercalate_cons (sep t : Str) (l : List Str) :
    sep.intercalate (t :: l) = t ++ (l.map (fun t => sep ++ t)).flatten := by
  induction l generalizing t with
  | nil => simp [List.intercalate]
  | cons u l ih =>
    have := ih u
    simp only [List.intercalate, List.intersperse] at this ⊢
    simp only [List.flatten_cons, List.map_cons]
    rw [this]
    simp

theorem joined_text (sep : Str) (l : List Str) : (joined sep ⟨[], false⟩ l).text = sep.intercalate l := by
  cases l with
  | nil => rfl
  | cons t l => rw [joined, joined_saved, intercalate_cons]; simp

theorem joined_append (sep : Str) (l m : List Str) : ∀ w, joined sep w (l ++ m) = joined sep (joined sep w l) m := by
  induction l with
  | nil => intro w; rfl
  | cons t l ih => intro w; exact ih _

theorem fold_page (n : Nat) (recs : List (Option Record)) (e : Option ε) (l : List (Option Record)) :
    page (fold (pageEnough n) pageBody l recs e false) = some (l ++ recs.take (n - l.length)) := by
  induction recs generalizing l with
  | nil => simp [fold, page]
  | cons r recs ih =>
    simp only [fold, pageEnough, pageBody]
    by_cases h : n < l.length + 1
    · have : n - l.length = 0 := by omega
      simp [page, this, h]
    · simp only [h, decide_false, Bool.false_eq_true, if_false]
      rw [ih, show n - l.length = (n - (l ++ [r]).length) + 1 by simp; omega, List.take_succ_cons]
      simp

end RangeDB.Use

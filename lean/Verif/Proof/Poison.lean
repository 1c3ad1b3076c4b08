import Verif.Proof.JsonStore
import Verif.Proof.InMemoryAll

/-! # An event that cannot be read back, in the in-memory store -/

namespace RangeDB.IM

/-- What every save leaves alone: the records that were listed before it, their data, and the counter does not
go back. -/
structure Keeps (s s' : State) : Prop where
  records : ∃ post, s'.records = s.records ++ post
  data : ∀ id, id ≤ s.gsn → s'.data id = s.data id
  gsn : s.gsn ≤ s'.gsn

theorem Keeps.refl (s : State) : Keeps s s := ⟨⟨[], by simp⟩, fun _ _ => rfl, Nat.le_refl _⟩

theorem Keeps.trans {a b c : State} (h1 : Keeps a b) (h2 : Keeps b c) : Keeps a c where
  records := by
    obtain ⟨p, hp⟩ := h1.records
    obtain ⟨q, hq⟩ := h2.records
    exact ⟨p ++ q, by rw [hq, hp, List.append_assoc]⟩
  data := fun id h => by rw [h2.data id (Nat.le_trans h h1.gsn), h1.data id h]
  gsn := Nat.le_trans h1.gsn h2.gsn

theorem foldl_erase' (gsns : List Nat) : ∀ (d : Nat → Option Str) (id : Nat), id ∉ gsns →
    gsns.foldl (fun d g => setMap d g none) d id = d id := by
  induction gsns with
  | nil => intros; rfl
  | cons g gsns ih =>
    intro d id h
    simp only [List.mem_cons, not_or] at h
    rw [List.foldl_cons, ih _ _ h.2]
    simp [setMap, h.1]

/-- Undoing a batch leaves what was there before it. -/
theorem removeRecent_keeps {s0 s : State} {created : List Nat} (hr : s.records = s0.records ++ created)
    (hd : ∀ id, id ≤ s0.gsn → s.data id = s0.data id) (hg : s0.gsn + created.length ≤ s.gsn)
    (hc : ∀ g ∈ created, s0.gsn < g) (t i : Str) : Keeps s0 (removeRecentEvents s created t i).1 := by
  have hd' : ∀ id, id ≤ s0.gsn → created.foldl (fun d g => setMap d g none) s.data id = s0.data id := by
    intro id h
    rw [foldl_erase' created s.data id (fun hm => by have := hc id hm; omega), hd id h]
  have hg' : s0.gsn ≤ s.gsn - created.length := by omega
  unfold removeRecentEvents
  simp only
  rw [hr, rTrim_append s0.records created created.length rfl]
  simp only
  cases h2 : rTrim (get s.streams (getStream t i)) created.length with
  | none => exact ⟨⟨[], by simp⟩, hd', hg'⟩
  | some l2 =>
    simp only
    cases h3 : rTrim (get s.aggTypes t) created.length with
    | none => exact ⟨⟨[], by simp⟩, hd', hg'⟩
    | some l3 => exact ⟨⟨[], by simp⟩, hd', hg'⟩

theorem saveEvent_keeps {z : Serializer} {s0 s : State} {created : List Nat} (hr : s.records = s0.records ++ created)
    (hd : ∀ id, id ≤ s0.gsn → s.data id = s0.data id) (hg : s.gsn = s0.gsn + created.length)
    (st : Str) (expected : Option Nat) (er : EventRecord) :
    match saveEvent z s st expected er with
    | (s1, .error _) => s1.records = s0.records ++ created ∧ (∀ id, id ≤ s0.gsn → s1.data id = s0.data id) ∧
        s0.gsn + created.length ≤ s1.gsn
    | (s1, .ok (_, r)) => r.gsn = s.gsn + 1 ∧ s1.records = s0.records ++ (created ++ [r.gsn]) ∧
        (∀ id, id ≤ s0.gsn → s1.data id = s0.data id) ∧ s1.gsn = s0.gsn + (created ++ [r.gsn]).length := by
  have key : match saveEvent.store z s st (streamSeq s st) er with
    | (s1, .error _) => s1.records = s0.records ++ created ∧ (∀ id, id ≤ s0.gsn → s1.data id = s0.data id) ∧
        s0.gsn + created.length ≤ s1.gsn
    | (s1, .ok (_, r)) => r.gsn = s.gsn + 1 ∧ s1.records = s0.records ++ (created ++ [r.gsn]) ∧
        (∀ id, id ≤ s0.gsn → s1.data id = s0.data id) ∧ s1.gsn = s0.gsn + (created ++ [r.gsn]).length := by
    unfold saveEvent.store
    simp only
    cases z.ser (mkRecord st (s.gsn + 1) (streamSeq s st + 1) er) with
    | none => exact ⟨hr, hd, by simp; omega⟩
    | some b =>
      refine ⟨rfl, by simp [hr, mkRecord], ?_, by simp; omega⟩
      intro id h
      simp only [setMap]
      rw [if_neg (by omega), hd id h]
  unfold saveEvent
  simp only
  cases expected with
  | none => exact key
  | some e =>
    by_cases hx : e ≠ streamSeq s st
    · simp only [if_pos hx]; exact ⟨hr, hd, by omega⟩
    · simp only [if_neg hx]; exact key

theorem saveLoop_keeps {z : Serializer} (s0 : State) (st : Str) (cancelAt : Option Nat) (ers : List EventRecord) :
    ∀ (i : Nat) (s : State) pt pi expected (created : List Nat) pending last,
      s.records = s0.records ++ created → (∀ id, id ≤ s0.gsn → s.data id = s0.data id) →
      s.gsn = s0.gsn + created.length → (∀ g ∈ created, s0.gsn < g) →
      Keeps s0 (saveLoop z st cancelAt i s pt pi expected created pending last ers).1 := by
  induction ers with
  | nil => intro i s pt pi expected created pending last hr hd hg hc; exact ⟨⟨created, hr⟩, hd, by simp only [saveLoop]; omega⟩
  | cons er ers ih =>
    intro i s pt pi expected created pending last hr hd hg hc
    have hk : Keeps s0 s := ⟨⟨created, hr⟩, hd, by omega⟩
    simp only [saveLoop]
    split
    · exact hk
    · split
      · exact hk
      · split
        · exact hk
        · have h1 := saveEvent_keeps (z := z) hr hd hg st expected er
          cases hse : saveEvent z s st expected er with
          | mk s1 res =>
            rw [hse] at h1
            cases res with
            | error e =>
              simp only at h1 ⊢
              have h2 := removeRecent_keeps h1.1 h1.2.1 h1.2.2 hc er.event.aggType er.event.aggId
              cases hrm : removeRecentEvents s1 created er.event.aggType er.event.aggId with
              | mk s2 b =>
                rw [hrm] at h2
                cases b
                · exact h2
                · exact ⟨h2.records, h2.data, h2.gsn⟩
            | ok p =>
              obtain ⟨data, record⟩ := p
              simp only at h1 ⊢
              refine ih _ _ _ _ _ _ _ _ h1.2.1 h1.2.2.1 h1.2.2.2 ?_
              intro g hm
              rw [List.mem_append] at hm
              rcases hm with hm | hm
              · exact hc g hm
              · simp only [List.mem_singleton] at hm
                rw [hm, h1.1]; omega

/-- A save leaves everything that was there before it. -/
theorem saveEvents_keeps (z : Serializer) (s : State) (st : Str) (expected cancelAt : Option Nat)
    (ers : List EventRecord) : Keeps s (saveEvents z s st expected cancelAt ers).state := by
  have h := saveLoop_keeps (z := z) s st cancelAt ers 0 s [] [] expected [] [] 0 (by simp) (fun _ _ => rfl) (by simp)
    (by simp)
  unfold saveEvents
  split
  · exact Keeps.refl s
  · split
    · exact Keeps.refl s
    · split <;> rename_i heq <;> rw [heq] at h <;> exact h

/-- Is the call a save? -/
def isSave : Op → Bool
  | .save _ _ _ _ => true
  | .delete _ _ _ => false

theorem saves_keep (z : Serializer) (ops : List Op) (h : ∀ op ∈ ops, isSave op = true) :
    ∀ s : State, Keeps s (ops.foldl (step z) s) := by
  induction ops with
  | nil => exact Keeps.refl
  | cons op ops ih =>
    intro s
    rw [List.foldl_cons]
    refine Keeps.trans ?_ (ih (fun o ho => h o (by simp [ho])) _)
    have := h op (by simp)
    cases op with
    | save st e c ers => exact saveEvents_keeps z s st e c ers
    | delete st e c => simp [isSave] at this

/-- Reading stops at the record that does not deserialize. -/
theorem recordsByIDs_stops {z : Serializer} (s : State) (keep : Record → Bool) (recs : List Record)
    (hd : ∀ r ∈ recs, ∃ b, s.data r.gsn = some b ∧ z.deser b = some r) (id : Nat) (b : Str) (hb : s.data id = some b)
    (hz : z.deser b = none) (post : List Nat) (n : Nat) :
    recordsByIDs z s none keep n (recs.map (·.gsn) ++ id :: post) = ⟨recs.filter keep, some .deserialize⟩ := by
  induction recs generalizing n with
  | nil => simp [recordsByIDs, hb, hz]
  | cons r recs ih =>
    obtain ⟨b', h1, h2⟩ := hd r (by simp)
    have ih := fun n => ih (fun r hr => hd r (by simp [hr])) n
    simp only [List.map_cons, List.cons_append, recordsByIDs, h1, h2]
    by_cases hk : keep r = true
    · simp [hk, ctxDone, ih]
    · simp [hk, ih]

/-- With a record that does not deserialize in the list, a read never ends well. -/
theorem recordsByIDs_fails {z : Serializer} (s : State) (c : Option Nat) (keep : Record → Bool) (pre post : List Nat)
    (id : Nat) (b : Str) (hb : s.data id = some b) (hz : z.deser b = none) :
    ∀ n, (recordsByIDs z s c keep n (pre ++ id :: post)).err ≠ none := by
  induction pre with
  | nil => intro n; simp [recordsByIDs, hb, hz]
  | cons x pre ih =>
    intro n
    simp only [List.cons_append, recordsByIDs]
    split
    · simp
    · split
      · simp
      · split
        · split
          · simp
          · exact ih _
        · exact ih _

end RangeDB.IM

import Verif.Model.Projection
import Verif.Thm.Subscription
import Verif.Thm.Iterator

/-!
# Proofs about statistics and about what a subscription does not deliver
-/

namespace RangeDB.Sub

variable {z : Serializer} {p : Params}

/-- Everything delivered, or read and not yet delivered, is numbered `b` or more. -/
def AtLeast (p : Params) (b : Nat) (s : State) : Prop :=
  (∀ r ∈ s.out, b ≤ r.gsn) ∧
  match s.pc with
  | .idle => ∃ m, p.startFrom = some m ∧ b ≤ m
  | .fetch false _ got => b ≤ s.last ∧ ∀ l ∈ got, ∀ r ∈ l, b ≤ r.gsn
  | .fetch true _ got => b ≤ s.last + 1 ∧ ∀ l ∈ got, ∀ r ∈ l, b ≤ r.gsn
  | .reading _ rest => b ≤ s.last + 1 ∧ ∀ r ∈ rest, b ≤ r.gsn
  | .registering _ => b ≤ s.last + 1
  | .working => b ≤ s.last + 1
  | .finished => True

theorem atLeast_sub {b : Nat} {s s' : State} (h : AtLeast p b s) (hn : p.startFrom ≠ none)
    (hs : subStep p s = some s') : AtLeast p b s' := by
  obtain ⟨ho, hp⟩ := h
  unfold subStep at hs
  split at hs
  · rename_i hpc
    rw [hpc] at hp
    obtain ⟨m, hm, hb⟩ := hp
    rw [hm] at hs
    obtain rfl := Option.some.inj hs
    exact ⟨ho, hb, by simp⟩
  · rename_i second t todo got hpc
    rw [hpc] at hp
    split at hs
    · simp at hs
    · simp only at hs
      have hrd : ∀ r ∈ readTopic s.log t (if second = true then s.last + 1 else s.last), b ≤ r.gsn := by
        intro r hr
        unfold readTopic at hr
        rw [List.mem_filter] at hr
        have h2 := hr.2
        simp only [Bool.and_eq_true, decide_eq_true_eq] at h2
        cases second with
        | false => simp only at hp; have := h2.2; simp at this; omega
        | true => simp only at hp; have := h2.2; simp at this; omega
      have hlast : b ≤ s.last + 1 := by
        cases second with
        | false => simp only at hp; omega
        | true => simp only at hp; omega
      split at hs
      · obtain rfl := Option.some.inj hs
        exact ⟨ho, hlast, hrd⟩
      · obtain rfl := Option.some.inj hs
        refine ⟨ho, ?_⟩
        have hgot : ∀ l ∈ got ++ [readTopic s.log t (if second = true then s.last + 1 else s.last)],
            ∀ r ∈ l, b ≤ r.gsn := by
          intro l hl r hr
          simp only [List.mem_append, List.mem_singleton] at hl
          rcases hl with hl | rfl
          · cases second with
            | false => simp only at hp; exact hp.2 l hl r hr
            | true => simp only at hp; exact hp.2 l hl r hr
          · exact hrd r hr
        cases second with
        | false => simp only at hp ⊢; exact ⟨hp.1, hgot⟩
        | true => simp only at hp ⊢; exact ⟨hp.1, hgot⟩
  · rename_i second got hpc
    rw [hpc] at hp
    obtain rfl := Option.some.inj hs
    have hlast : b ≤ s.last + 1 := by
      cases second with
      | false => simp only at hp; omega
      | true => simp only at hp; omega
    refine ⟨ho, hlast, ?_⟩
    intro r hr
    have hperm := C16_merge_complete (got.map (fun l => (⟨l, none⟩ : Iter)))
    have hm := hperm.mem_iff.mp hr
    simp only [List.mem_flatMap, List.mem_map] at hm
    obtain ⟨_, ⟨l, hl, rfl⟩, hrl⟩ := hm
    cases second with
    | false => simp only at hp; exact hp.2 l hl r hrl
    | true => simp only at hp; exact hp.2 l hl r hrl
  · rename_i second r rest hpc
    rw [hpc] at hp
    simp only at hp
    obtain rfl := Option.some.inj hs
    have hb := hp.2 r (by simp)
    refine ⟨?_, ?_⟩
    · intro x hx
      simp only [List.mem_append, List.mem_singleton] at hx
      rcases hx with hx | rfl
      · exact ho x hx
      · exact hb
    · simp only
      exact ⟨by omega, fun x hx => hp.2 x (by simp [hx])⟩
  · rename_i hpc
    rw [hpc] at hp
    simp only at hp
    obtain rfl := Option.some.inj hs
    exact ⟨ho, hp.1⟩
  · rename_i hpc
    rw [hpc] at hp
    simp only at hp
    obtain rfl := Option.some.inj hs
    exact ⟨ho, hp.1⟩
  · rename_i hpc
    rw [hpc] at hp
    obtain rfl := Option.some.inj hs
    exact ⟨ho, hp⟩
  · rename_i hpc
    rw [hpc] at hp
    split at hs
    · obtain rfl := Option.some.inj hs
      exact ⟨ho, hp, by simp⟩
    · rename_i hnone; exact absurd hnone hn
  · rename_i hpc
    rw [hpc] at hp
    simp only at hp
    split at hs
    · simp at hs
    · rename_i r buf hbuf
      split at hs
      · obtain rfl := Option.some.inj hs
        refine ⟨ho, ?_⟩
        simp only [hpc]
        exact hp
      · rename_i hgt
        obtain rfl := Option.some.inj hs
        refine ⟨?_, ?_⟩
        · intro x hx
          simp only [List.mem_append, List.mem_singleton] at hx
          rcases hx with hx | rfl
          · exact ho x hx
          · omega
        · simp only [hpc]
          omega
  · simp at hs

theorem atLeast_step {b : Nat} {s s' : State} (l : Label) (h : AtLeast p b s) (hn : p.startFrom ≠ none)
    (hs : step z p s l = some s') : AtLeast p b s' := by
  cases l with
  | sub => exact atLeast_sub h hn hs
  | cut =>
    simp only [step] at hs
    split at hs
    · rename_i hpc
      obtain rfl := Option.some.inj hs
      obtain ⟨ho, hp⟩ := h
      rw [hpc] at hp
      exact ⟨ho, hp.1, by simp⟩
    · simp at hs
  | finish =>
    simp only [step] at hs
    split at hs
    · obtain rfl := Option.some.inj hs
      exact ⟨h.1, trivial⟩
    · simp at hs
  | fail =>
    simp only [step] at hs
    split at hs
    · rename_i s2 h2
      split at hs
      · simp at hs
      · obtain rfl := Option.some.inj hs
        exact ⟨(atLeast_sub h hn h2).1, trivial⟩
    · simp at hs
  | _ =>
    simp only [step] at hs
    repeat' split at hs
    all_goals first
      | (obtain rfl := Option.some.inj hs; exact h)
      | simp at hs

theorem atLeast_exec {b : Nat} (hn : p.startFrom ≠ none) (ls : List Label) :
    ∀ {s s' : State}, AtLeast p b s → exec z p s ls = some s' → AtLeast p b s' := by
  induction ls with
  | nil => intro s s' h hs; simp only [exec] at hs; obtain rfl := Option.some.inj hs; exact h
  | cons l ls ih =>
    intro s s' h hs
    simp only [exec] at hs
    split at hs
    · simp at hs
    · rename_i s1 hs1
      exact ih (atLeast_step l h hn hs1) hs

/-- Every schedule only adds records numbered above the store's last number. -/
theorem saved_grows (hz : z.Lawful) (ls : List Label) : ∀ {s s' : State},
    (∀ r ∈ s.saved, r.gsn ≤ s.log.last) → exec z p s ls = some s' →
    s.log.last ≤ s'.log.last ∧ (∀ r ∈ s'.saved, r.gsn ≤ s'.log.last) ∧
    ∃ new, s'.saved = s.saved ++ new ∧ ∀ r ∈ new, s.log.last < r.gsn := by
  induction ls with
  | nil =>
    intro s s' h hs
    simp only [exec] at hs; obtain rfl := Option.some.inj hs
    exact ⟨Nat.le_refl _, h, [], by simp, by simp⟩
  | cons l ls ih =>
    intro s s' h hs
    simp only [exec] at hs
    split at hs
    · simp at hs
    · rename_i s1 h1
      have key : s.log.last ≤ s1.log.last ∧ (∀ r ∈ s1.saved, r.gsn ≤ s1.log.last) ∧
          ∃ new, s1.saved = s.saved ++ new ∧ ∀ r ∈ new, s.log.last < r.gsn := by
        have same : ∀ {t : State}, t.log.last = s.log.last → t.saved = s.saved →
            s.log.last ≤ t.log.last ∧ (∀ r ∈ t.saved, r.gsn ≤ t.log.last) ∧
            ∃ new, t.saved = s.saved ++ new ∧ ∀ r ∈ new, s.log.last < r.gsn := by
          intro t e1 e2
          rw [e1, e2]
          exact ⟨Nat.le_refl _, h, [], by simp, by simp⟩
        have app : ∀ (st : Str) (ers : List EventRecord),
            s.log.last ≤ (s.log.append z.view st ers).last ∧
            (∀ r ∈ s.saved ++ (numbered st s.log.last (s.log.streamLen st) ers).map z.view,
              r.gsn ≤ (s.log.append z.view st ers).last) ∧
            ∃ new, s.saved ++ (numbered st s.log.last (s.log.streamLen st) ers).map z.view = s.saved ++ new ∧
              ∀ r ∈ new, s.log.last < r.gsn := by
          intro st ers
          have hb := (batch_facts hz s.log st ers).2
          refine ⟨by simp [Log.append], ?_, _, rfl, fun r hr => (hb r hr).1⟩
          intro r hr
          simp only [List.mem_append] at hr
          rcases hr with hr | hr
          · have := h r hr; simp only [Log.append]; omega
          · exact (hb r hr).2
        cases l with
        | commit st ers =>
          simp only [step] at h1
          split at h1
          · simp at h1
          split at h1
          · simp at h1
          obtain rfl := Option.some.inj h1
          exact app st ers
        | orphan st ers =>
          simp only [step] at h1
          split at h1
          · simp at h1
          obtain rfl := Option.some.inj h1
          exact app st ers
        | delete st =>
          simp only [step] at h1
          split at h1
          · simp at h1
          obtain rfl := Option.some.inj h1
          exact same rfl rfl
        | fail =>
          simp only [step] at h1
          split at h1
          · rename_i s2 h2
            split at h1
            · simp at h1
            · obtain rfl := Option.some.inj h1
              simp only [subStep] at h2
              repeat' split at h2
              all_goals first
                | (obtain rfl := Option.some.inj h2; exact same rfl rfl)
                | simp at h2
          · simp at h1
        | _ =>
          simp only [step, subStep] at h1
          repeat' split at h1
          all_goals first
            | (obtain rfl := Option.some.inj h1; exact same rfl rfl)
            | simp at h1
      obtain ⟨k1, k2, new1, k3, k4⟩ := key
      obtain ⟨j1, j2, new2, j3, j4⟩ := ih k2 hs
      refine ⟨by omega, j2, new1 ++ new2, by rw [j3, k3, List.append_assoc], ?_⟩
      intro r hr
      simp only [List.mem_append] at hr
      rcases hr with hr | hr
      · exact k4 r hr
      · have := j4 r hr; omega

end RangeDB.Sub

namespace RangeDB.Prj

/-! ## The counters -/

theorem bump_keys (k : Str) (m : List (Str × Nat)) (t : Str) :
    t ∈ (bump k m).map (·.1) ↔ t = k ∨ t ∈ m.map (·.1) := by
  induction m with
  | nil => simp [bump]
  | cons p m ih =>
    obtain ⟨x, n⟩ := p
    simp only [bump]
    split
    · rename_i h; subst h
      simp only [List.map_cons, List.mem_cons]
      constructor
      · intro h; exact Or.inr h
      · rintro (h | h)
        · exact Or.inl h
        · exact h
    · simp only [List.map_cons, List.mem_cons, ih]
      constructor
      · rintro (h | h | h)
        · exact Or.inr (Or.inl h)
        · exact Or.inl h
        · exact Or.inr (Or.inr h)
      · rintro (h | h | h)
        · exact Or.inr (Or.inl h)
        · exact Or.inl h
        · exact Or.inr (Or.inr h)

theorem bump_nodup (k : Str) (m : List (Str × Nat)) (h : (m.map (·.1)).Nodup) :
    ((bump k m).map (·.1)).Nodup := by
  induction m with
  | nil => simp [bump]
  | cons p m ih =>
    obtain ⟨x, n⟩ := p
    simp only [List.map_cons, List.nodup_cons] at h
    simp only [bump]
    split
    · simp only [List.map_cons, List.nodup_cons]; exact h
    · rename_i hne
      simp only [List.map_cons, List.nodup_cons]
      refine ⟨?_, ih h.2⟩
      rw [bump_keys]
      rintro (e | e)
      · exact hne e
      · exact h.1 e

/-- The value at a key. -/
def valueAt (m : List (Str × Nat)) (t : Str) : Nat := ((m.find? (fun p => p.1 = t)).map (·.2)).getD 0

theorem valueAt_bump (k : Str) (m : List (Str × Nat)) (t : Str) :
    valueAt (bump k m) t = valueAt m t + (if t = k then 1 else 0) := by
  induction m with
  | nil =>
    simp only [bump, valueAt, List.find?_cons, List.find?_nil]
    by_cases h : k = t
    · subst h; simp
    · simp [h, Ne.symm h]
  | cons p m ih =>
    obtain ⟨x, n⟩ := p
    simp only [bump]
    by_cases hx : x = k
    · subst hx
      rw [if_pos rfl]
      simp only [valueAt, List.find?_cons]
      by_cases ht : x = t
      · subst ht; simp
      · simp [ht, Ne.symm ht]
    · rw [if_neg hx]
      simp only [valueAt, List.find?_cons]
      by_cases ht : x = t
      · subst ht
        simp [hx]
      · simp only [ht, decide_false]
        exact ih

/-- What the counters mean. -/
structure Inv (s : Stats) (rs : List Record) : Prop where
  map : ∃ m, s.byType = some m ∧ (m.map (·.1)).Nodup ∧
    (∀ t, valueAt m t = (rs.filter (fun r => r.aggType = t)).length) ∧
    (∀ t, t ∈ m.map (·.1) ↔ ∃ r ∈ rs, r.aggType = t)
  latest : s.latest = (rs.getLast?.map (·.gsn)).getD 0
  total : s.total = rs.length

theorem inv_new : Inv .new [] := ⟨⟨[], rfl, by simp, by simp [valueAt], by simp⟩, rfl, rfl⟩

theorem acceptAll_inv (s : Stats) (done rs : List Record) (h : Inv s done) :
    ∃ s', s.acceptAll rs = .ok s' ∧ Inv s' (done ++ rs) := by
  induction rs generalizing s done with
  | nil => exact ⟨s, rfl, by simpa using h⟩
  | cons r rs ih =>
    obtain ⟨m, hm, hnd, hv, hk⟩ := h.map
    have h' : Inv ⟨some (bump r.aggType m), r.gsn, s.total + 1⟩ (done ++ [r]) := by
      refine ⟨⟨_, rfl, bump_nodup _ _ hnd, ?_, ?_⟩, by simp, by simp [h.total]⟩
      · intro t
        rw [valueAt_bump, hv t, List.filter_append, List.length_append]
        by_cases ht : r.aggType = t
        · subst ht; simp
        · simp [ht, Ne.symm ht]
      · intro t
        rw [bump_keys, hk t]
        constructor
        · rintro (rfl | ⟨x, hx, rfl⟩)
          · exact ⟨r, by simp, rfl⟩
          · exact ⟨x, by simp [hx], rfl⟩
        · rintro ⟨x, hx, rfl⟩
          simp only [List.mem_append, List.mem_singleton] at hx
          rcases hx with hx | rfl
          · exact Or.inr ⟨x, hx, rfl⟩
          · exact Or.inl rfl
    obtain ⟨s', e, hi⟩ := ih _ _ h'
    refine ⟨s', ?_, by simpa using hi⟩
    simp only [Stats.acceptAll, Stats.accept, hm]
    exact e

theorem acceptAll_append (s s' : Stats) (a b : List Record) (h : s.acceptAll a = .ok s') :
    s.acceptAll (a ++ b) = s'.acceptAll b := by
  induction a generalizing s with
  | nil => simp only [Stats.acceptAll, Outcome.ok.injEq] at h; subst h; rfl
  | cons r a ih =>
    simp only [List.cons_append, Stats.acceptAll] at h ⊢
    cases h1 : s.accept r with
    | ok s1 => rw [h1] at h; exact ih s1 h
    | _ => rw [h1] at h; cases h

/-! ## Sorting -/

theorem strLt_irrefl (a : Str) : strLt a a = false := by
  induction a with
  | nil => rfl
  | cons x xs ih => simp [strLt, ih]

theorem strLt_trans {a b c : Str} (h1 : strLt a b = true) (h2 : strLt b c = true) : strLt a c = true := by
  induction a generalizing b c with
  | nil =>
    cases b with
    | nil => simp [strLt] at h1
    | cons y ys =>
      cases c with
      | nil => simp [strLt] at h2
      | cons w ws => rfl
  | cons x xs ih =>
    cases b with
    | nil => simp [strLt] at h1
    | cons y ys =>
      cases c with
      | nil => simp [strLt] at h2
      | cons w ws =>
        simp only [strLt] at h1 h2 ⊢
        split at h1
        · split at h2
          · rw [if_pos (by omega)]
          · split at h2
            · simp at h2
            · rw [if_pos (by omega)]
        · split at h1
          · simp at h1
          · split at h2
            · rw [if_pos (by omega)]
            · split at h2
              · simp at h2
              · rw [if_neg (by omega), if_neg (by omega)]
                exact ih h1 h2

theorem strLt_total {a b : Str} (h1 : strLt a b = false) (h2 : a ≠ b) : strLt b a = true := by
  induction a generalizing b with
  | nil =>
    cases b with
    | nil => exact absurd rfl h2
    | cons y ys => simp [strLt] at h1
  | cons x xs ih =>
    cases b with
    | nil => rfl
    | cons y ys =>
      simp only [strLt] at h1 ⊢
      split at h1
      · simp at h1
      · split at h1
        · rename_i h; rw [if_pos h]
        · rename_i g1 g2
          rw [if_neg g2, if_neg g1]
          have : x = y := by omega
          subst this
          exact ih h1 (fun e => h2 (by rw [e]))

theorem mem_insertStr (x t : Str) (l : List Str) : t ∈ insertStr x l ↔ t = x ∨ t ∈ l := by
  induction l with
  | nil => simp [insertStr]
  | cons y ys ih =>
    simp only [insertStr]
    split
    · simp only [List.mem_cons, ih]
      constructor
      · rintro (h | h | h)
        · exact Or.inr (Or.inl h)
        · exact Or.inl h
        · exact Or.inr (Or.inr h)
      · rintro (h | h | h)
        · exact Or.inr (Or.inl h)
        · exact Or.inl h
        · exact Or.inr (Or.inr h)
    · simp

theorem insertStr_sorted (x : Str) (l : List Str) (h : l.Pairwise (fun a b => strLt a b = true)) (hx : x ∉ l) :
    (insertStr x l).Pairwise (fun a b => strLt a b = true) := by
  induction l with
  | nil => simp [insertStr]
  | cons y ys ih =>
    rw [List.pairwise_cons] at h
    simp only [List.mem_cons, not_or] at hx
    simp only [insertStr]
    split
    · rename_i hlt
      rw [List.pairwise_cons]
      refine ⟨?_, ih h.2 hx.2⟩
      intro t ht
      rw [mem_insertStr] at ht
      rcases ht with rfl | ht
      · exact hlt
      · exact h.1 t ht
    · rename_i hnl
      have hlt : strLt x y = true := strLt_total (by simpa using hnl) (fun e => hx.1 e.symm)
      rw [List.pairwise_cons, List.pairwise_cons]
      refine ⟨?_, h⟩
      intro t ht
      simp only [List.mem_cons] at ht
      rcases ht with rfl | ht
      · exact hlt
      · exact strLt_trans hlt (h.1 t ht)

theorem sort_spec (l : List Str) (h : l.Nodup) :
    (l.foldr insertStr []).Pairwise (fun a b => strLt a b = true) ∧ ∀ t, t ∈ l.foldr insertStr [] ↔ t ∈ l := by
  induction l with
  | nil => simp
  | cons x xs ih =>
    rw [List.nodup_cons] at h
    obtain ⟨h1, h2⟩ := ih h.2
    simp only [List.foldr_cons]
    refine ⟨insertStr_sorted _ _ h1 (by rw [h2]; exact h.1), ?_⟩
    intro t
    rw [mem_insertStr, h2]
    simp

end RangeDB.Prj

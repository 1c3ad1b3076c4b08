import Verif.Proof.Concurrent

/-!
# The programs of `Model/Concurrent` do what the sequential models do
-/

namespace RangeDB.Lin

variable {z : Serializer}

theorem look_run {σ ρ : Type} (k : σ → Prog σ ρ) (s : σ) : (look k).run s = (k s).run s := rfl

theorem readOnly_look {σ ρ : Type} {k : σ → Prog σ ρ} (h : ∀ s, ReadOnly (k s)) : ReadOnly (look k) :=
  fun s => ⟨rfl, h s⟩

theorem atomic_look {σ ρ : Type} {k : σ → Prog σ ρ} (h : ∀ s, Atomic (k s)) : Atomic (look k) :=
  fun s => Or.inr ⟨rfl, h s⟩

namespace InM

theorem saveLoop_run (stream : Str) (cancelAt : Option Nat) :
    ∀ (ers : List EventRecord) (i : Nat) (s : IM.State) (pt pi : Str) (e : Option Nat) (created : List Nat)
      (pending : List Str) (last : Nat),
      (saveLoop z stream cancelAt i pt pi e created pending last ers).run s =
        match IM.saveLoop z stream cancelAt i s pt pi e created pending last ers with
        | (s', .ok (last, pending)) => (s', .saved (.ok last) (pending.filterMap z.deser))
        | (s', .err e) => (s', .saved (.err e) [])
        | (s', .panic) => (s', .saved .panic [])
        | (s', .blocked) => (s', .saved .blocked [])
  | [], i, s, pt, pi, e, created, pending, last => by simp [saveLoop, IM.saveLoop, Prog.run]
  | er :: ers, i, s, pt, pi, e, created, pending, last => by
    simp only [saveLoop, IM.saveLoop]
    by_cases h1 : pt ≠ [] ∧ pt ≠ er.event.aggType
    · rw [if_pos h1, if_pos h1]; rfl
    rw [if_neg h1, if_neg h1]
    by_cases h2 : pi ≠ [] ∧ pi ≠ er.event.aggId
    · rw [if_pos h2, if_pos h2]; rfl
    rw [if_neg h2, if_neg h2]
    by_cases h3 : ctxDone cancelAt i = true
    · rw [if_pos h3, if_pos h3]; rfl
    rw [if_neg h3, if_neg h3]
    simp only [Prog.run]
    rcases hx : IM.saveEvent z s stream e er with ⟨s1, x⟩
    cases x with
    | error e =>
      simp only [Prog.run]
      rcases hy : IM.removeRecentEvents s1 created er.event.aggType er.event.aggId with ⟨s2, b⟩
      cases b <;> simp [Prog.run]
    | ok p =>
      obtain ⟨data, record⟩ := p
      exact saveLoop_run stream cancelAt ers _ _ _ _ _ _ _ _

theorem deleteLoop_run (stream : Str) : ∀ (gsns : List Nat) (s : IM.State),
    (deleteLoop stream gsns).run s =
      match IM.deleteLoop s gsns with
      | (s', true) => (s', .deleted .panic)
      | (s', false) => ({ s' with streams := IM.setMap s'.streams stream none }, .deleted (.ok ()))
  | [], s => by simp [deleteLoop, IM.deleteLoop, Prog.run]
  | x :: xs, s => by
    simp only [deleteLoop, IM.deleteLoop, Prog.run]
    rcases hx : IM.deleteOne s x with ⟨s1, b⟩
    cases b with
    | true => simp [Prog.run]
    | false =>
      simp only [Bool.false_eq_true, if_false]
      exact deleteLoop_run stream xs s1

theorem readLoop_run (cancelAt : Option Nat) (keep : Record → Bool) (s : IM.State) :
    ∀ (ids : List Nat) (out : List Record),
      (readLoop z cancelAt keep out ids).run s =
        (s, .read (.ok ⟨out ++ (IM.recordsByIDs z s cancelAt keep out.length ids).recs,
          (IM.recordsByIDs z s cancelAt keep out.length ids).err⟩))
  | [], out => by simp [readLoop, IM.recordsByIDs, Prog.run]
  | id :: ids, out => by
    simp only [readLoop, look_run, IM.recordsByIDs]
    cases s.data id with
    | none => simp [Prog.run]
    | some data =>
      simp only
      cases z.deser data with
      | none => simp [Prog.run]
      | some record =>
        simp only
        by_cases hk : keep record = true
        · rw [if_pos hk, if_pos hk]
          by_cases hc : ctxDone cancelAt out.length = true
          · rw [if_pos hc, if_pos hc]; simp [Prog.run]
          · rw [if_neg hc, if_neg hc, readLoop_run cancelAt keep s ids (out ++ [record])]
            simp
        · rw [if_neg hk, if_neg hk]
          exact readLoop_run cancelAt keep s ids out

theorem readLoop_readOnly (cancelAt : Option Nat) (keep : Record → Bool) :
    ∀ (ids : List Nat) (out : List Record), ReadOnly (readLoop z cancelAt keep out ids)
  | [], _ => trivial
  | id :: ids, out => by
    refine readOnly_look fun s => ?_
    split
    · trivial
    · split
      · trivial
      · split
        · split
          · trivial
          · exact readLoop_readOnly cancelAt keep ids _
        · exact readLoop_readOnly cancelAt keep ids _

theorem run_eq (c : Call) : ((impl z).body c).run = spec z c := by
  funext s
  cases c with
  | save stream expected cancelAt ers =>
    simp only [impl, spec, IM.saveEvents]
    by_cases h1 : ers.length < 1
    · rw [if_pos h1, if_pos h1]; rfl
    rw [if_neg h1, if_neg h1, look_run]
    by_cases h2 : s.locked = true
    · rw [if_pos h2, if_pos h2]; rfl
    rw [if_neg h2, if_neg h2, saveLoop_run]
    rcases IM.saveLoop z stream cancelAt 0 s [] [] expected [] [] 0 ers with ⟨s1, x⟩
    cases x <;> rfl
  | delete stream expected cancelled =>
    simp only [impl, spec, IM.deleteStream]
    cases cancelled with
    | true => rfl
    | false =>
      simp only [Bool.false_eq_true, if_false, look_run]
      by_cases h2 : s.locked = true
      · rw [if_pos h2, if_pos h2]; rfl
      rw [if_neg h2, if_neg h2]
      cases s.streams stream with
      | none => rfl
      | some gsns =>
        simp only
        by_cases h3 : expected ≠ gsns.length
        · rw [if_pos h3, if_pos h3]; rfl
        rw [if_neg h3, if_neg h3, deleteLoop_run]
        rcases IM.deleteLoop s gsns with ⟨s1, b⟩
        cases b <;> rfl
  | total stream cancelled =>
    cases cancelled <;> rfl
  | events cancelAt g =>
    simp only [impl, spec, look_run, readLoop_run, IM.events]
    simp
  | stream cancelAt n name =>
    simp only [impl, spec, look_run, IM.eventsByStream]
    by_cases h : (s.streams name).isNone = true ∨ (IM.get s.streams name).length = 0
    · rw [if_pos h, if_pos h]; rfl
    · rw [if_neg h, if_neg h, readLoop_run]; simp
  | type cancelAt g name =>
    simp only [impl, spec, look_run, readLoop_run, IM.eventsByType]
    simp

theorem wf (z : Serializer) : WF (impl z) where
  read c hm := by
    cases c with
    | save stream expected cancelAt ers => simp only [impl] at hm; split at hm <;> simp at hm
    | delete stream expected cancelled => simp only [impl] at hm; split at hm <;> simp at hm
    | total stream cancelled =>
      simp only [impl] at hm ⊢
      cases cancelled with
      | true => simp at hm
      | false => exact readOnly_look fun _ => trivial
    | events cancelAt g => exact readOnly_look fun s => readLoop_readOnly _ _ _ _
    | stream cancelAt n name =>
      refine readOnly_look fun s => ?_
      split
      · trivial
      · exact readLoop_readOnly _ _ _ _
    | type cancelAt g name => exact readOnly_look fun s => readLoop_readOnly _ _ _ _
  none c hm := by
    left
    cases c with
    | save stream expected cancelAt ers =>
      simp only [impl] at hm ⊢
      by_cases h : ers.length < 1
      · rw [if_pos h]; exact ⟨_, rfl⟩
      · rw [if_neg h] at hm; simp at hm
    | delete stream expected cancelled =>
      simp only [impl] at hm ⊢
      cases cancelled with
      | true => exact ⟨_, rfl⟩
      | false => simp at hm
    | total stream cancelled =>
      simp only [impl] at hm ⊢
      cases cancelled with
      | true => exact ⟨_, rfl⟩
      | false => simp at hm
    | events cancelAt g => simp [impl] at hm
    | stream cancelAt n name => simp [impl] at hm
    | type cancelAt g name => simp [impl] at hm

end InM

namespace Lev

open KV

theorem saveLoop_run (stream : Str) (cancelAt : Option Nat) (s : LD.State) :
    ∀ (ers : List EventRecord) (i : Nat) (view : DB) (pt pi : Str) (e : Option Nat)
      (pending : List Str) (last : Nat),
      (saveLoop z stream cancelAt i view pt pi e pending last ers).run s =
        match LD.saveLoop z stream cancelAt i view pt pi e pending last ers with
        | .error e => (s, .saved (.err e) [])
        | .ok (db, pending, last) => ({ s with db := db }, .saved (.ok last) (pending.filterMap z.deser))
  | [], i, view, pt, pi, e, pending, last => by simp [saveLoop, LD.saveLoop, Prog.run]
  | er :: ers, i, view, pt, pi, e, pending, last => by
    simp only [saveLoop, LD.saveLoop]
    by_cases h1 : pt ≠ [] ∧ pt ≠ er.event.aggType
    · rw [if_pos h1, if_pos h1]; rfl
    rw [if_neg h1, if_neg h1]
    by_cases h2 : pi ≠ [] ∧ pi ≠ er.event.aggId
    · rw [if_pos h2, if_pos h2]; rfl
    rw [if_neg h2, if_neg h2, look_run]
    cases LD.saveEvent z view stream e (ctxDone cancelAt i) er with
    | error e => rfl
    | ok p =>
      obtain ⟨view', data, seq⟩ := p
      exact saveLoop_run stream cancelAt s ers _ _ _ _ _ _ _

theorem saveLoop_atomic (stream : Str) (cancelAt : Option Nat) :
    ∀ (ers : List EventRecord) (i : Nat) (view : DB) (pt pi : Str) (e : Option Nat)
      (pending : List Str) (last : Nat), Atomic (saveLoop z stream cancelAt i view pt pi e pending last ers)
  | [], i, view, pt, pi, e, pending, last => fun s => Or.inl (by simp [Prog.result])
  | er :: ers, i, view, pt, pi, e, pending, last => by
    simp only [saveLoop]
    split
    · trivial
    · split
      · trivial
      · refine atomic_look fun s => ?_
        split
        · trivial
        · exact saveLoop_atomic stream cancelAt ers _ _ _ _ _ _ _

theorem deleteLoop_run (expected : Nat) (s : LD.State) : ∀ (items : DB) (cnt : Nat) (batch : List Write),
    (deleteLoop z expected cnt batch items).run s =
      match LD.deleteLoop z cnt batch items with
      | .error e => ({ s with txOpen := true }, .deleted (.err e))
      | .ok (cnt, batch) =>
        if cnt = 0 then ({ s with txOpen := true }, .deleted (.err .notFound))
        else if cnt ≠ expected then ({ s with txOpen := true }, .deleted (.err (.unexpected expected cnt)))
        else ({ s with db := apply s.db batch }, .deleted (.ok ()))
  | [], cnt, batch => by
    simp only [deleteLoop, LD.deleteLoop]
    by_cases h1 : cnt = 0
    · rw [if_pos h1, if_pos h1]; rfl
    rw [if_neg h1, if_neg h1]
    by_cases h2 : cnt ≠ expected
    · rw [if_pos h2, if_pos h2]; rfl
    rw [if_neg h2, if_neg h2]
    rfl
  | (k, v) :: rest, cnt, batch => by
    simp only [deleteLoop, LD.deleteLoop]
    cases z.deser v with
    | none => rfl
    | some record => exact deleteLoop_run expected s rest _ _

theorem deleteLoop_atomic (expected : Nat) : ∀ (items : DB) (cnt : Nat) (batch : List Write),
    Atomic (deleteLoop z expected cnt batch items)
  | [], cnt, batch => by
    simp only [deleteLoop]
    split
    · exact fun s => Or.inl (by simp [Prog.result])
    · split <;> exact fun s => Or.inl (by simp [Prog.result])
  | (k, v) :: rest, cnt, batch => by
    simp only [deleteLoop]
    split
    · exact fun s => Or.inl (by simp [Prog.result])
    · exact atomic_look fun s => deleteLoop_atomic expected rest _ _

theorem prefixLoop_run (cancelAt : Option Nat) (n : Nat) (s : LD.State) :
    ∀ (items : DB) (out : List Record),
      (prefixLoop z cancelAt n out items).run s =
        (s, .read (.ok ⟨out ++ (LD.prefixLoop z cancelAt n out.length items).recs,
          (LD.prefixLoop z cancelAt n out.length items).err⟩))
  | [], out => by simp [prefixLoop, LD.prefixLoop, Prog.run]
  | (k, v) :: rest, out => by
    simp only [prefixLoop, look_run, LD.prefixLoop]
    cases z.deser v with
    | none => simp [Prog.run]
    | some record =>
      simp only
      by_cases hk : record.seq < n
      · rw [if_pos hk, if_pos hk]
        exact prefixLoop_run cancelAt n s rest out
      · rw [if_neg hk, if_neg hk]
        by_cases hc : ctxDone cancelAt out.length = true
        · rw [if_pos hc, if_pos hc]; simp [Prog.run]
        · rw [if_neg hc, if_neg hc, prefixLoop_run cancelAt n s rest (out ++ [record])]
          simp

theorem prefixLoop_readOnly (cancelAt : Option Nat) (n : Nat) :
    ∀ (items : DB) (out : List Record), ReadOnly (prefixLoop z cancelAt n out items)
  | [], _ => trivial
  | (k, v) :: rest, out => by
    refine readOnly_look fun s => ?_
    split
    · trivial
    · split
      · exact prefixLoop_readOnly cancelAt n rest _
      · split
        · trivial
        · exact prefixLoop_readOnly cancelAt n rest _

theorem lookupLoop_run (cancelAt : Option Nat) (g : Nat) (s : LD.State) :
    ∀ (items : DB) (out : List Record),
      (lookupLoop z cancelAt g out items).run s =
        (s, .read (.ok ⟨out ++ (LD.lookupLoop z s.db cancelAt g out.length items).recs,
          (LD.lookupLoop z s.db cancelAt g out.length items).err⟩))
  | [], out => by simp [lookupLoop, LD.lookupLoop, Prog.run]
  | (k, v) :: rest, out => by
    simp only [lookupLoop, look_run, LD.lookupLoop]
    cases get s.db v with
    | none => simp [Prog.run]
    | some v =>
      simp only
      cases z.deser v with
      | none => simp [Prog.run]
      | some record =>
        simp only
        by_cases hk : record.gsn < g
        · rw [if_pos hk, if_pos hk]
          exact lookupLoop_run cancelAt g s rest out
        · rw [if_neg hk, if_neg hk]
          by_cases hc : ctxDone cancelAt out.length = true
          · rw [if_pos hc, if_pos hc]; simp [Prog.run]
          · rw [if_neg hc, if_neg hc, lookupLoop_run cancelAt g s rest (out ++ [record])]
            simp

theorem lookupLoop_readOnly (cancelAt : Option Nat) (g : Nat) :
    ∀ (items : DB) (out : List Record), ReadOnly (lookupLoop z cancelAt g out items)
  | [], _ => trivial
  | (k, v) :: rest, out => by
    refine readOnly_look fun s => ?_
    split
    · trivial
    · split
      · trivial
      · split
        · exact lookupLoop_readOnly cancelAt g rest _
        · split
          · trivial
          · exact lookupLoop_readOnly cancelAt g rest _

theorem lookup_run (cancelAt : Option Nat) (key : Str) (g : Nat) (s : LD.State) :
    (lookup z cancelAt key g).run s =
      (s, .read (if s.muxHeld then .blocked else .ok (LD.getEventsByLookup z s.db cancelAt key g))) := by
  simp only [lookup, look_run]
  by_cases h : s.muxHeld = true
  · rw [if_pos h, if_pos h]; rfl
  · rw [if_neg h, if_neg h, lookupLoop_run]
    simp [LD.getEventsByLookup]

theorem lookup_readOnly (cancelAt : Option Nat) (key : Str) (g : Nat) : ReadOnly (lookup z cancelAt key g) := by
  refine readOnly_look fun s => ?_
  split
  · trivial
  · exact lookupLoop_readOnly _ _ _ _

theorem run_eq (c : Call) : ((impl z).body c).run = spec z c := by
  funext s
  cases c with
  | save stream expected cancelAt ers =>
    simp only [impl, spec, LD.saveEvents]
    by_cases h1 : ers.length < 1
    · rw [if_pos h1, if_pos h1]; rfl
    rw [if_neg h1, if_neg h1, look_run]
    by_cases h2 : s.muxHeld = true
    · rw [if_pos h2, if_pos h2]; rfl
    rw [if_neg h2, if_neg h2]
    by_cases h3 : s.txOpen = true
    · rw [if_pos h3, if_pos h3]; rfl
    rw [if_neg h3, if_neg h3, saveLoop_run]
    rcases LD.saveLoop z stream cancelAt 0 s.db [] [] expected [] 0 ers with e | ⟨db, pending, last⟩ <;> rfl
  | delete stream expected cancelled =>
    simp only [impl, spec, LD.deleteStream]
    cases cancelled with
    | true => rfl
    | false =>
      simp only [Bool.false_eq_true, if_false, look_run]
      by_cases h2 : s.muxHeld = true
      · rw [if_pos h2, if_pos h2]; rfl
      rw [if_neg h2, if_neg h2]
      by_cases h3 : s.txOpen = true
      · rw [if_pos h3, if_pos h3]; rfl
      rw [if_neg h3, if_neg h3, deleteLoop_run]
      generalize LD.deleteLoop z 0 [] _ = d
      rcases d with e | ⟨cnt, batch⟩
      · rfl
      · simp only
        by_cases h4 : cnt = 0
        · simp only [if_pos h4]
        · simp only [if_neg h4]
          by_cases h5 : cnt ≠ expected
          · simp only [if_pos h5]
          · simp only [if_neg h5]
  | total stream cancelled =>
    cases cancelled <;> rfl
  | events cancelAt g =>
    simp only [impl, spec, lookup_run, LD.events]
  | stream cancelAt n name =>
    simp only [impl, spec, look_run, LD.eventsByStream]
    by_cases h : s.muxHeld = true
    · rw [if_pos h, if_pos h]; rfl
    · rw [if_neg h, if_neg h]
      simp only [LD.getEventsByPrefix]
      split
      · rfl
      · rw [prefixLoop_run]; simp
  | type cancelAt g name =>
    simp only [impl, spec, lookup_run, LD.eventsByAggregateTypes]
    simp

theorem allAtomic (z : Serializer) : AllAtomic (impl z) := by
  intro c hm
  cases c with
  | save stream expected cancelAt ers =>
    simp only [impl]
    split
    · trivial
    · refine atomic_look fun s => ?_
      split
      · trivial
      · split
        · exact fun s => Or.inl (by simp [Prog.result])
        · exact saveLoop_atomic _ _ _ _ _ _ _ _ _ _
  | delete stream expected cancelled =>
    simp only [impl]
    split
    · trivial
    · refine atomic_look fun s => ?_
      split
      · trivial
      · split
        · exact fun s => Or.inl (by simp [Prog.result])
        · exact deleteLoop_atomic _ _ _ _
  | total stream cancelled => simp [impl] at hm
  | events cancelAt g => simp [impl] at hm
  | stream cancelAt n name => simp [impl] at hm
  | type cancelAt g name => simp [impl] at hm

theorem wf (z : Serializer) : WF (impl z) where
  read c hm := by
    cases c with
    | save stream expected cancelAt ers => simp only [impl] at hm; split at hm <;> simp at hm
    | delete stream expected cancelled => simp only [impl] at hm; split at hm <;> simp at hm
    | total stream cancelled => simp [impl] at hm
    | events cancelAt g => exact lookup_readOnly _ _ _
    | stream cancelAt n name =>
      refine readOnly_look fun s => ?_
      split
      · trivial
      · simp only
        split
        · trivial
        · exact prefixLoop_readOnly _ _ _ _
    | type cancelAt g name => exact lookup_readOnly _ _ _
  none c hm := by
    cases c with
    | save stream expected cancelAt ers =>
      left
      simp only [impl] at hm ⊢
      by_cases h : ers.length < 1
      · rw [if_pos h]; exact ⟨_, rfl⟩
      · rw [if_neg h] at hm; simp at hm
    | delete stream expected cancelled =>
      left
      simp only [impl] at hm ⊢
      cases cancelled with
      | true => exact ⟨_, rfl⟩
      | false => simp at hm
    | total stream cancelled =>
      simp only [impl]
      cases cancelled with
      | true => exact Or.inl ⟨_, rfl⟩
      | false => exact Or.inr ⟨allAtomic z, _, rfl⟩
    | events cancelAt g => simp [impl] at hm
    | stream cancelAt n name => simp [impl] at hm
    | type cancelAt g name => simp [impl] at hm

end Lev

end RangeDB.Lin

import Verif.Thm.InMemory
import Mathlib.Data.List.Induction

/-! # Exactly when the in-memory store deletes a stream that has no events (C08) -/

namespace RangeDB.IM

open Demo

variable {z : Serializer}

/-- The errors after which a save takes back what it has stored. -/
def Rejected (e : Err) : Prop := e = .serialize ∨ ∃ x a, e = .unexpected x a

/-- The call is a save that was rejected by the serializer or for its expected sequence number, and one of its events
has the aggregate type and ID that `st` is named after. The stream it was addressed to may be another one. -/
def RejectedNaming (z : Serializer) (s : State) (st : Str) : Op → Prop
  | .save st' expected cancelAt ers =>
    (∃ e, (saveEvents z s st' expected cancelAt ers).out = .err e ∧ Rejected e) ∧
    ∃ er ∈ ers, getStream er.event.aggType er.event.aggId = st
  | .delete .. => False

/-- The call is a successful delete of `st`. -/
def Deletes (s : State) (st : Str) : Op → Prop
  | .save .. => False
  | .delete st' expected cancelled => st' = st ∧ (deleteStream s st' expected cancelled).2 = .ok ()

/-! ## Lemmas -/

/-- There is no empty entry for `x`. -/
def Clean (s : State) (x : Str) : Prop := s.streams x = none ∨ get s.streams x ≠ []

theorem saveEvent_error {s s1 : State} {st : Str} {ex : Option Nat} {er : EventRecord} {e : Err}
    (h : saveEvent z s st ex er = (s1, .error e)) : s1.streams = s.streams ∧ Rejected e := by
  have key : ∀ q, saveEvent.store z s st q er = (s1, .error e) → s1.streams = s.streams ∧ Rejected e := by
    intro q hq
    unfold saveEvent.store at hq
    simp only at hq
    split at hq
    · simp only [Prod.mk.injEq, Except.error.injEq] at hq
      obtain ⟨rfl, rfl⟩ := hq
      exact ⟨rfl, Or.inl rfl⟩
    · simp at hq
  unfold saveEvent at h
  simp only at h
  split at h
  · split at h
    · simp only [Prod.mk.injEq, Except.error.injEq] at h
      obtain ⟨rfl, rfl⟩ := h
      exact ⟨rfl, Or.inr ⟨_, _, rfl⟩⟩
    · exact key _ h
  · exact key _ h

theorem saveEvent_clean {s s1 : State} {st : Str} {ex : Option Nat} {er : EventRecord} {b : Str} {r : Record}
    (h : saveEvent z s st ex er = (s1, .ok (b, r))) {x : Str} (hx : Clean s x) : Clean s1 x := by
  have key : ∀ q, saveEvent.store z s st q er = (s1, .ok (b, r)) → Clean s1 x := by
    intro q hq
    unfold saveEvent.store at hq
    simp only at hq
    split at hq
    · simp at hq
    · simp only [Prod.mk.injEq, Except.ok.injEq] at hq
      obtain ⟨rfl, _⟩ := hq
      by_cases hxs : x = st
      · subst hxs
        right
        simp [get, setMap]
      · rcases hx with hx | hx
        · left; simpa [setMap, hxs] using hx
        · right; simpa [get, setMap, hxs] using hx
  unfold saveEvent at h
  simp only at h
  split at h
  · split at h
    · simp at h
    · exact key _ h
  · exact key _ h

theorem removeRecentEvents_key {s s2 : State} {gs : List Nat} {t i : Str}
    (h : removeRecentEvents s gs t i = (s2, false)) :
    (∃ l, s2.streams (getStream t i) = some l) ∧ ∀ x, x ≠ getStream t i → s2.streams x = s.streams x := by
  unfold removeRecentEvents at h
  simp only at h
  split at h
  · simp at h
  · split at h
    · simp at h
    · split at h
      · simp at h
      · simp only [Prod.mk.injEq, and_true] at h
        subst h
        refine ⟨⟨_, by simp [setMap]; rfl⟩, ?_⟩
        intro x hx
        simp [setMap, hx]

theorem saveLoop_key (z : Serializer) (st : Str) (c : Option Nat) (x : Str) :
    ∀ (ers : List EventRecord) (i : Nat) (s : State) (pt pi : Str) (ex : Option Nat) (cr : List Nat) (pd : List Str)
      (last : Nat) (s' : State) (o : Outcome (Nat × List Str)),
      saveLoop z st c i s pt pi ex cr pd last ers = (s', o) →
      (Clean s x → Clean s' x ∨ o = .panic ∨
        ((∃ e, o = .err e ∧ Rejected e) ∧ ∃ er ∈ ers, getStream er.event.aggType er.event.aggId = x)) ∧
      (∀ e, o = .err e → Rejected e →
        ∃ er ∈ ers, ∃ l, s'.streams (getStream er.event.aggType er.event.aggId) = some l) := by
  intro ers
  induction ers with
  | nil =>
    intro i s pt pi ex cr pd last s' o h
    simp only [saveLoop, Prod.mk.injEq] at h
    obtain ⟨rfl, rfl⟩ := h
    exact ⟨fun h => Or.inl h, fun e he => by simp at he⟩
  | cons er ers ih =>
    intro i s pt pi ex cr pd last s' o h
    unfold saveLoop at h
    split at h
    · simp only [Prod.mk.injEq] at h
      obtain ⟨rfl, rfl⟩ := h
      exact ⟨fun h => Or.inl h, fun e he hr => by
        simp only [Outcome.err.injEq] at he; subst he; rcases hr with hr | ⟨_, _, hr⟩ <;> cases hr⟩
    · split at h
      · simp only [Prod.mk.injEq] at h
        obtain ⟨rfl, rfl⟩ := h
        exact ⟨fun h => Or.inl h, fun e he hr => by
          simp only [Outcome.err.injEq] at he; subst he; rcases hr with hr | ⟨_, _, hr⟩ <;> cases hr⟩
      · split at h
        · simp only [Prod.mk.injEq] at h
          obtain ⟨rfl, rfl⟩ := h
          exact ⟨fun h => Or.inl h, fun e he hr => by
            simp only [Outcome.err.injEq] at he; subst he; rcases hr with hr | ⟨_, _, hr⟩ <;> cases hr⟩
        · split at h
          · rename_i s1 e hse
            obtain ⟨hs1, hre⟩ := saveEvent_error hse
            split at h
            · simp only [Prod.mk.injEq] at h
              obtain ⟨_, rfl⟩ := h
              exact ⟨fun _ => Or.inr (Or.inl rfl), fun e he => by simp at he⟩
            · rename_i s2 hrm
              simp only [Prod.mk.injEq] at h
              obtain ⟨rfl, rfl⟩ := h
              obtain ⟨hk, hk'⟩ := removeRecentEvents_key hrm
              refine ⟨?_, fun _ _ _ => ⟨er, by simp, hk⟩⟩
              intro hc
              by_cases hx : x = getStream er.event.aggType er.event.aggId
              · exact Or.inr (Or.inr ⟨⟨e, rfl, hre⟩, er, by simp, hx.symm⟩)
              · left
                have : s2.streams x = s.streams x := by rw [hk' x hx, hs1]
                unfold Clean get at hc ⊢
                rw [this]; exact hc
          · rename_i s1 data record hse
            obtain ⟨h1, h2⟩ := ih _ _ _ _ _ _ _ _ _ _ h
            refine ⟨?_, ?_⟩
            · intro hc
              rcases h1 (saveEvent_clean hse hc) with h | h | ⟨h, e', he', hn⟩
              · exact Or.inl h
              · exact Or.inr (Or.inl h)
              · exact Or.inr (Or.inr ⟨h, e', by simp [he'], hn⟩)
            · intro e he hr
              obtain ⟨e', he', hn⟩ := h2 e he hr
              exact ⟨e', by simp [he'], hn⟩

theorem saveEvents_key (z : Serializer) (s : State) (st : Str) (ex c : Option Nat) (ers : List EventRecord) (x : Str) :
    (Clean s x → Clean (saveEvents z s st ex c ers).state x ∨ (saveEvents z s st ex c ers).out = .panic ∨
      RejectedNaming z s x (.save st ex c ers)) ∧
    (∀ e, (saveEvents z s st ex c ers).out = .err e → Rejected e →
      ∃ er ∈ ers, ∃ l, (saveEvents z s st ex c ers).state.streams (getStream er.event.aggType er.event.aggId) = some l) := by
  unfold RejectedNaming saveEvents
  split
  · refine ⟨fun h => Or.inl h, fun e he hr => ?_⟩
    simp only [Outcome.err.injEq] at he
    subst he
    rcases hr with hr | ⟨_, _, hr⟩ <;> cases hr
  · split
    · exact ⟨fun h => Or.inl h, fun e he => by simp at he⟩
    · split
      · rename_i s' last pending h
        obtain ⟨h1, h2⟩ := saveLoop_key z st c x ers _ _ _ _ _ _ _ _ _ _ h
        refine ⟨fun hc => ?_, fun e he => by simp at he⟩
        rcases h1 hc with h | h | ⟨⟨e, he, _⟩, _⟩
        · exact Or.inl h
        · cases h
        · cases he
      · rename_i s' e h
        obtain ⟨h1, h2⟩ := saveLoop_key z st c x ers _ _ _ _ _ _ _ _ _ _ h
        refine ⟨fun hc => ?_, fun e' he' => ?_⟩
        · rcases h1 hc with h | h | ⟨⟨e', he', hr⟩, hn⟩
          · exact Or.inl h
          · cases h
          · cases he'
            refine Or.inr (Or.inr ⟨⟨e, ?_, hr⟩, hn⟩)
            simp_all
        · simp only [Outcome.err.injEq] at he'
          subst he'
          exact h2 e rfl
      · exact ⟨fun _ => Or.inr (Or.inl rfl), fun e he => by simp at he⟩
      · rename_i s' h
        obtain ⟨h1, h2⟩ := saveLoop_key z st c x ers _ _ _ _ _ _ _ _ _ _ h
        refine ⟨fun hc => ?_, fun e he => by simp at he⟩
        rcases h1 hc with h | h | ⟨⟨e, he, _⟩, _⟩
        · exact Or.inl h
        · cases h
        · cases he

theorem deleteLoop_streams : ∀ (xs : List Nat) (s : State), (deleteLoop s xs).1.streams = s.streams := by
  intro xs
  induction xs with
  | nil => intro s; rfl
  | cons x xs ih =>
    intro s
    unfold deleteLoop
    have h1 : (deleteOne s x).1.streams = s.streams := by unfold deleteOne; split <;> rfl
    split
    · rename_i s' h; rw [h] at h1; exact h1
    · rename_i s' h
      rw [h] at h1
      rw [ih s', h1]

theorem deleteStream_clean (s : State) (st : Str) (e : Nat) (c : Bool) (x : Str) (hc : Clean s x) :
    Clean (deleteStream s st e c).1 x := by
  unfold deleteStream
  split
  · exact hc
  · split
    · exact hc
    · split
      · exact hc
      · rename_i gsns hg
        split
        · exact hc
        · have hd := deleteLoop_streams gsns s
          split
          · rename_i s' h; rw [h] at hd; unfold Clean get at hc ⊢; rw [hd]; exact hc
          · rename_i s' h
            rw [h] at hd
            by_cases hx : x = st
            · left; simp [setMap, hx]
            · unfold Clean get at hc ⊢
              simp only [setMap, hx, if_false]
              rw [hd]; exact hc

theorem deleteStream_ok_none {s : State} {st : Str} {e : Nat} {c : Bool}
    (h : (deleteStream s st e c).2 = .ok ()) : (deleteStream s st e c).1.streams st = none := by
  revert h
  unfold deleteStream
  split
  · intro h; cases h
  · split
    · intro h; cases h
    · split
      · intro h; cases h
      · split
        · intro h; cases h
        · split
          · intro h; cases h
          · intro _; simp [setMap]

theorem guarded_no_panic (hz : z.Lawful) (ops : List Op) (hg : ∀ op ∈ ops, op.Guarded z) (st : Str)
    (ex c : Option Nat) (ers : List EventRecord) (hge : Guarded z st ers) :
    (saveEvents z (run z ops) st ex c ers).out ≠ .panic := by
  obtain ⟨hL, hs⟩ := run_sim hz ops hg
  by_cases hne : ers = []
  · subst hne; simp [saveEvents]
  · have h := saveEvents_spec hz hL hs st ex c ers hge hne
    cases hp : batchProblem z (specRun z ops) st ex c ers with
    | none => rw [(h.1 hp).1]; simp
    | some p => obtain ⟨j, e⟩ := p; rw [(h.2 j e hp).1]; simp

theorem run_concat (z : Serializer) (ops : List Op) (op : Op) : run z (ops ++ [op]) = step z (run z ops) op := by
  simp [run]

theorem clean_run (hz : z.Lawful) (st : Str) : ∀ (ops : List Op), (∀ op ∈ ops, op.Guarded z) →
    (∀ pre op post, ops = pre ++ op :: post → RejectedNaming z (run z pre) st op →
      ∃ p d q, post = p ++ d :: q ∧ Deletes (run z (pre ++ op :: p)) st d) → Clean (run z ops) st := by
  intro ops
  induction ops using List.reverseRecOn with
  | nil => intro _ _; left; rfl
  | append_singleton ops op ih =>
    intro hg hs
    by_cases hd : Deletes (run z ops) st op
    · rw [run_concat]
      cases op with
      | save _ _ _ _ => exact absurd hd (by simp [Deletes])
      | delete st' e c =>
        obtain ⟨rfl, hok⟩ := hd
        left
        exact deleteStream_ok_none hok
    · have hc : Clean (run z ops) st := by
        apply ih (fun o ho => hg o (by simp [ho]))
        intro pre o post he hr
        obtain ⟨p, d, q, h1, h2⟩ := hs pre o (post ++ [op]) (by rw [he]; simp) hr
        rcases List.eq_nil_or_concat q with rfl | ⟨q', d', rfl⟩
        · exfalso
          have h3 : post = p ∧ op = d := by
            have := List.append_inj' h1 (by simp)
            exact ⟨this.1, by simpa using this.2⟩
          obtain ⟨rfl, rfl⟩ := h3
          rw [← he] at h2
          exact hd h2
        · refine ⟨p, d, q', ?_, h2⟩
          have : post ++ [op] = (p ++ d :: q') ++ [d'] := by rw [h1]; simp
          exact (List.append_inj' this (by simp)).1
      have hnot : ¬ RejectedNaming z (run z ops) st op := by
        intro hr
        obtain ⟨p, d, q, h1, _⟩ := hs ops op [] rfl hr
        simp at h1
      rw [run_concat]
      cases op with
      | save st' ex c ers =>
        rcases (saveEvents_key z (run z ops) st' ex c ers st).1 hc with h | h | h
        · exact h
        · exact absurd h (guarded_no_panic hz ops (fun o ho => hg o (by simp [ho])) st' ex c ers
            (hg (.save st' ex c ers) (by simp)))
        · exact absurd h hnot
      | delete st' e c => exact deleteStream_clean _ _ _ _ _ hc

/-! ## C08 -/

/-- **C08**, streams without events: a delete returns `ErrStreamNotFound`, unless a save of an event that the stream
would be named after has been rejected, by the serializer or for its expected number, and the stream has not been
deleted since. -/
theorem C08_not_found (hz : z.Lawful) (ops : List Op) (hg : ∀ op ∈ ops, op.Guarded z) (st : Str) (e : Nat)
    (hn : totalEventsInStream (run z ops) st false = .ok 0)
    (hs : ∀ pre op post, ops = pre ++ op :: post → RejectedNaming z (run z pre) st op →
      ∃ p d q, post = p ++ d :: q ∧ Deletes (run z (pre ++ op :: p)) st d) :
    deleteStream (run z ops) st e false = (run z ops, .err .notFound) := by
  have hsim := (run_sim hz ops hg).2
  have hl : get (run z ops).streams st = [] := by
    simp only [totalEventsInStream, hsim.unlocked] at hn
    simpa using hn
  rcases clean_run hz st ops hg hs with h | h
  · simp [deleteStream, hsim.unlocked, h]
  · exact absurd hl h

/-- **C08**, the exception is real: after every rejected save of events that all have the aggregate type and ID of
`st`, to whichever stream it was addressed, if `st` has no events then a delete of `st` that expects 0 returns nil, and one
that expects another number returns `UnexpectedSequenceNumber`. -/
theorem C08_found_empty (hz : z.Lawful) (ops : List Op) (hg : ∀ op ∈ ops, op.Guarded z) (st st' : Str)
    (ex c : Option Nat) (ers : List EventRecord) (hge : Guarded z st' ers) (e : Err) (hr : Rejected e)
    (hall : ∀ er ∈ ers, getStream er.event.aggType er.event.aggId = st)
    (herr : (saveEvents z (run z ops) st' ex c ers).out = .err e)
    (hn : totalEventsInStream (saveEvents z (run z ops) st' ex c ers).state st false = .ok 0) :
    (deleteStream (saveEvents z (run z ops) st' ex c ers).state st 0 false).2 = .ok () ∧
    ∀ n, n ≠ 0 →
      (deleteStream (saveEvents z (run z ops) st' ex c ers).state st n false).2 = .err (.unexpected n 0) := by
  have hsim := (run_sim hz (ops ++ [.save st' ex c ers]) (by
    intro o ho
    rcases List.mem_append.mp ho with ho | ho
    · exact hg o ho
    · simp only [List.mem_singleton] at ho; subst ho; exact hge)).2
  rw [run_concat] at hsim
  change Sim z (saveEvents z (run z ops) st' ex c ers).state _ at hsim
  obtain ⟨er, her, l, hl⟩ := (saveEvents_key z (run z ops) st' ex c ers st).2 e herr hr
  rw [hall er her] at hl
  have hl0 : l = [] := by
    simp only [totalEventsInStream, hsim.unlocked, get, hl] at hn
    simpa using hn
  subst hl0
  refine ⟨?_, fun n hn0 => ?_⟩
  · simp [deleteStream, hsim.unlocked, hl, deleteLoop]
  · simp [deleteStream, hsim.unlocked, hl, hn0]

/-- Both cases occur: after a rejected save to the stream "S" the stream "A!1" can be deleted, although nothing was ever
addressed to it; deleted once, it is not found. -/
example :
    (deleteStream (run demo [.save [83] (some 5) none [evA [1]]]) sA 0 false).2 = .ok () ∧
    (deleteStream (run demo [.save [83] (some 5) none [evA [1]]]) [83] 0 false).2 = .err .notFound ∧
    (deleteStream (run demo [.save [83] (some 5) none [evA [1]], .delete sA 0 false]) sA 0 false).2
      = .err .notFound := by decide

/-- The hypotheses of the two theorems are met. -/
example : deleteStream (run demo [.save [83] (some 5) none [evA [1]]]) sB 7 false
    = (run demo [.save [83] (some 5) none [evA [1]]], .err .notFound) :=
  C08_not_found demo_lawful _ (by
      intro op hop; simp only [List.mem_singleton] at hop; subst hop; exact Or.inr (Or.inr (by decide))) sB 7 (by decide)
    (by
      intro pre op post he hr
      have : op = .save [83] (some 5) none [evA [1]] := by
        have : op ∈ [Op.save [83] (some 5) none [evA [1]]] := by rw [he]; simp
        simpa using this
      subst this
      obtain ⟨_, er, her, h⟩ := hr
      simp only [List.mem_singleton] at her
      subst her
      exact absurd h (by decide))

example : (deleteStream (saveEvents demo (run demo []) [83] (some 5) none [evA [1]]).state sA 0 false).2 = .ok () :=
  (C08_found_empty demo_lawful [] (by simp) sA [83] (some 5) none [evA [1]] (Or.inr (Or.inr (by decide)))
    (.unexpected 5 0) (Or.inr ⟨5, 0, rfl⟩) (by
      intro er her; simp only [List.mem_singleton] at her; subst her; decide) (by decide) (by decide)).1

end RangeDB.IM

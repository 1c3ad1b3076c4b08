import Verif.Thm.InMemory
import Verif.Thm.LevelDB
import Verif.Thm.Iterator

/-!
# What exactly a failed call leaves behind

`C06_partial`, `C14_partial` and `C17_partial` name conditions under which a failed call does no harm. The theorems
here show that the conditions are exact, and say what happens otherwise.
-/

namespace RangeDB.IM

open Demo

variable {z : Serializer}

/-- Where and why a batch fails first: the cancelled context is noticed at the first event after the
cancellation, a difference of type or ID at an event that has a predecessor. -/
theorem firstProblem_where (ser : Record → Option Str) (st : Str) (cancelAt : Option Nat) :
    ∀ (ers : List EventRecord) (g q : Nat) (ex : Option Nat) (i : Nat) (prev : Option EventRecord)
      (j : Nat) (e : Err),
      (∀ k, k < i → ctxDone cancelAt k = false) →
      firstProblem ser st cancelAt g q ex i prev ers = some (j, e) →
      i ≤ j ∧ j < i + ers.length ∧
      ((∃ x a, e = .unexpected x a) ∨ e = .serialize ∨
        (e = .canceled ∧ cancelAt = some j) ∨
        (∃ p er, (prev :: ers.map some)[j - i]? = some (some p) ∧ ers[j - i]? = some er ∧
          ((e = .unmatchedType ∧ p.event.aggType ≠ er.event.aggType) ∨
           (e = .unmatchedId ∧ p.event.aggId ≠ er.event.aggId)))) := by
  intro ers
  induction ers with
  | nil => intro g q ex i prev j e _ h; simp [firstProblem] at h
  | cons er ers ih =>
    intro g q ex i prev j e hk h
    simp only [firstProblem] at h
    split at h
    · rename_i e' he
      simp only [Option.some.injEq, Prod.mk.injEq] at h
      obtain ⟨rfl, rfl⟩ := h
      refine ⟨Nat.le_refl _, by simp, ?_⟩
      by_cases h1 : differs Event.aggType prev er = true
      · rw [problem_type h1] at he
        cases he
        cases prev with
        | none => simp [differs] at h1
        | some p =>
          right; right; right
          exact ⟨p, er, by simp, by simp, Or.inl ⟨rfl, by simpa [differs] using (by simpa [differs] using h1 : _ ∧ _).2⟩⟩
      by_cases h2 : differs Event.aggId prev er = true
      · rw [problem_id h1 h2] at he
        cases he
        cases prev with
        | none => simp [differs] at h2
        | some p =>
          right; right; right
          exact ⟨p, er, by simp, by simp, Or.inr ⟨rfl, by simpa [differs] using (by simpa [differs] using h2 : _ ∧ _).2⟩⟩
      by_cases h3 : ctxDone cancelAt i = true
      · rw [problem_ctx h1 h2 h3] at he
        cases he
        right; right; left
        refine ⟨rfl, ?_⟩
        cases cancelAt with
        | none => simp [ctxDone] at h3
        | some c =>
          simp only [ctxDone, decide_eq_true_eq] at h3
          have : ¬ c < i := by
            intro hc
            have := hk c hc
            simp [ctxDone] at this
          congr 1; omega
      simp only [problem, h1, h2, h3] at he
      cases ex with
      | none =>
        simp only [Bool.false_eq_true, if_false] at he
        split at he
        · cases he
        · cases he; simp
      | some x =>
        simp only [Bool.false_eq_true, if_false] at he
        split at he
        · cases he; simp
        · split at he
          · cases he
          · cases he; simp
    · rename_i he
      have h3 : ctxDone cancelAt i = false := by
        cases h3 : ctxDone cancelAt i with
        | false => rfl
        | true =>
          unfold problem at he
          simp only [h3, if_true] at he
          split at he
          · cases he
          · split at he <;> cases he
      obtain ⟨a, b, c⟩ := ih _ _ _ (i + 1) (some er) j e (by
        intro k hk'
        by_cases hki : k = i
        · subst hki; exact h3
        · exact hk k (by omega)) h
      refine ⟨by omega, by simp; omega, ?_⟩
      rcases c with c | c | c | ⟨p, er', c1, c2, c3⟩
      · exact Or.inl c
      · exact Or.inr (Or.inl c)
      · exact Or.inr (Or.inr (Or.inl c))
      · refine Or.inr (Or.inr (Or.inr ⟨p, er', ?_, ?_, c3⟩))
        · rw [show j - i = (j - (i + 1)) + 1 by omega]
          simpa using c1
        · rw [show j - i = (j - (i + 1)) + 1 by omega]
          simpa using c2

/-- **C06**, what a failed save leaves behind, exactly. After any guarded history, a guarded save of
`ers` that fails with `e` broadcasts nothing, and there is a `j` such that the first `j` events of the
batch, and no others, are readable afterwards: as the last records of the store, numbered on from the
records before. `j = 0` if the failure is an unexpected sequence number, a serializer error or an empty
batch; for a cancelled context `j` is the number of events handled before the cancellation; and for
an unmatched type or ID it is the position of the event that does not match its predecessor, so at
least one event is left. -/
theorem C06_left (hz : z.Lawful) (ops : List Op) (hg : ∀ op ∈ ops, op.Guarded z) (st : Str)
    (expected cancelAt : Option Nat) (ers : List EventRecord) (hge : Guarded z st ers) (e : Err)
    (herr : (saveEvents z (run z ops) st expected cancelAt ers).out = .err e) :
    let s := run z ops
    let s' := (saveEvents z s st expected cancelAt ers).state
    (saveEvents z s st expected cancelAt ers).broadcast = [] ∧
    ∃ j last total, j ≤ ers.length ∧
      (∀ r ∈ (events z s none 0).recs, r.gsn ≤ last) ∧
      totalEventsInStream s st false = .ok total ∧
      totalEventsInStream s' st false = .ok (total + j) ∧
      events z s' none 0
        = ⟨(events z s none 0).recs ++ (numbered st last total (ers.take j)).map z.view, none⟩ ∧
      ((j = 0 ∧ ((∃ x a, e = .unexpected x a) ∨ e = .serialize ∨ e = .missingEvents)) ∨
       (e = .canceled ∧ cancelAt = some j) ∨
       (∃ p er, 0 < j ∧ ers[j - 1]? = some p ∧ ers[j]? = some er ∧
          ((e = .unmatchedType ∧ p.event.aggType ≠ er.event.aggType) ∨
           (e = .unmatchedId ∧ p.event.aggId ≠ er.event.aggId)))) := by
  intro s s'
  obtain ⟨hL, hs⟩ := run_sim hz ops hg
  generalize specRun z ops = L at hL hs
  have hall : ∀ (t : State) (M : Log), Sim z t M → events z t none 0 = ⟨M.recs, none⟩ := by
    intro t M ht
    rw [events_spec ht]
    simp [cut]
  have hev : events z s none 0 = ⟨L.recs, none⟩ := hall _ _ hs
  have hbound : ∀ r ∈ (events z s none 0).recs, r.gsn ≤ L.last := by
    rw [hev]; exact fun r hr => (hL.bounded r hr).2
  have h0 : (numbered st L.last (L.streamLen st) (ers.take 0)).map z.view = [] := by simp [numbered]
  by_cases hne : ers = []
  · subst hne
    simp only [saveEvents] at herr
    simp only [List.length_nil, Nat.zero_lt_one, if_true, Outcome.err.injEq] at herr
    refine ⟨by simp [saveEvents], 0, L.last, L.streamLen st, by simp, hbound, total_spec hs st, ?_, ?_, ?_⟩
    · simpa [s', saveEvents] using total_spec hs st
    · simp only [s', saveEvents]
      simp [hev, numbered]
    · exact Or.inl ⟨rfl, Or.inr (Or.inr herr.symm)⟩
  · have hspec := saveEvents_spec hz hL hs st expected cancelAt ers hge hne
    cases hp : batchProblem z L st expected cancelAt ers with
    | none => rw [(hspec.1 hp).1] at herr; simp at herr
    | some p =>
      obtain ⟨j, e'⟩ := p
      obtain ⟨h1, h2, h3⟩ := hspec.2 j e' hp
      rw [h1] at herr
      cases herr
      refine ⟨h3, ?_⟩
      obtain ⟨_, hj, hw⟩ := firstProblem_where z.ser st cancelAt ers _ _ _ 0 none j e (by simp) hp
      have happ : ∀ n, n ≤ ers.length → afterFail z.view L st ers j e = L.append z.view st (ers.take n) →
          totalEventsInStream s' st false = .ok (L.streamLen st + n) ∧
          events z s' none 0
            = ⟨(events z s none 0).recs ++ (numbered st L.last (L.streamLen st) (ers.take n)).map z.view, none⟩ := by
        intro n hn heq
        rw [heq] at h2
        constructor
        · rw [show totalEventsInStream s' st false = .ok ((L.append z.view st (ers.take n)).streamLen st) from
            total_spec h2 st, Log.streamLen_append_self hz]
          simp [hn]
        · rw [show events z s' none 0 = _ from hall _ _ h2, hev]
          rfl
      rcases hw with ⟨x, a, rfl⟩ | rfl | ⟨rfl, hc⟩ | ⟨p, er, c1, c2, c3⟩
      · refine ⟨0, L.last, L.streamLen st, by simp, hbound, total_spec hs st, ?_⟩
        obtain ⟨k1, k2⟩ := happ 0 (by simp) (by simp [afterFail, Log.append, numbered])
        exact ⟨k1, k2, Or.inl ⟨rfl, Or.inl ⟨_, _, rfl⟩⟩⟩
      · refine ⟨0, L.last, L.streamLen st, by simp, hbound, total_spec hs st, ?_⟩
        have e1 : (afterFail z.view L st ers j .serialize).recs = L.recs := rfl
        refine ⟨?_, ?_, Or.inl ⟨rfl, Or.inr (Or.inl rfl)⟩⟩
        · exact total_spec h2 st
        · rw [show events z s' none 0 = _ from hall _ _ h2, hev, h0, List.append_nil]
          rfl
      · refine ⟨j, L.last, L.streamLen st, by omega, hbound, total_spec hs st, ?_⟩
        obtain ⟨k1, k2⟩ := happ j (by omega) rfl
        exact ⟨k1, k2, Or.inr (Or.inl ⟨rfl, hc⟩)⟩
      · refine ⟨j, L.last, L.streamLen st, by omega, hbound, total_spec hs st, ?_⟩
        obtain ⟨k1, k2⟩ := happ j (by omega) (by rcases c3 with ⟨rfl, _⟩ | ⟨rfl, _⟩ <;> rfl)
        refine ⟨k1, k2, Or.inr (Or.inr ⟨p, er, ?_, ?_, by simpa using c2, c3⟩)⟩
        · rcases Nat.eq_zero_or_pos j with rfl | h
          · simp at c1
          · exact h
        · cases j with
          | zero => simp at c1
          | succ j => simpa using c1

/-- A batch of three events whose third has another ID: the first two are left, and not broadcast. -/
example :
    (saveEvents demo (run demo [.save sA none none [evA [1]]]) sA none none
      [evA [2], evA [3], ev [65] [50] [4]]).out = .err .unmatchedId ∧
    (events demo (saveEvents demo (run demo [.save sA none none [evA [1]]]) sA none none
      [evA [2], evA [3], ev [65] [50] [4]]).state none 0).recs.map (·.seq) = [1, 2, 3] ∧
    Guarded demo sA [evA [2], evA [3], ev [65] [50] [4]] :=
  ⟨by decide, by decide, Or.inr (Or.inl (by
    intro er h g q
    simp only [List.mem_cons, List.not_mem_nil, or_false] at h
    rcases h with rfl | rfl | rfl <;> rfl))⟩

/-- **C06**, exactly: a failed save leaves the readable events as they were if and only if it failed
for an unexpected sequence number, in the serializer, for lack of events, or with a context that was
cancelled before the call. -/
theorem C06_exact (hz : z.Lawful) (ops : List Op) (hg : ∀ op ∈ ops, op.Guarded z) (st : Str)
    (expected cancelAt : Option Nat) (ers : List EventRecord) (hge : Guarded z st ers) (e : Err)
    (herr : (saveEvents z (run z ops) st expected cancelAt ers).out = .err e) :
    events z (saveEvents z (run z ops) st expected cancelAt ers).state none 0 = events z (run z ops) none 0 ↔
      ((∃ x a, e = .unexpected x a) ∨ e = .serialize ∨ e = .missingEvents ∨
        (e = .canceled ∧ cancelAt = some 0)) := by
  obtain ⟨_, j, last, total, hj, _, _, _, h5, h6⟩ := C06_left hz ops hg st expected cancelAt ers hge e herr
  constructor
  · intro heq
    have hj0 : j = 0 := by
      rw [heq] at h5
      have := congrArg (fun it => it.recs.length) h5
      simp only [List.length_append, List.length_map, numbered_length, List.length_take] at this
      omega
    subst hj0
    rcases h6 with ⟨_, h | h | h⟩ | h | ⟨_, _, h, _⟩
    · exact Or.inl h
    · exact Or.inr (Or.inl h)
    · exact Or.inr (Or.inr (Or.inl h))
    · exact Or.inr (Or.inr (Or.inr h))
    · omega
  · intro hc
    refine ((C06_partial hz ops hg st expected cancelAt ers hge e herr ?_) 0 []).1
    rcases hc with h | h | h | ⟨_, h⟩
    · exact Or.inl h
    · exact Or.inr (Or.inl h)
    · exact Or.inr (Or.inr (Or.inl h))
    · exact Or.inr (Or.inr (Or.inr (Or.inl h)))

/-- Both sides happen: a context cancelled before the call, and one cancelled after the first event. -/
example : (saveEvents demo init sA none (some 0) [evA [1], evA [2]]).out = .err .canceled ∧
    events demo (saveEvents demo init sA none (some 0) [evA [1], evA [2]]).state none 0 = ⟨[], none⟩ ∧
    (saveEvents demo init sA none (some 1) [evA [1], evA [2]]).out = .err .canceled ∧
    events demo (saveEvents demo init sA none (some 1) [evA [1], evA [2]]).state none 0 ≠ ⟨[], none⟩ := by
  decide

end RangeDB.IM

namespace RangeDB.LD

open Demo

variable {z : Serializer}

/-- Some delete of the history, called with a live context, did not succeed. -/
def DeleteFailed (z : Serializer) (ops : List Op) : Prop :=
  ∃ pre st e post, ops = pre ++ Op.delete st e false :: post ∧
    (deleteStream z (run z pre) st e false).2 ≠ .ok ()

/-- Calls that need the store's lock for writing: a save of at least one event, a delete with a live
context. -/
def Writes : Op → Bool
  | .save _ _ _ ers => !ers.isEmpty
  | .delete _ _ cancelled => !cancelled

theorem run_snoc (ops : List Op) (op : Op) : run z (ops ++ [op]) = step z (run z ops) op := by
  simp [run]

theorem DeleteFailed.snoc (ops : List Op) (op : Op) : DeleteFailed z (ops ++ [op]) ↔
    DeleteFailed z ops ∨ ∃ st e, op = .delete st e false ∧ (deleteStream z (run z ops) st e false).2 ≠ .ok () := by
  constructor
  · rintro ⟨pre, st, e, post, h1, h2⟩
    rcases List.eq_nil_or_concat post with rfl | ⟨post', x, rfl⟩
    · have : ops = pre ∧ op = .delete st e false := by
        have := List.append_inj' h1 rfl
        simpa using this
      obtain ⟨rfl, rfl⟩ := this
      exact Or.inr ⟨st, e, rfl, h2⟩
    · have : ops = pre ++ Op.delete st e false :: post' := by
        have := List.append_inj' (t₁ := [op]) (t₂ := [x]) (s₁ := ops) (s₂ := pre ++ Op.delete st e false :: post')
          (by simpa using h1) rfl
        exact this.1
      exact Or.inl ⟨pre, st, e, post', this, h2⟩
  · rintro (⟨pre, st, e, post, rfl, h2⟩ | ⟨st, e, rfl, h2⟩)
    · exact ⟨pre, st, e, post ++ [op], by simp, h2⟩
    · exact ⟨ops, st, e, [], rfl, h2⟩

/-- What a delete with a live context does to the transaction and the lock. -/
theorem delete_flags (s : State) (hmt : s.muxHeld = true → s.txOpen = true) (st : Str) (e : Nat) :
    ((deleteStream z s st e false).1.txOpen = true ↔
      s.txOpen = true ∨ (deleteStream z s st e false).2 ≠ .ok ()) ∧
    ((deleteStream z s st e false).1.muxHeld = true ↔ s.muxHeld = true ∨ s.txOpen = true) := by
  simp only [deleteStream]
  cases hm : s.muxHeld <;> cases ht : s.txOpen
  · simp only [Bool.false_eq_true, if_false]
    split
    · simp [hm]
    · split
      · simp [hm]
      · split
        · simp [hm]
        · simp [hm, ht]
  · simp [ht]
  · simp [hm, ht] at hmt
  · simp [hm, ht]

/-- The open transaction and the stuck lock, in terms of the history. -/
theorem stuck_iff (ops : List Op) :
    ((run z ops).txOpen = true ↔ DeleteFailed z ops) ∧
    ((run z ops).muxHeld = true ↔
      ∃ pre op post, ops = pre ++ op :: post ∧ DeleteFailed z pre ∧ Writes op = true) := by
  suffices H : ∀ rev : List Op,
      ((run z rev.reverse).txOpen = true ↔ DeleteFailed z rev.reverse) ∧
      ((run z rev.reverse).muxHeld = true ↔
        ∃ pre op post, rev.reverse = pre ++ op :: post ∧ DeleteFailed z pre ∧ Writes op = true) by
    simpa using H ops.reverse
  intro rev
  induction rev with
  | nil =>
    constructor
    · simp only [List.reverse_nil]
      constructor
      · intro h; exact absurd h (by simp [run, init])
      · rintro ⟨pre, st, e, post, h, _⟩; simp at h
    · simp only [List.reverse_nil]
      constructor
      · intro h; exact absurd h (by simp [run, init])
      · rintro ⟨pre, op, post, h, _⟩; simp at h
  | cons op rev ih =>
    simp only [List.reverse_cons]
    generalize rev.reverse = ops at *
    obtain ⟨i1, i2⟩ := ih
    have hmux : (∃ pre op' post, ops ++ [op] = pre ++ op' :: post ∧ DeleteFailed z pre ∧ Writes op' = true) ↔
        (∃ pre op' post, ops = pre ++ op' :: post ∧ DeleteFailed z pre ∧ Writes op' = true) ∨
        (DeleteFailed z ops ∧ Writes op = true) := by
      constructor
      · rintro ⟨pre, op', post, h1, h2, h3⟩
        rcases List.eq_nil_or_concat post with rfl | ⟨post', x, rfl⟩
        · have := List.append_inj' h1 rfl
          obtain ⟨rfl, h⟩ := this
          cases h
          exact Or.inr ⟨h2, h3⟩
        · have := List.append_inj' (t₁ := [op]) (t₂ := [x]) (s₁ := ops) (s₂ := pre ++ op' :: post')
            (by simpa using h1) rfl
          exact Or.inl ⟨pre, op', post', this.1, h2, h3⟩
      · rintro (⟨pre, op', post, rfl, h2, h3⟩ | ⟨h2, h3⟩)
        · exact ⟨pre, op', post ++ [op], by simp, h2, h3⟩
        · exact ⟨ops, op, [], rfl, h2, h3⟩
    have hmt : (run z ops).muxHeld = true → (run z ops).txOpen = true := by
      intro h
      obtain ⟨pre, op', post, rfl, ⟨p, st, e, q, rfl, h2⟩, _⟩ := i2.mp h
      exact i1.mpr ⟨p, st, e, q ++ op' :: post, by simp, h2⟩
    rw [hmux, DeleteFailed.snoc, run_snoc, ← i1, ← i2]
    generalize run z ops = s at hmt
    cases op with
    | save st e c ers =>
      cases ers with
      | nil => simp [step, saveEvents, Writes]
      | cons er ers =>
        simp only [step, saveEvents, Writes]
        rw [if_neg (by simp)]
        cases hm : s.muxHeld <;> cases ht : s.txOpen <;>
          simp only [Bool.false_eq_true, if_false, if_true, true_or, false_or, false_and, true_and]
        · split <;> simp [hm, ht]
        · simp [ht]
        · exact absurd (hmt hm) (by simp [ht])
        · simp [hm, ht]
    | delete st e c =>
      cases c with
      | true => simp [step, deleteStream, Writes]
      | false =>
        obtain ⟨d1, d2⟩ := delete_flags s hmt st e
        have hx : (∃ st' e', Op.delete st e false = .delete st' e' false ∧
            (deleteStream z s st' e' false).2 ≠ .ok ()) ↔ (deleteStream z s st e false).2 ≠ .ok () := by
          constructor
          · rintro ⟨st', e', h, h'⟩; cases h; exact h'
          · exact fun h => ⟨st, e, rfl, h⟩
        rw [hx]
        simp only [step, Writes]
        refine ⟨d1, d2.trans ?_⟩
        simp

/-- **C14**, exactly. After any history, a save of at least one event hangs if and only if some earlier
delete, called with a live context, did not succeed, and so does every delete with a live context; the
reads of all events and of a stream hang if and only if such a failed delete was followed by a further
writing call (which itself hangs). -/
theorem C14_exact (ops : List Op) :
    (∀ st e c er ers, (saveEvents z (run z ops) st e c (er :: ers)).out = .blocked ↔ DeleteFailed z ops) ∧
    (∀ st e, (deleteStream z (run z ops) st e false).2 = .blocked ↔ DeleteFailed z ops) ∧
    (∀ c g, events z (run z ops) c g = .blocked ↔
      ∃ pre op post, ops = pre ++ op :: post ∧ DeleteFailed z pre ∧ Writes op = true) ∧
    (∀ c n st, eventsByStream z (run z ops) c n st = .blocked ↔
      ∃ pre op post, ops = pre ++ op :: post ∧ DeleteFailed z pre ∧ Writes op = true) := by
  obtain ⟨h1, h2⟩ := stuck_iff (z := z) ops
  have hmt : (run z ops).muxHeld = true → (run z ops).txOpen = true := by
    intro h
    obtain ⟨pre, op', post, heq, ⟨p, st, e, q, rfl, hf⟩, _⟩ := h2.mp h
    exact h1.mpr ⟨p, st, e, q ++ op' :: post, by simp [heq], hf⟩
  rw [← h1, ← h2]
  generalize run z ops = s at hmt
  refine ⟨?_, ?_, ?_, ?_⟩
  · intro st e c er ers
    simp only [saveEvents]
    rw [if_neg (by simp)]
    cases hm : s.muxHeld <;> cases ht : s.txOpen
    · simp only [Bool.false_eq_true, if_false, iff_false]
      split <;> simp
    · simp
    · simp [hm, ht] at hmt
    · simp
  · intro st e
    simp only [deleteStream]
    cases hm : s.muxHeld <;> cases ht : s.txOpen
    · simp only [Bool.false_eq_true, if_false, iff_false]
      split
      · simp
      · split
        · simp
        · split <;> simp
    · simp
    · simp [hm, ht] at hmt
    · simp
  · intro c g
    cases hm : s.muxHeld <;> simp [events, hm]
  · intro c n st
    cases hm : s.muxHeld <;> simp [eventsByStream, hm]

/-- One refused delete; afterwards saves hang at once, reads after the first hanging save. -/
example : DeleteFailed demo [.save sA none none [evA [1]], .delete sA 7 false] :=
  ⟨[.save sA none none [evA [1]]], sA, 7, [], rfl, by decide⟩

example : (match events demo (run demo [.save sA none none [evA [1]], .delete sA 7 false]) none 0 with
    | .ok it => it.recs.length | _ => 0) = 1 ∧
    events demo (run demo [.save sA none none [evA [1]], .delete sA 7 false, .save sA none none [evA [2]]])
      none 0 = .blocked ∧ Writes (.save sA none none [evA [2]]) = true := by decide

end RangeDB.LD

namespace RangeDB

open Demo

theorem sum_lt {α : Type} (f g : α → Nat) : ∀ l : List α, (∀ a ∈ l, f a ≤ g a) →
    (∃ a ∈ l, f a < g a) → (l.map f).sum < (l.map g).sum := by
  intro l
  induction l with
  | nil => rintro _ ⟨a, h, _⟩; simp at h
  | cons a l ih =>
    intro hle hlt
    simp only [List.map_cons, List.sum_cons]
    have h1 := hle a (by simp)
    have h2 : (l.map f).sum ≤ (l.map g).sum := by
      clear ih hlt h1
      induction l with
      | nil => simp
      | cons b l ih =>
        simp only [List.map_cons, List.sum_cons]
        have := hle b (by simp)
        have := ih (fun x hx => hle x (by
          simp only [List.mem_cons] at hx ⊢
          rcases hx with h | h
          · exact Or.inl h
          · exact Or.inr (Or.inr h)))
        omega
    obtain ⟨b, hb, hlt⟩ := hlt
    rcases List.mem_cons.mp hb with rfl | hb
    · omega
    · have := ih (fun x hx => hle x (by simp [hx])) ⟨b, hb, hlt⟩
      omega

/-- **C17**, exactly. A read of two or more types never reports an error, and it yielded all the records
it should have if and only if none of the reads of the single types would have reported one: every
error of a part is both swallowed and harmful. -/
theorem C17_exact {z : Serializer} (hz : z.Lawful) (ops : List Op) (hg : ∀ op ∈ ops, op.Guarded z)
    (c : Str → Option Nat) (g : Nat) (types : List Str) (hd : types.Nodup) (h2 : 2 ≤ types.length) :
    (IM.eventsByAggregateTypes z (IM.run z ops) c g types).err = none ∧
    ((IM.eventsByAggregateTypes z (IM.run z ops) c g types).recs =
        (IM.events z (IM.run z ops) none 0).recs.filter
          (fun r => decide (r.aggType ∈ types) && decide (r.gsn ≥ g)) ↔
      ∀ t ∈ types, (IM.eventsByAggregateTypes z (IM.run z ops) c g [t]).err = none) := by
  have hm : ∀ c, IM.eventsByAggregateTypes z (IM.run z ops) c g types =
      mergeIters (types.map (fun t => IM.eventsByType z (IM.run z ops) (c t) g t)) := by
    intro c
    match types, h2 with
    | a :: b :: l, _ => rfl
  refine ⟨by rw [hm]; rfl, ?_, (C17_partial hz ops hg c g).2 types hd⟩
  intro heq t ht
  by_cases herr : (IM.eventsByAggregateTypes z (IM.run z ops) c g [t]).err = none
  · exact herr
  exfalso
  have hfull := (C17_partial hz ops hg (fun _ => none) g).2 types hd
  obtain ⟨hL, hs⟩ := IM.run_sim hz ops hg
  generalize IM.run z ops = s at *
  generalize specRun z ops = L at hL hs
  have hfull := hfull (by
    intro t _
    have : (IM.eventsByAggregateTypes z s (fun _ => none) g [t]) = IM.eventsByType z s none g t := rfl
    rw [this, IM.eventsByType_spec hs]
    rfl)
  rw [← heq, hm, hm] at hfull
  have p1 := (C16_merge_complete (types.map (fun t => IM.eventsByType z s (c t) g t))).length_eq
  have p2 := (C16_merge_complete (types.map (fun t => IM.eventsByType z s none g t))).length_eq
  rw [hfull] at p2
  have hlen : ∀ c : Str → Option Nat,
      ((types.map (fun t => IM.eventsByType z s (c t) g t)).flatMap (·.recs)).length =
        (types.map (fun t => (IM.eventsByType z s (c t) g t).recs.length)).sum := by
    intro c
    induction types with
    | nil => rfl
    | cons a l ih => simp [List.flatMap_cons, List.length_flatMap, List.map_map, Function.comp_def]
  rw [hlen c] at p1
  rw [hlen (fun _ => none)] at p2
  have hcut : ∀ t, (IM.eventsByType z s (c t) g t).recs.length ≤ (IM.eventsByType z s none g t).recs.length ∧
      ((IM.eventsByType z s (c t) g t).err ≠ none →
        (IM.eventsByType z s (c t) g t).recs.length < (IM.eventsByType z s none g t).recs.length) := by
    intro t
    rw [IM.eventsByType_spec hs, IM.eventsByType_spec hs]
    simp only [cut]
    cases c t with
    | none => simp
    | some k =>
      simp only
      split
      · simp
      · rename_i hlt
        simp only [List.length_take]
        exact ⟨by omega, fun _ => by omega⟩
  have := sum_lt (fun t => (IM.eventsByType z s (c t) g t).recs.length)
    (fun t => (IM.eventsByType z s none g t).recs.length) types (fun t _ => (hcut t).1)
    ⟨t, ht, (hcut t).2 herr⟩
  omega

/-- The read of `C17_false_store`: the part for type "A" fails. -/
example : (IM.eventsByAggregateTypes demo
    (IM.run demo [.save sA none none [evA [1], evA [2]], .save sB none none [evB [1]]])
    (fun t => if t = [65] then some 1 else none) 0 [[65]]).err = some .canceled := by decide

end RangeDB

import Verif.Model.Iterator
import Verif.Proof.Merge
import Verif.Proof.InMemoryAll
import Verif.Base.Demo

/-! # Properties of iterators: C16, C17, C18, C47, C48 -/

namespace RangeDB

open Demo

/-! ## C16 -/

/-- **C16.** Merging iterators that are each strictly increasing and share no global number yields every
record of every input exactly once (the output is a rearrangement of the inputs), in strictly increasing
order, and the loop ends (running it longer changes nothing). -/
theorem C16_merge (its : List Iter)
    (hs : ∀ it ∈ its, it.recs.Pairwise (fun a b => a.gsn < b.gsn))
    (hd : ((its.flatMap (·.recs)).map (·.gsn)).Nodup) :
    (mergeIters its).recs.Perm (its.flatMap (·.recs)) ∧
    (mergeIters its).recs.Pairwise (fun a b => a.gsn < b.gsn) ∧
    ∀ extra, mergeLoop ((its.map (fun it => it.recs.length)).sum + extra)
        (its.filterMap (fun it => Pipe.read it.recs)) = (mergeIters its).recs := by
  refine ⟨mergeIters_perm its, mergeIters_sorted its hs hd, ?_⟩
  intro extra
  induction extra with
  | zero => rfl
  | succ n ih =>
    rw [← ih, ← Nat.add_assoc]
    apply mergeLoop_fuel
    rw [held_filterMap_read, flatMap_length]
    omega

/-- **C16** for arbitrary inputs: nothing is lost and nothing is invented, whatever the order of the
inputs and even if they share numbers. -/
theorem C16_merge_complete (its : List Iter) : (mergeIters its).recs.Perm (its.flatMap (·.recs)) :=
  mergeIters_perm its

/-- A record with global number `g`, for examples. -/
def rec (g : Nat) : Record := mkRecord [83] g g (evA [g])

example : (mergeIters [⟨[rec 2, rec 3, rec 7], none⟩, ⟨[], none⟩, ⟨[rec 1, rec 5], none⟩,
    ⟨[rec 4, rec 6], none⟩]).recs.map (·.gsn) = [1, 2, 3, 4, 5, 6, 7] := by decide

example : (∀ it ∈ [(⟨[rec 2, rec 3, rec 7], none⟩ : Iter), ⟨[rec 1, rec 5], none⟩],
      it.recs.Pairwise (fun a b => a.gsn < b.gsn)) ∧
    (([(⟨[rec 2, rec 3, rec 7], none⟩ : Iter), ⟨[rec 1, rec 5], none⟩].flatMap (·.recs)).map
      (·.gsn)).Nodup := by decide

/-! ## C17 -/

/-- The full claim of **C17**. -/
def C17_full : Prop :=
  ∀ its : List Iter, (∃ it ∈ its, it.err ≠ none) → (mergeIters its).err ≠ none

/-- **C17 is false**: the merge of a failing iterator looks complete. -/
theorem C17_false : ¬ C17_full := fun h =>
  h [⟨[], some .deserialize⟩, ⟨[], none⟩] ⟨⟨[], some .deserialize⟩, by simp, by simp⟩ rfl

/-- The same through the store's API: a read of two types whose context is cancelled after the first
record of type "A" ends without an error although records are missing. -/
theorem C17_false_store :
    IM.eventsByAggregateTypes demo
      (IM.run demo [.save sA none none [evA [1], evA [2]], .save sB none none [evB [1]]])
      (fun t => if t = [65] then some 1 else none) 0 [[65], [66]]
      = ⟨[mkRecord sA 1 1 (evA [1]), mkRecord sB 3 1 (evB [1])], none⟩ := by decide

/-- **C17**, the part that holds. After any guarded history, (1) a read of a single type that reports
no error yielded every record of that type from `g` on, wherever the context is cancelled; (2) if the
reads of the single types all report no error, a read of several types yielded every record of those
types. Missing: two or more types of which one fails, for which the claim is false. -/
theorem C17_partial {z : Serializer} (hz : z.Lawful) (ops : List Op) (hg : ∀ op ∈ ops, op.Guarded z)
    (c : Str → Option Nat) (g : Nat) :
    (∀ t, (IM.eventsByAggregateTypes z (IM.run z ops) c g [t]).err = none →
      (IM.eventsByAggregateTypes z (IM.run z ops) c g [t]).recs =
        (IM.events z (IM.run z ops) none 0).recs.filter
          (fun r => decide (r.aggType = t) && decide (r.gsn ≥ g))) ∧
    (∀ types : List Str, types.Nodup →
      (∀ t ∈ types, (IM.eventsByAggregateTypes z (IM.run z ops) c g [t]).err = none) →
      (IM.eventsByAggregateTypes z (IM.run z ops) c g types).recs =
        (IM.events z (IM.run z ops) none 0).recs.filter
          (fun r => decide (r.aggType ∈ types) && decide (r.gsn ≥ g))) := by
  obtain ⟨hL, hs⟩ := IM.run_sim hz ops hg
  generalize IM.run z ops = s at hs
  generalize specRun z ops = L at hL hs
  have hev : (IM.events z s none 0).recs = L.recs := by
    rw [IM.events_spec hs]
    simp only [cut, Nat.zero_le, ge_iff_le, decide_true]
    exact List.filter_eq_self (p := fun _ => true) |>.mpr (by simp)
  have hone : ∀ t, (IM.eventsByAggregateTypes z s c g [t]).err = none →
      IM.eventsByType z s (c t) g t = IM.eventsByType z s none g t := by
    intro t h
    have h' : (IM.eventsByType z s (c t) g t).err = none := h
    rw [IM.eventsByType_spec hs] at h' ⊢
    rw [IM.eventsByType_spec hs]
    unfold cut at h' ⊢
    cases hc : c t with
    | none => rfl
    | some k =>
      rw [hc] at h'
      simp only at h' ⊢
      split at h'
      · rename_i hle; rw [if_pos hle]
      · simp at h'
  rw [hev]
  have hall : ∀ types : List Str, types.Nodup →
      (∀ t ∈ types, (IM.eventsByAggregateTypes z s c g [t]).err = none) →
      (IM.eventsByAggregateTypes z s c g types).recs =
        L.recs.filter (fun r => decide (r.aggType ∈ types) && decide (r.gsn ≥ g)) := by
    intro types hd hty
    have heq : IM.eventsByAggregateTypes z s c g types
        = IM.eventsByAggregateTypes z s (fun _ => none) g types := by
      have hm : types.map (fun t => IM.eventsByType z s (c t) g t)
          = types.map (fun t => IM.eventsByType z s none g t) :=
        List.map_congr_left (fun t ht => hone t (hty t ht))
      match types, hty, hm with
      | [], _, _ => rfl
      | [t], hty, _ => exact hone t (hty t (by simp))
      | a :: b :: l, _, hm => simp only [IM.eventsByAggregateTypes]; rw [hm]
    rw [heq, IM.eventsByAggregateTypes_spec hs hL g types hd]
  refine ⟨?_, hall⟩
  intro t ht
  have := hall [t] (by simp) (by simpa using ht)
  simpa using this

example : (IM.eventsByAggregateTypes demo
    (IM.run demo [.save sA none none [evA [1], evA [2]]]) (fun _ => some 1) 0 [[65]]).err
      = some .canceled := by decide

/-! ## C18 -/

/-- What a store sends: a record or an error, never both, never neither. -/
def WellFormed (chan : List ResultRecord) : Prop :=
  ∀ r ∈ chan, (r.record.isSome ∧ r.err = none) ∨ (r.record = none ∧ r.err.isSome)

/-- The records before the first error. -/
def recsBeforeErr : List ResultRecord → List Record
  | ⟨some r, none⟩ :: xs => r :: recsBeforeErr xs
  | _ => []

/-- The first error. -/
def firstErr : List ResultRecord → Option Err
  | [] => none
  | ⟨_, some e⟩ :: _ => some e
  | ⟨_, none⟩ :: xs => firstErr xs

theorem nextN_next (it : RecordIterator) (n : Nat) : it.nextN (n + 1) = it.next.1.nextN n := by
  induction n with
  | zero => rfl
  | succ n ih => rw [RecordIterator.nextN, ih]; rfl

theorem stuck_err (it : RecordIterator) (h : it.current.err ≠ none) (n : Nat) :
    it.nextN n = it ∧ it.next = (it, false) := by
  have h2 : it.next = (it, false) := by simp [RecordIterator.next, h]
  refine ⟨?_, h2⟩
  induction n with
  | zero => rfl
  | succ n ih => rw [RecordIterator.nextN, ih, h2]

theorem stuck_end (cur : ResultRecord) (h : cur.err = none) (n : Nat) :
    ((RecordIterator.mk [] cur).nextN n).next = (⟨[], .zero⟩, false) := by
  induction n generalizing cur with
  | zero => simp [RecordIterator.nextN, RecordIterator.next, h]
  | succ n ih =>
    rw [nextN_next]
    have : (RecordIterator.mk [] cur).next = (⟨[], .zero⟩, false) := by
      simp [RecordIterator.next, h]
    rw [this]
    exact ih .zero rfl

theorem protocol (chan : List ResultRecord) (hw : WellFormed chan) :
    ∀ (cur : ResultRecord) (n : Nat), cur.err = none →
    (∀ r, (recsBeforeErr chan)[n]? = some r →
      ((RecordIterator.mk chan cur).nextN n).next.2 = true ∧
      ((RecordIterator.mk chan cur).nextN n).next.1.record = some r ∧
      ((RecordIterator.mk chan cur).nextN n).next.1.error = none) ∧
    ((recsBeforeErr chan).length ≤ n →
      ((RecordIterator.mk chan cur).nextN n).next.2 = false ∧
      ((RecordIterator.mk chan cur).nextN n).next.1.record = none ∧
      ((RecordIterator.mk chan cur).nextN n).next.1.error = firstErr chan) := by
  induction chan with
  | nil =>
    intro cur n hc
    rw [stuck_end cur hc]
    simp [recsBeforeErr, RecordIterator.record, RecordIterator.error, ResultRecord.zero, firstErr]
  | cons x xs ih =>
    intro cur n hc
    have hw' : WellFormed xs := fun r hr => hw r (by simp [hr])
    have hnext : (RecordIterator.mk (x :: xs) cur).next = (⟨xs, x⟩, x.record.isSome) := by
      simp [RecordIterator.next, hc]
    rcases hw x (by simp) with ⟨h1, h2⟩ | ⟨h1, h2⟩
    · obtain ⟨xr, xe⟩ := x
      simp only at h1 h2
      subst h2
      obtain ⟨r, rfl⟩ := Option.isSome_iff_exists.mp h1
      cases n with
      | zero =>
        simp only [RecordIterator.nextN, hnext]
        simp [recsBeforeErr, RecordIterator.record, RecordIterator.error]
      | succ n =>
        rw [nextN_next, hnext]
        have := ih hw' ⟨some r, none⟩ n rfl
        simp only [recsBeforeErr, List.getElem?_cons_succ, List.length_cons, firstErr,
          Nat.add_le_add_iff_right]
        exact this
    · obtain ⟨xr, xe⟩ := x
      simp only at h1 h2
      subst h1
      obtain ⟨e, rfl⟩ := Option.isSome_iff_exists.mp h2
      have hst := stuck_err ⟨xs, ⟨none, some e⟩⟩ (by simp)
      cases n with
      | zero =>
        simp only [RecordIterator.nextN, hnext]
        simp [recsBeforeErr, RecordIterator.record, RecordIterator.error, firstErr]
      | succ n =>
        rw [nextN_next, hnext]
        simp only [(hst n).1, (hst n).2]
        simp [recsBeforeErr, RecordIterator.record, RecordIterator.error, firstErr]

/-- **C18.** Whatever a store sends, call number `n + 1` of `Next` returns true and makes `Record` the
`n + 1`-st record sent before the first error, with `Err` nil; once those are used up every call returns
false, `Record` is nil and `Err` is the first error sent (nil if none was), forever. -/
theorem C18_protocol (chan : List ResultRecord) (hw : WellFormed chan) (n : Nat) :
    (∀ r, (recsBeforeErr chan)[n]? = some r →
      ((RecordIterator.new chan).nextN n).next.2 = true ∧
      ((RecordIterator.new chan).nextN n).next.1.record = some r ∧
      ((RecordIterator.new chan).nextN n).next.1.error = none) ∧
    ((recsBeforeErr chan).length ≤ n →
      ((RecordIterator.new chan).nextN n).next.2 = false ∧
      ((RecordIterator.new chan).nextN n).next.1.record = none ∧
      ((RecordIterator.new chan).nextN n).next.1.error = firstErr chan) :=
  protocol chan hw .zero n rfl

example : WellFormed [⟨some (rec 1), none⟩, ⟨none, some .canceled⟩, ⟨some (rec 2), none⟩] ∧
    ((RecordIterator.new [⟨some (rec 1), none⟩, ⟨none, some .canceled⟩, ⟨some (rec 2), none⟩]).nextN
      5).next = (⟨[⟨some (rec 2), none⟩], ⟨none, some .canceled⟩⟩, false) := by
  refine ⟨?_, by decide⟩
  intro r hr
  simp only [List.mem_cons, List.not_mem_nil, or_false] at hr
  rcases hr with rfl | rfl | rfl <;> simp

/-- **C18** for `NextContext`: if the context is done it reports the context's error, and after any
error it returns false and keeps that error, without receiving anything more. -/
theorem C18_next_context (it : RecordIterator) (e : Err) :
    (it.error = none → (it.nextContext (some e)).2 = false ∧
      (it.nextContext (some e)).1.error = some e ∧ (it.nextContext (some e)).1.record = none) ∧
    (it.error ≠ none → ∀ done, it.nextContext done = (it, false)) ∧
    (it.error = none → it.nextContext none = it.next) := by
  refine ⟨?_, ?_, ?_⟩
  · intro h
    have h' : it.current.err = none := h
    simp [RecordIterator.nextContext, h', RecordIterator.error, RecordIterator.record]
  · intro h done
    have h' : it.current.err ≠ none := h
    simp [RecordIterator.nextContext, h']
  · intro h
    have h' : it.current.err = none := h
    simp [RecordIterator.nextContext, h']

/-- An iterator built from an error yields no record and that error. -/
theorem C18_with_error (e : Err) (n : Nat) :
    ((RecordIterator.newWithError e).nextN n).next.2 = false ∧
    ((RecordIterator.newWithError e).nextN n).next.1.error = some e := by
  have := (C18_protocol [⟨none, some e⟩] (by intro r hr; simp at hr; subst hr; simp) n).2
    (by simp [recsBeforeErr])
  exact ⟨this.1, this.2.2⟩

/-! ## C47 -/

theorem results_wf (it : Iter) : WellFormed it.results := by
  intro r hr
  simp only [Iter.results, List.mem_append, List.mem_map] at hr
  rcases hr with ⟨x, _, rfl⟩ | hr
  · simp
  · cases h : it.err with
    | none => simp [h] at hr
    | some e => simp [h] at hr; subst hr; simp

theorem readNLoop_spec (err : Option Err) (n : Nat) : ∀ (recs : List Record) (cnt fuel : Nat)
    (cur : ResultRecord), cur.err = none → cnt ≤ n →
    (Iter.results ⟨recs, err⟩).length < fuel →
    (readNLoop n fuel cnt ⟨Iter.results ⟨recs, err⟩, cur⟩).1 = (recs.take (n - cnt)).map some ∧
    (∃ recs', (readNLoop n fuel cnt ⟨Iter.results ⟨recs, err⟩, cur⟩).2.chan
        = Iter.results ⟨recs', err⟩ ∧
      (readNLoop n fuel cnt ⟨Iter.results ⟨recs, err⟩, cur⟩).2.current.err = none ∨
      (readNLoop n fuel cnt ⟨Iter.results ⟨recs, err⟩, cur⟩).2.chan = []) := by
  intro recs
  induction recs with
  | nil =>
    intro cnt fuel cur hc hn hf
    cases fuel with
    | zero => omega
    | succ fuel =>
      cases err with
      | none => simp [readNLoop, Iter.results, RecordIterator.next, hc]
      | some e => simp [readNLoop, Iter.results, RecordIterator.next, hc]
  | cons r rs ih =>
    intro cnt fuel cur hc hn hf
    cases fuel with
    | zero => omega
    | succ fuel =>
      have hres : Iter.results ⟨r :: rs, err⟩ = ⟨some r, none⟩ :: Iter.results ⟨rs, err⟩ := rfl
      have hnext : (RecordIterator.mk (Iter.results ⟨r :: rs, err⟩) cur).next
          = (⟨Iter.results ⟨rs, err⟩, ⟨some r, none⟩⟩, true) := by
        simp [RecordIterator.next, hc, hres]
      rw [hres] at hf
      simp only [readNLoop, hnext, RecordIterator.error]
      rw [if_neg (by simp)]
      by_cases hgt : cnt + 1 > n
      · rw [if_pos hgt]
        have : n - cnt = 0 := by omega
        simp [this]
        exact ⟨rs, Or.inl rfl⟩
      · rw [if_neg hgt]
        obtain ⟨h1, h2⟩ := ih (cnt + 1) fuel ⟨some r, none⟩ rfl (by omega) (by simpa using hf)
        refine ⟨?_, h2⟩
        simp only [h1, RecordIterator.record]
        rw [show n - cnt = (n - (cnt + 1)) + 1 by omega]
        simp

theorem drain_results (err : Option Err) : ∀ (recs : List Record) (fuel : Nat) (cur : ResultRecord),
    cur.err = none → (Iter.results ⟨recs, err⟩).length < fuel →
    (RecordIterator.drain fuel ⟨Iter.results ⟨recs, err⟩, cur⟩).2.chan = [] ∧
    (RecordIterator.drain fuel ⟨Iter.results ⟨recs, err⟩, cur⟩).1 = recs.map some ∧
    (RecordIterator.drain fuel ⟨Iter.results ⟨recs, err⟩, cur⟩).2.current.err = err := by
  intro recs
  induction recs with
  | nil =>
    intro fuel cur hc hf
    cases fuel with
    | zero => omega
    | succ fuel =>
      cases err <;> simp [RecordIterator.drain, Iter.results, RecordIterator.next, hc,
        ResultRecord.zero]
  | cons r rs ih =>
    intro fuel cur hc hf
    cases fuel with
    | zero => omega
    | succ fuel =>
      have hres : Iter.results ⟨r :: rs, err⟩ = ⟨some r, none⟩ :: Iter.results ⟨rs, err⟩ := rfl
      have hnext : (RecordIterator.mk (Iter.results ⟨r :: rs, err⟩) cur).next
          = (⟨Iter.results ⟨rs, err⟩, ⟨some r, none⟩⟩, true) := by
        simp [RecordIterator.next, hc, hres]
      rw [hres] at hf
      obtain ⟨h1, h2, h3⟩ := ih fuel ⟨some r, none⟩ rfl (by simpa using hf)
      simp only [RecordIterator.drain, hnext, h1, h2, h3, RecordIterator.record, List.map_cons]
      simp

/-- Draining an iterator with the usual loop yields exactly what the store sent. -/
theorem C18_drain (it : Iter) :
    (RecordIterator.drain (it.results.length + 1) (.new it.results)).1 = it.recs.map some ∧
    (RecordIterator.drain (it.results.length + 1) (.new it.results)).2.error = it.err :=
  have h := drain_results it.err it.recs (it.results.length + 1) .zero rfl (by simp)
  ⟨h.2.1, h.2.2⟩

/-- **C47.** `ReadNRecords(n, f)` on an iterator that yields `it` returns exactly its first
`min(n, available)` records, none of which comes after an error, and leaves the channel empty, i.e. the
producer has sent everything it will ever send and released its lock. `rest` is how the producer reacts
to the cancellation: from what it would have sent (`Iter.results`) to what it still sends, which again
is records and then possibly an error, and nothing if it was done already. -/
theorem C47_readN (it : Iter) (n : Nat) (rest : List ResultRecord → List ResultRecord)
    (hrest : ∀ it' : Iter, ∃ it'' : Iter, rest it'.results = it''.results) (hnil : rest [] = []) :
    (readNRecords n it.results rest).1 = (it.recs.take n).map some ∧
    (readNRecords n it.results rest).1.length = min n it.recs.length ∧
    (readNRecords n it.results rest).2.chan = [] := by
  have h := readNLoop_spec it.err n it.recs 0 (it.results.length + 1) .zero rfl (Nat.zero_le _)
    (by simp)
  have h1 : (readNRecords n it.results rest).1 = (it.recs.take n).map some := h.1
  refine ⟨h1, by rw [h1]; simp, ?_⟩
  obtain ⟨recs', h2 | h2⟩ := h.2
  · obtain ⟨it'', hit⟩ := hrest ⟨recs', it.err⟩
    unfold readNRecords RecordIterator.new
    simp only
    have e1 : (readNLoop n (it.results.length + 1) 0 ⟨it.results, .zero⟩).2.chan
        = Iter.results ⟨recs', it.err⟩ := h2.1
    rw [e1, hit]
    have := drain_results it''.err it''.recs (it''.results.length + 1)
      (readNLoop n (it.results.length + 1) 0 ⟨it.results, .zero⟩).2.current h2.2 (by simp)
    exact this.1
  · unfold readNRecords RecordIterator.new
    simp only
    have e1 : (readNLoop n (it.results.length + 1) 0 ⟨it.results, .zero⟩).2.chan = [] := h2
    rw [e1, hnil]
    simp only [List.length_nil, RecordIterator.drain, RecordIterator.next]
    split
    · rename_i h'; split at h' <;> simp at h'
    · rename_i it' h'; split at h' <;> (simp at h'; rw [← h'])

/-- A producer that stops with the context's error, as the stores do. -/
example : (readNRecords 2 (Iter.results ⟨[rec 1, rec 2, rec 3, rec 4], none⟩)
    (fun l => if l = [] then [] else [⟨none, some .canceled⟩])).1.length = 2 := by decide

example : ∀ it' : Iter, ∃ it'' : Iter,
    (fun l : List ResultRecord => if l = [] then [] else [⟨none, some .canceled⟩]) it'.results
      = it''.results := by
  intro it'
  by_cases h : it'.results = []
  · exact ⟨⟨[], none⟩, by simp only [h]; rfl⟩
  · exact ⟨⟨[], some .canceled⟩, by simp only [if_neg h]; rfl⟩

/-! ## C48 -/

/-- **C48.** `PublishRecordOrCancel` returns true iff it sent the record; then it sent nothing else.
With a context that is already done it does not send the record; when it returns false it sent nothing
or just the context's error. -/
theorem C48_publish (env : PublishEnv) (r : Record) :
    ((publishRecordOrCancel env r).1 = true ↔ ⟨some r, none⟩ ∈ (publishRecordOrCancel env r).2) ∧
    ((publishRecordOrCancel env r).1 = true → (publishRecordOrCancel env r).2 = [⟨some r, none⟩]) ∧
    (env.doneAtStart = true → (publishRecordOrCancel env r).1 = false) ∧
    ((publishRecordOrCancel env r).1 = false →
      (publishRecordOrCancel env r).2 = [] ∨
      (publishRecordOrCancel env r).2 = [⟨none, some env.ctxErr⟩]) := by
  obtain ⟨a, b, c, e⟩ := env
  cases a <;> cases b <;> cases c <;> simp [publishRecordOrCancel, offerErr]

/-- **C48** for a whole iteration: what a store goroutine sends is a prefix of its records, followed by
at most one error, which comes last; if no publish is interrupted it sends all records. -/
theorem C48_iteration : ∀ (envs : List PublishEnv) (recs : List Record), recs.length ≤ envs.length →
    ∃ it : Iter, publishAll envs recs = it.results ∧ it.recs <+: recs ∧
      ((∀ env ∈ envs, env.doneAtStart = false ∧ env.doneWhileWaiting = false) →
        it = ⟨recs, none⟩) := by
  intro envs
  induction envs with
  | nil =>
    intro recs h
    have : recs = [] := List.length_eq_zero_iff.mp (by simpa using h)
    subst this
    exact ⟨⟨[], none⟩, rfl, List.prefix_refl _, fun _ => rfl⟩
  | cons env envs ih =>
    intro recs h
    cases recs with
    | nil => exact ⟨⟨[], none⟩, rfl, List.prefix_refl _, fun _ => rfl⟩
    | cons r rs =>
      obtain ⟨it, h1, h2, h3⟩ := ih rs (by simpa using h)
      by_cases hd : env.doneAtStart = true ∨ env.doneWhileWaiting = true
      · have hp : publishRecordOrCancel env r = (false, offerErr env) := by
          unfold publishRecordOrCancel
          rcases hd with hd | hd
          · simp [hd]
          · simp [hd]
        simp only [publishAll, hp]
        refine ⟨⟨[], if env.errReceived then some env.ctxErr else none⟩, ?_, List.nil_prefix, ?_⟩
        · unfold offerErr
          by_cases he : env.errReceived <;> simp [he, Iter.results]
        · intro hall
          have := hall env (by simp)
          rcases hd with hd | hd
          · rw [this.1] at hd; simp at hd
          · rw [this.2] at hd; simp at hd
      · have hd' : env.doneAtStart = false ∧ env.doneWhileWaiting = false := by
          cases h1 : env.doneAtStart <;> cases h2 : env.doneWhileWaiting <;> simp_all
        have hp : publishRecordOrCancel env r = (true, [⟨some r, none⟩]) := by
          simp [publishRecordOrCancel, hd'.1, hd'.2]
        simp only [publishAll, hp, h1]
        refine ⟨⟨r :: it.recs, it.err⟩, rfl, ?_, ?_⟩
        · exact List.cons_prefix_cons.mpr ⟨rfl, h2⟩
        · intro hall
          have := h3 (fun e he => hall e (by simp [he]))
          rw [this]

example : publishAll [⟨false, false, true, .canceled⟩, ⟨false, true, true, .canceled⟩,
    ⟨false, false, true, .canceled⟩] [rec 1, rec 2, rec 3]
    = [⟨some (rec 1), none⟩, ⟨none, some .canceled⟩] := by decide

end RangeDB

import Verif.Proof.PostgresSequential
import Verif.Thm.JsonRecord

/-!
# Theorems: the PostgreSQL store, one call at a time, next to the in-memory store (C133)
-/

namespace RangeDB.PG

open RangeDB.Json

/-- The PostgreSQL store after the calls, made one after the other on an empty table. -/
def after (cfg : Config) (calls : List (Nat × Call)) : State := run cfg (oneByOne calls)

/-- The in-memory store, with the JSON serializer, after the same calls. -/
def memory (cfg : Config) (calls : List (Nat × Call)) : IM.State :=
  IM.run (serializer cfg.ty) (calls.map (·.2.op))

/-! ## Reads -/

theorem readRows_same {ty : Types} (rows : List Record) (h : ∀ r ∈ rows, decodeRow ty r = some r) :
    readRows ty rows = ⟨rows, none⟩ := by
  induction rows with
  | nil => rfl
  | cons r rows ih => simp only [readRows, h r (by simp), ih (fun x hx => h x (by simp [hx]))]

theorem im_byStream_deser (ty : Types) (m : IM.State) (n : Nat) (st : Str) :
    IM.eventsByStream (serializer ty) m none n st = IM.eventsByStream (goodZ ty) m none n st := by
  unfold IM.eventsByStream
  rw [im_recordsByIDs_deser]

theorem im_byTypes_deser (ty : Types) (m : IM.State) (g : Nat) (types : List Str) :
    IM.eventsByAggregateTypes (serializer ty) m (fun _ => none) g types =
      IM.eventsByAggregateTypes (goodZ ty) m (fun _ => none) g types := by
  have h : ∀ t, IM.eventsByType (serializer ty) m none g t = IM.eventsByType (goodZ ty) m none g t := by
    intro t
    unfold IM.eventsByType
    rw [im_recordsByIDs_deser]
  unfold IM.eventsByAggregateTypes
  simp only [h]

theorem cut_none (l : List Record) : cut none l = ⟨l, none⟩ := by
  simp [cut]

/-- Both stores hold the same log after the calls. -/
theorem both_after (cfg : Config) (hu : cfg.uuid = true) (calls : List (Nat × Call))
    (hp : ∀ x ∈ calls, x.2.Plain cfg.ty) (hN : broughtBy calls < 2 ^ 64)
    (hk : refused (serializer cfg.ty) IM.init calls < cfg.cap) :
    (∃ L, Both cfg (after cfg calls) (memory cfg calls) L (broughtBy calls)
      (refused (serializer cfg.ty) IM.init calls)) ∧
    handed cfg (after cfg calls) = memoryLive (serializer cfg.ty) IM.init calls := by
  obtain ⟨⟨L, h⟩, hl⟩ := Both.calls hu calls (both_init cfg) hp (by omega) (by omega)
  rw [Nat.zero_add, Nat.zero_add] at h
  refine ⟨⟨L, h⟩, ?_⟩
  rw [show after cfg calls = runFrom cfg init (oneByOne calls) from rfl, hl]
  have : handed cfg init = [] := by unfold handed; split <;> rfl
  rw [this, List.nil_append]

/-- The full statement of **C133**: whatever calls were made one after the other, the next call returns the same on both
stores, all reads return the same, and the subscribers got the same events. -/
def C133_full : Prop :=
  ∀ (cfg : Config), cfg.uuid = true → ∀ (calls : List (Nat × Call)), (∀ x ∈ calls, x.2.Plain cfg.ty) →
    broughtBy calls < 2 ^ 64 → refused (serializer cfg.ty) IM.init calls < cfg.cap →
    (∀ g, events cfg (after cfg calls) g = IM.events (serializer cfg.ty) (memory cfg calls) none g) ∧
    (∀ g types, types.Nodup → eventsByAggregateTypes cfg (after cfg calls) g types =
      IM.eventsByAggregateTypes (serializer cfg.ty) (memory cfg calls) (fun _ => none) g types) ∧
    (∀ n st, eventsByStream cfg (after cfg calls) n st =
      IM.eventsByStream (serializer cfg.ty) (memory cfg calls) none n st) ∧
    (∀ st, IM.totalEventsInStream (memory cfg calls) st false = .ok (totalEventsInStream (after cfg calls) st)) ∧
    handed cfg (after cfg calls) = memoryLive (serializer cfg.ty) IM.init calls ∧
    ∀ p c, c.Plain cfg.ty → broughtBy (calls ++ [(p, c)]) < 2 ^ 64 →
      (after cfg (calls ++ [(p, c)])).procs p = .returned c (c.memory (serializer cfg.ty) (memory cfg calls))

/-- **C133**, partial: on a PostgreSQL store with a UUID generator, calls that are made one after the other, by any
clients, with batches of one aggregate and without metadata, and of which fewer than the number of connections are refused
deletes, lead to the same log as on an in-memory store: `Events`, `EventsByAggregateTypes` and `TotalEventsInStream`
return the same, and the subscribers got the same events. A read of a stream from a number on returns the same, except
that PostgreSQL says that the stream is not found where the in-memory store returns nothing. The next call returns the
same, except that PostgreSQL says that the stream is not found on every delete of a stream without events. Missing: these
two exceptions, see `C133_false` and `C133_delete_differs`; batches of several aggregates, see `C133_mixed`; refused
deletes that have used up the connections, see `C68_exhausted`; metadata, see C67. -/
theorem C133_partial (cfg : Config) (hu : cfg.uuid = true) (calls : List (Nat × Call))
    (hp : ∀ x ∈ calls, x.2.Plain cfg.ty) (hN : broughtBy calls < 2 ^ 64)
    (hk : refused (serializer cfg.ty) IM.init calls < cfg.cap) :
    (∀ g, events cfg (after cfg calls) g = IM.events (serializer cfg.ty) (memory cfg calls) none g) ∧
    (∀ g types, types.Nodup → eventsByAggregateTypes cfg (after cfg calls) g types =
      IM.eventsByAggregateTypes (serializer cfg.ty) (memory cfg calls) (fun _ => none) g types) ∧
    (∀ n st, eventsByStream cfg (after cfg calls) n st =
      if IM.eventsByStream (serializer cfg.ty) (memory cfg calls) none n st = ⟨[], none⟩ then ⟨[], some .notFound⟩
      else IM.eventsByStream (serializer cfg.ty) (memory cfg calls) none n st) ∧
    (∀ st, IM.totalEventsInStream (memory cfg calls) st false = .ok (totalEventsInStream (after cfg calls) st)) ∧
    handed cfg (after cfg calls) = memoryLive (serializer cfg.ty) IM.init calls ∧
    ∀ p c, c.Plain cfg.ty → broughtBy (calls ++ [(p, c)]) < 2 ^ 64 →
      (after cfg (calls ++ [(p, c)])).procs p = .returned c
        (match c with
          | .save _ _ _ => c.memory (serializer cfg.ty) (memory cfg calls)
          | .delete st _ => if IM.totalEventsInStream (memory cfg calls) st false = .ok 0 then .err .notFound
            else c.memory (serializer cfg.ty) (memory cfg calls)) := by
  obtain ⟨⟨L, h⟩, hl⟩ := both_after cfg hu calls hp hN hk
  refine ⟨?_, ?_, ?_, ?_, hl, ?_⟩
  · intro g
    rw [im_events_deser, IM.events_spec h.sim, cut_none]
    unfold events
    rw [h.rows, readRows_same _ (fun r hr => h.dec r (List.mem_filter.mp hr).1)]
  · intro g types hd
    rw [im_byTypes_deser, IM.eventsByAggregateTypes_spec h.sim h.wf g types hd]
    unfold eventsByAggregateTypes
    rw [h.rows, readRows_same _ (fun r hr => h.dec r (List.mem_filter.mp hr).1)]
    congr 1
    refine List.filter_congr (fun r _ => ?_)
    simp
  · intro n st
    rw [im_byStream_deser, IM.eventsByStream_spec h.sim, cut_none]
    unfold eventsByStream
    have hdec : ∀ r ∈ (L.stream st).filter (fun r => decide (n ≤ r.seq)), decodeRow cfg.ty r = some r :=
      fun r hr => h.dec r (List.mem_filter.mp (List.mem_filter.mp hr).1).1
    rw [h.streamRows, readRows_same _ hdec]
    by_cases h0 : L.streamLen st = 0
    · have : L.stream st = [] := List.length_eq_zero_iff.mp h0
      simp [h0, this]
    · simp only [h0, if_false, Iter.mk.injEq, and_true, true_and]
  · intro st
    rw [IM.total_spec h.sim]
    exact congrArg Outcome.ok (h.lastSeq st).symm
  · intro p c hc hb
    have hcount : broughtBy (calls ++ [(p, c)]) = broughtBy calls + c.count := by
      cases c <;> simp [broughtBy, Call.count]
    rw [hcount] at hb
    obtain ⟨_, _, o, ho, hm⟩ := h.turn hu p c hc hk hb
    have hrun : after cfg (calls ++ [(p, c)]) = runFrom cfg (after cfg calls) (turn p c) := by
      show runFrom cfg init _ = runFrom cfg (runFrom cfg init _) _
      rw [← runFrom_append]
      simp [oneByOne]
    rw [hrun, ho]
    congr 1
    cases c with
    | save st e ers => exact hm
    | delete st n =>
      simp only [IM.total_spec h.sim, Outcome.ok.injEq] at hm ⊢
      by_cases h0 : L.streamLen st = 0
      · rw [if_pos h0] at hm ⊢; exact hm
      · rw [if_neg h0] at hm ⊢; exact hm

/-! ## A concrete case, and where the stores differ -/

def seqCfg : Config := ⟨true, false, unbound, 2⟩

def seqName : Str := [65, 33, 49]

/-- Two clients: saves, a save with a stale number, a refused delete. -/
def seqCalls : List (Nat × Call) :=
  [(0, .save seqName none [demoEr goodData, demoEr goodData]), (1, .save seqName (some 2) [demoEr goodData]),
   (0, .save seqName (some 2) [demoEr goodData]), (1, .delete seqName 2)]

theorem plain_demo (st : Str) (hs : Valid st) (e : Option Nat) (k : Nat) :
    (Call.save st e (List.replicate k (demoEr goodData))).Plain unbound := by
  refine ⟨hs, ?_, [65], [49], ?_⟩
  · intro er h; rw [(List.mem_replicate.mp h).2]; exact ⟨demoEr_good, rfl⟩
  · intro er h; rw [(List.mem_replicate.mp h).2]; exact ⟨rfl, rfl⟩

theorem seqCalls_plain : ∀ x ∈ seqCalls, x.2.Plain seqCfg.ty := by
  intro x hx
  simp only [seqCalls, List.mem_cons, List.not_mem_nil, or_false] at hx
  rcases hx with rfl | rfl | rfl | rfl
  · exact plain_demo _ (by decide) _ 2
  · exact plain_demo _ (by decide) _ 1
  · exact plain_demo _ (by decide) _ 1
  · trivial

/-- At most as many deletes are refused as are called. -/
theorem refused_le (z : Serializer) : ∀ (calls : List (Nat × Call)) (m : IM.State),
    refused z m calls ≤ (calls.filter (fun x => match x.2 with | .delete _ _ => true | _ => false)).length
  | [], _ => by simp [refused]
  | (p, .save st e ers) :: calls, m => by
    have := refused_le z calls (IM.step z m (Call.save st e ers).op)
    simp only [refused, List.filter_cons]
    simpa using this
  | (p, .delete st n) :: calls, m => by
    have := refused_le z calls (IM.step z m (Call.delete st n).op)
    simp only [refused, List.filter_cons, List.length_cons, if_true]
    split <;> omega

example := C133_partial seqCfg rfl seqCalls seqCalls_plain (by decide)
  (Nat.lt_of_le_of_lt (refused_le _ _ _) (by decide))

/-- **C133** does not hold in full: a stream of one event, read from the second event on. The in-memory store returns
nothing and no error; PostgreSQL says that there is no such stream. -/
theorem C133_false : ¬ C133_full := by
  intro h
  have hpl : ∀ x ∈ [((0, .save seqName none [demoEr goodData]) : Nat × Call)], x.2.Plain seqCfg.ty := by
    intro x hx
    simp only [List.mem_cons, List.not_mem_nil, or_false] at hx
    subst hx
    exact plain_demo _ (by decide) _ 1
  have hr : refused (serializer seqCfg.ty) IM.init [((0, .save seqName none [demoEr goodData]) : Nat × Call)] < seqCfg.cap :=
    Nat.lt_of_le_of_lt (refused_le _ _ _) (by decide)
  have h1 := (h seqCfg rfl _ hpl (by decide) hr).2.2.1 2 seqName
  obtain ⟨⟨L, hb⟩, _⟩ := both_after seqCfg rfl _ hpl (by decide) hr
  have hlen : L.streamLen seqName = 1 := by
    rw [← hb.lastSeq]
    decide +kernel
  rw [im_byStream_deser, IM.eventsByStream_spec hb.sim, cut_none, hlen] at h1
  have h2 := (C133_partial seqCfg rfl _ hpl (by decide) hr).2.2.1 2 seqName
  rw [im_byStream_deser, IM.eventsByStream_spec hb.sim, cut_none, hlen] at h2
  have hnil : (L.stream seqName).filter (fun r => r.seq ≥ 2) = [] := by
    rw [List.filter_eq_nil_iff]
    intro r hr2
    have : r.seq ∈ (L.stream seqName).map (·.seq) := List.mem_map_of_mem hr2
    rw [hb.wf.contiguous, hlen] at this
    simp at this
    simp [this]
  rw [hnil] at h1 h2
  rw [h1] at h2
  simp at h2

/-- **C133**, a stream that never had an event: after an `OptimisticSave` that was refused, deleting it with the expected
number 0 succeeds on the in-memory store and is refused by PostgreSQL. -/
theorem C133_delete_differs :
    let calls : List (Nat × Call) := [(0, .save seqName (some 5) [demoEr goodData])]
    (Call.delete seqName 0).memory (serializer unbound) (memory seqCfg calls) = .ok 0 ∧
    (after seqCfg (calls ++ [(0, .delete seqName 0)])).procs 0 = .returned (.delete seqName 0) (.err .notFound) := by
  refine ⟨by decide +kernel, ?_⟩
  have := (C133_partial seqCfg rfl [(0, .save seqName (some 5) [demoEr goodData])] (by
    intro x hx
    simp only [List.mem_cons, List.not_mem_nil, or_false] at hx
    subst hx
    exact plain_demo _ (by decide) _ 1) (by decide) (Nat.lt_of_le_of_lt (refused_le _ _ _) (by decide))).2.2.2.2.2 0 (.delete seqName 0) trivial
    (by decide)
  rw [this]
  have h0 : IM.totalEventsInStream (memory seqCfg [(0, .save seqName (some 5) [demoEr goodData])])
      seqName false = .ok 0 := by decide +kernel
  simp only [h0, if_true]

/-- **C133**, a batch of two aggregates: both stores refuse it, but the in-memory store keeps its first event, and
PostgreSQL keeps nothing. -/
theorem C133_mixed :
    let er : EventRecord := { demoEr goodData with event := { (demoEr goodData).event with aggId := [50] } }
    let calls : List (Nat × Call) := [(0, .save seqName none [demoEr goodData, er])]
    (Call.save seqName none [demoEr goodData, er]).memory (serializer unbound) IM.init = .err .unmatchedId ∧
    (IM.events (serializer unbound) (memory seqCfg calls) none 0).recs.length = 1 ∧
    (events seqCfg (after seqCfg calls) 0).recs.length = 0 := by
  refine ⟨by decide +kernel, by decide +kernel, by decide +kernel⟩

end RangeDB.PG

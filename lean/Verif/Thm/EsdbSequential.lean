import Verif.Proof.EsdbSequential
import Verif.Thm.EventStoreDB

/-!
# Theorems: the EventStoreDB store, one call at a time, next to the in-memory store (C139)
-/

namespace RangeDB.EDB

open RangeDB.Demo

/-- The in-memory serializer and the payload codec bring back the same event. -/
def SameView (z : Serializer) (C : Codec) : Prop :=
  ∀ st er g q, z.view (mkRecord st g q er) = mkRecord st g q (C.view er)

theorem both_after {z : Serializer} (hz : z.Lawful) {C : Codec} (hC : C.Lawful) (c : Config) (hv : SameView z C)
    (calls : List ECall) (hp : ∀ x ∈ calls, x.Plain z C) (hn : NoReuse z IM.init [] calls) :
    ∃ L A, Both C c z (after C c calls) (memoryAfter z calls) L A ∧
      ∀ more, NoReuse z IM.init [] (calls ++ more) → NoReuse z (memoryAfter z calls) A.dead more :=
  Both.calls hz hC hv calls (both_init C c z) hp hn

theorem im_cut_none (l : List Record) : cut none l = ⟨l, none⟩ := by simp [cut]

/-- The full statement of **C139**: whatever calls were made one after the other, the next call returns the same on both
stores, and all reads return the same events. -/
def C139_full : Prop :=
  ∀ (z : Serializer), z.Lawful → ∀ (C : Codec), C.Lawful → ∀ (c : Config), SameView z C →
    c.recordDeletedStreams = true → ∀ (calls : List ECall), (∀ x ∈ calls, x.Plain z C) →
    stripped (events C c ((after C c calls).deleted 0) (after C c calls).server 0) =
      stripped (IM.events z (memoryAfter z calls) none 0) ∧
    (∀ types, types.Nodup →
      stripped (eventsByTypes C c ((after C c calls).deleted 0) (after C c calls).server 0 types) =
      stripped (IM.eventsByAggregateTypes z (memoryAfter z calls) (fun _ => none) 0 types)) ∧
    (∀ n st, stripped (eventsByStream C c (after C c calls).server n st) =
      stripped (IM.eventsByStream z (memoryAfter z calls) none n st)) ∧
    (∀ st, IM.totalEventsInStream (memoryAfter z calls) st false =
      .ok (totalEventsInStream C c (after C c calls).server st)) ∧
    ∀ x : ECall, x.Plain z C → x.reply C c (after C c calls) = x.memory z (memoryAfter z calls)

/-- **C139**, partial: one adapter that records its deletes makes calls one after the other on an EventStoreDB server that
answers every request. Batches hold events of one aggregate, deletes expect at least one event, and no save goes to a stream
that was deleted before. Then `Events` and `EventsByAggregateTypes` from the start return the same events as an in-memory
store after the same calls, in the same order and with the same stream sequence numbers; only the global numbers differ.
`TotalEventsInStream` returns the same. A read of a stream returns the same, except that EventStoreDB says that the stream
is not found where the in-memory store returns nothing. The next call returns the same, except that EventStoreDB says that
the stream is not found on every delete of a stream without events. Missing: these two exceptions, see `C139_false` and
`C139_delete_differs`; deleted streams that are saved to again, see `C139_reuse`; batches of several aggregates, see
`C139_mixed`; deletes that expect no events, see `C43_false_delete_zero`; other adapters, see C74. -/
theorem C139_partial (z : Serializer) (hz : z.Lawful) (C : Codec) (hC : C.Lawful) (c : Config) (hv : SameView z C)
    (hr : c.recordDeletedStreams = true) (calls : List ECall) (hp : ∀ x ∈ calls, x.Plain z C)
    (hn : NoReuse z IM.init [] calls) :
    stripped (events C c ((after C c calls).deleted 0) (after C c calls).server 0) =
      stripped (IM.events z (memoryAfter z calls) none 0) ∧
    (∀ types, types.Nodup →
      stripped (eventsByTypes C c ((after C c calls).deleted 0) (after C c calls).server 0 types) =
      stripped (IM.eventsByAggregateTypes z (memoryAfter z calls) (fun _ => none) 0 types)) ∧
    (∀ n st, stripped (eventsByStream C c (after C c calls).server n st) =
      if IM.eventsByStream z (memoryAfter z calls) none n st = ⟨[], none⟩ then ⟨[], some .notFound⟩
      else stripped (IM.eventsByStream z (memoryAfter z calls) none n st)) ∧
    (∀ st, IM.totalEventsInStream (memoryAfter z calls) st false =
      .ok (totalEventsInStream C c (after C c calls).server st)) ∧
    ∀ x : ECall, x.Plain z C → NoReuse z IM.init [] (calls ++ [x]) →
      x.reply C c (after C c calls) =
        match x with
        | .save _ _ _ _ => x.memory z (memoryAfter z calls)
        | .delete st _ => if IM.totalEventsInStream (memoryAfter z calls) st false = .ok 0 then .err .notFound
          else x.memory z (memoryAfter z calls) := by
  obtain ⟨L, A, h, hmore⟩ := both_after hz hC c hv calls hp hn
  have hall : (after C c calls).server.readAll 0 = (after C c calls).server.log := by
    simp [Server.readAll]
  have hstream : ∀ n st, stripped (eventsByStream C c (after C c calls).server n st) =
      if (L.stream st).filter (fun r => decide (r.seq ≥ n)) = [] then ⟨[], some .notFound⟩
      else ⟨((L.stream st).filter (fun r => decide (r.seq ≥ n))).map strip, none⟩ := by
    intro n st
    have hq : ∀ r, decide ((strip r).seq ≥ n) = decide (r.seq ≥ n) := fun r => rfl
    have e1 : ((A.records C.view c.gsn st).filter (fun r => decide (r.seq ≥ n))).map strip =
        ((L.stream st).filter (fun r => decide (r.seq ≥ n))).map strip := by
      rw [filter_strip _ _ hq, filter_strip _ _ hq, h.stream c.gsn st]
    have e2 : (A.records C.view c.gsn st).filter (fun r => decide (r.seq ≥ n)) = [] ↔
        (L.stream st).filter (fun r => decide (r.seq ≥ n)) = [] := by
      rw [← List.map_eq_nil_iff (f := strip), e1, List.map_eq_nil_iff]
    rw [eventsByStream_account hC h.rel h.plain]
    unfold answer
    by_cases h0 : (L.stream st).filter (fun r => decide (r.seq ≥ n)) = []
    · rw [if_pos (e2.mpr h0), if_pos h0]; rfl
    · rw [if_neg (fun x => h0 (e2.mp x)), if_neg h0, stripped, e1]
  refine ⟨?_, ?_, ?_, ?_, ?_⟩
  · rw [IM.events_spec h.sim, im_cut_none]
    unfold events
    rw [hall, eventsLoop_flat hC hr (h.memo hr) h.rel.log h.plain]
    have hf : L.recs.filter (fun r => decide (r.gsn ≥ 0)) = L.recs := by simp
    rw [hf]
    simp only [stripped, h.same]
  · intro types hd
    rw [IM.eventsByAggregateTypes_spec h.sim h.wf 0 types hd]
    unfold eventsByTypes
    rw [hall, typesLoop_flat hC hr (h.memo hr) types h.rel.log h.plain]
    have ht : ∀ r, decide ((strip r).aggType ∈ types) = decide (r.aggType ∈ types) := fun r => rfl
    simp only [stripped, Nat.zero_le, ge_iff_le, decide_true, Bool.and_true]
    rw [filter_strip (L.recs) _ ht, h.same, ← filter_strip _ _ ht]
  · intro n st
    rw [hstream, IM.eventsByStream_spec h.sim, im_cut_none]
    by_cases h0 : L.streamLen st = 0
    · have : L.stream st = [] := List.length_eq_zero_iff.mp h0
      simp [h0, this, stripped]
    · simp only [h0, if_false, Iter.mk.injEq, and_true, stripped]
  · intro st
    rw [IM.total_spec h.sim, totalEventsInStream]
    have := congrArg (fun it => it.recs.length) (hstream 0 st)
    simp only [stripped, List.length_map] at this
    rw [this]
    congr 1
    rw [filter_ge_zero, Log.streamLen]
    split
    · rename_i h0; rw [h0]
    · simp
  · intro x hx hm
    have hnx := hmore _ hm
    cases x with
    | save st e ers pos => exact (h.save hz hC hv st e ers pos hx hnx.1).1
    | delete st n => exact (h.delete hC st n hx).1

/-! ## A concrete case, and where the stores differ -/

theorem demo_same : SameView demo demoCodec := fun _ _ _ _ => rfl

/-- Saves to two streams, a stale save, a refused delete, a delete. -/
def eseqCalls : List ECall :=
  [.save sA none [evA [1], evA [2]] (fun i => 10 + i), .save sB none [evB [3]] (fun i => 20 + i),
   .save sA (some 1) [evA [4]] (fun i => 30 + i), .save sA (some 2) [evA [5]] (fun i => 40 + i),
   .delete sA 2, .delete sB 1]

theorem eplain_demo (st t i : Str) (e : Option Nat) (ds : List Str) (pos : Nat → Nat) (h : ∀ d ∈ ds, d.head? ≠ some 255) :
    (ECall.save st e (ds.map (ev t i)) pos).Plain demo demoCodec := by
  have key : ∀ d ∈ ds, ∀ g q, ∃ b, ser (mkRecord st g q (ev t i d)) = some b := by
    intro d hd g q
    exact ⟨_, if_neg (h d hd)⟩
  refine ⟨?_, ?_, t, i, ?_⟩
  · intro er her; obtain ⟨d, _, rfl⟩ := List.mem_map.mp her; exact (by decide : List.head? [69] ≠ some 36)
  · intro er her
    obtain ⟨d, hd, rfl⟩ := List.mem_map.mp her
    refine ⟨fun g q => ?_, ?_⟩
    · obtain ⟨b, hb⟩ := key d hd g q
      exact Option.isSome_iff_exists.mpr ⟨b, hb⟩
    · obtain ⟨b, hb⟩ := key d hd 0 0
      exact ⟨(b, []), by simp [demoCodec, hb]⟩
  · intro er her; obtain ⟨d, _, rfl⟩ := List.mem_map.mp her; exact ⟨rfl, rfl⟩

theorem eseqCalls_plain : ∀ x ∈ eseqCalls, x.Plain demo demoCodec := by
  intro x hx
  simp only [eseqCalls, List.mem_cons, List.not_mem_nil, or_false] at hx
  rcases hx with rfl | rfl | rfl | rfl | rfl | rfl
  · exact eplain_demo sA [65] [49] none [[1], [2]] _ (by decide)
  · exact eplain_demo sB [66] [50] none [[3]] _ (by decide)
  · exact eplain_demo sA [65] [49] (some 1) [[4]] _ (by decide)
  · exact eplain_demo sA [65] [49] (some 2) [[5]] _ (by decide)
  · exact (by decide : 1 ≤ 2)
  · exact Nat.le_refl 1

theorem eseqCalls_fresh : NoReuse demo IM.init [] eseqCalls := by
  simp only [eseqCalls, NoReuse]
  decide +kernel

example := C139_partial demo demo_lawful demoCodec demoCodec_lawful recording demo_same rfl eseqCalls eseqCalls_plain eseqCalls_fresh

/-- After the six calls both stores hold three events of the first stream, and nothing of the deleted one. -/
example : (events demoCodec recording ((after demoCodec recording eseqCalls).deleted 0)
      (after demoCodec recording eseqCalls).server 0).recs.map (fun r => (r.streamName, r.seq, r.data)) =
    [(sA, 1, [1]), (sA, 2, [2]), (sA, 3, [5])] := by
  decide +kernel

/-- **C139** does not hold in full: a stream of one event, read from the second event on. The in-memory store returns
nothing and no error; EventStoreDB says that there is no such stream. -/
theorem C139_false : ¬ C139_full := by
  intro h
  have := (h demo demo_lawful demoCodec demoCodec_lawful recording demo_same rfl
    [.save sB none [evB [3]] (fun i => 20 + i)] (by
      intro x hx
      simp only [List.mem_cons, List.not_mem_nil, or_false] at hx
      exact eseqCalls_plain x (by simp [eseqCalls, hx]))).2.2.1 2 sB
  revert this
  decide +kernel

/-- **C139**, a stream that was deleted and is saved to again: the in-memory store takes the event, EventStoreDB refuses
it. -/
theorem C139_reuse :
    let calls : List ECall := [.save sB none [evB [3]] (fun i => 20 + i), .delete sB 1]
    let again : ECall := .save sB none [evB [4]] (fun i => 30 + i)
    (∀ x ∈ calls ++ [again], x.Plain demo demoCodec) ∧
    again.memory demo (memoryAfter demo calls) = .ok 1 ∧
    again.reply demoCodec recording (after demoCodec recording calls) ≠ .ok 1 := by
  refine ⟨?_, by decide +kernel, by decide +kernel⟩
  intro x hx
  simp only [List.cons_append, List.nil_append, List.mem_cons, List.not_mem_nil, or_false] at hx
  rcases hx with rfl | rfl | rfl
  · exact eseqCalls_plain _ (by simp [eseqCalls])
  · exact Nat.le_refl 1
  · exact eplain_demo sB [66] [50] none [[4]] _ (by decide)

/-- **C139**, a delete of a stream that never had an event: after an `OptimisticSave` that was refused, the in-memory store
says that the number of events is not the expected one, EventStoreDB says that there is no such stream. -/
theorem C139_delete_differs :
    let calls : List ECall := [.save sB (some 5) [evB [3]] (fun i => 20 + i)]
    (ECall.delete sB 1).memory demo (memoryAfter demo calls) = .err (.unexpected 1 0) ∧
    (ECall.delete sB 1).reply demoCodec recording (after demoCodec recording calls) = .err .notFound := by
  refine ⟨by decide +kernel, by decide +kernel⟩

/-- **C139**, a batch of two aggregates: both stores refuse it, but the in-memory store keeps its first event, and
EventStoreDB keeps nothing. -/
theorem C139_mixed :
    let call : ECall := .save sA none [evA [1], evB [2]] (fun i => 10 + i)
    (∃ e, call.memory demo IM.init = .err e ∧ call.reply demoCodec recording .init = .err e) ∧
    (IM.events demo (memoryAfter demo [call]) none 0).recs.length = 1 ∧
    (events demoCodec recording [] (after demoCodec recording [call]).server 0).recs.length = 0 := by
  refine ⟨⟨.unmatchedType, by decide +kernel, by decide +kernel⟩, by decide +kernel, by decide +kernel⟩

end RangeDB.EDB

import Verif.Proof.RemoteHistory
import Verif.Thm.PostgresSequential

/-!
# A program that uses a remote store instead of one of its own: C166
-/

namespace RangeDB.Rem

open RangeDB.Json RangeDB.Http

theorem pair_after {other : Err → Str} (hq : Quiet other) {ty : Types} {fl : Str → Option Str} (calls : List HCall)
    (hc : ∀ c ∈ calls, c.Clean ty fl) (hN : (calls.map HCall.size).sum < 2 ^ 64) :
    ∃ L, Pair ty fl (remoteAfter other fl calls) (hereAfter ty calls) L (calls.map HCall.size).sum := by
  have := pair_run hq calls (pair_init ty fl) hc (by omega)
  rwa [Nat.zero_add] at this

/-- **C166** where it holds: after any calls that lose nothing on their way, whatever the program reads from the remote
store is what it would read from an in-memory store of its own, with the same records and the same error: everything, by
types, a stream, the number of events of a stream. And the next call returns what it would return there: the same number,
or the same error, so also `unexpected sequence number` with the same two numbers, and `stream not found`.
Missing: calls that lose something (batches of several aggregates, names that are not UTF-8, data that JSON or `float64`
change), types listed twice, reads that are cancelled, and several callers at a time (C42, C66, C87). -/
theorem C166_partial {other : Err → Str} (hq : Quiet other) {ty : Types} {fl : Str → Option Str} (calls : List HCall)
    (hc : ∀ c ∈ calls, c.Clean ty fl) (hN : (calls.map HCall.size).sum < 2 ^ 64) :
    let sR := remoteAfter other fl calls
    let sL := hereAfter ty calls
    (∀ g, events other ty fl (IM.events (serializer unbound) sR none g) =
      asClientIter (IM.events (serializer ty) sL none g)) ∧
    (∀ g types, types.Nodup →
      events other ty fl (IM.eventsByAggregateTypes (serializer unbound) sR (fun _ => none) g types) =
        asClientIter (IM.eventsByAggregateTypes (serializer ty) sL (fun _ => none) g types)) ∧
    (∀ n st, Valid st → eventsByStream other ty fl (IM.eventsByStream (serializer unbound) sR none n st) =
      asClientIter (IM.eventsByStream (serializer ty) sL none n st)) ∧
    (∀ st, Valid st → total other (fun s st => IM.totalEventsInStream s st false) sR st =
      asClient (IM.totalEventsInStream sL st false)) ∧
    ∀ c : HCall, c.Clean ty fl → (calls.map HCall.size).sum + c.size < 2 ^ 64 →
      (c.remote other fl sR).2 = asClient (c.here ty sL).2 := by
  intro sR sL
  obtain ⟨L, h⟩ := pair_after hq calls hc hN
  refine ⟨?_, ?_, ?_, ?_, ?_⟩
  · intro g
    rw [im_events_deser, im_events_deser, IM.events_spec h.server, IM.events_spec h.here]
    simp only [cut, asClientIter, Option.map_none]
    have hf : (sentLog L).recs.filter (fun r => decide (r.gsn ≥ g)) =
        (L.recs.filter (fun r => decide (r.gsn ≥ g))).map sent := by
      simp only [sentLog, List.filter_map]; rfl
    rw [hf]
    exact read_sent other false none _ (fun r hr => h.back r (List.mem_filter.mp hr).1)
  · intro g types hd
    rw [PG.im_byTypes_deser, PG.im_byTypes_deser, IM.eventsByAggregateTypes_spec h.server (sentLog_wf h.wf) g types hd,
      IM.eventsByAggregateTypes_spec h.here h.wf g types hd]
    simp only [asClientIter, Option.map_none]
    have hf : (sentLog L).recs.filter (fun r => decide (r.aggType ∈ types) && decide (r.gsn ≥ g)) =
        (L.recs.filter (fun r => decide (r.aggType ∈ types) && decide (r.gsn ≥ g))).map sent := by
      simp only [sentLog, List.filter_map]; rfl
    rw [hf]
    exact read_sent other false none _ (fun r hr => h.back r (List.mem_filter.mp hr).1)
  · intro n st _
    rw [PG.im_byStream_deser, PG.im_byStream_deser, IM.eventsByStream_spec h.server, IM.eventsByStream_spec h.here,
      sentLog_streamLen]
    by_cases h0 : L.streamLen st = 0
    · rw [if_pos h0, if_pos h0]
      have := read_sent other (ty := ty) (fl := fl) true (some .notFound) [] (by simp)
      simp only [List.map_nil] at this
      show read other ty fl true _ = _
      rw [this]
      simp only [asClientIter, Option.map_some, if_true, CIter.mk.injEq, true_and]
      simp only [statusError, receive, unknown_canceled hq, Bool.false_eq_true, if_false,
        (unknown_notFound hq .notFound).mpr rfl, if_true]
    · rw [if_neg h0, if_neg h0]
      simp only [cut, asClientIter, Option.map_none]
      have hf : ((sentLog L).stream st).filter (fun r => decide (r.seq ≥ n)) =
          ((L.stream st).filter (fun r => decide (r.seq ≥ n))).map sent := by
        rw [sentLog_stream, List.filter_map]; rfl
      rw [hf]
      exact read_sent other true none _
        (fun r hr => h.back r (List.mem_filter.mp (List.mem_filter.mp hr).1).1)
  · intro st hv
    rw [IM.total_spec h.here]
    refine (C42_total other _ _ st hv _).mpr ?_
    rw [IM.total_spec h.server, sentLog_streamLen]
  · intro c hcc hb
    exact (pair_step hq h c hcc hb).1

/-! The premises can be met. The client's type prints its fields in an order of its own; the server holds them in order. -/

/-- The fields of the demo's data as its type prints them, whichever order they come in. -/
def demoTy2 : Types := fun _ v =>
  match v with
  | .obj [(k1, x), (_, y)] => some (if k1 = [107] then (Json.obj [([107], x), ([98], y)]).text
      else (Json.obj [([107], y), ([98], x)]).text)
  | v => some v.canon.text

theorem demoRem2_roundTrips : RoundTrips demoTy2 demoFl demoRemEr where
  aggType := show Valid [65] by decide
  aggId := show Valid [49] by decide
  evType := show Valid [69] by decide
  uuid := show Valid [117] by decide
  now := show 7 < 2 ^ 64 by decide
  data := ⟨demoRemData, by simp only [demoRemData, Json.WF, WFf]; decide, by simp [demoRemData],
    by unfold Exact; decide +kernel, rfl, by decide +kernel⟩
  metadata := ⟨.obj [([117], .num [50])], by simp only [Json.WF, WFf]; decide, by unfold Exact; decide +kernel, rfl, rfl⟩

theorem demoRem2_good : GoodEvent demoTy2 demoRemEr where
  aggType := show Valid [65] by decide
  aggId := show Valid [49] by decide
  evType := show Valid [69] by decide
  uuid := show Valid [117] by decide
  now := show 7 < 2 ^ 64 by decide
  data := ⟨demoRemData, by simp only [demoRemData, Json.WF, WFf]; decide, by simp [demoRemData], rfl, by decide +kernel⟩
  metadata := ⟨.obj [([117], .num [50])], by simp only [Json.WF, WFf]; decide, rfl, rfl⟩

/-- Two events, a stale optimistic save, one more event, a delete with the wrong number. -/
def demoCalls : List HCall :=
  [.save [65, 33, 49] none [demoRemEr, demoRemEr], .save [65, 33, 49] (some 1) [demoRemEr],
   .save [65, 33, 49] (some 2) [demoRemEr], .delete [65, 33, 49] 2]

theorem demoCalls_clean : ∀ c ∈ demoCalls, c.Clean demoTy2 demoFl := by
  have hone : ∀ ers : List EventRecord, (∀ er ∈ ers, er = demoRemEr) →
      OneAggregate ers ∧ ∀ er ∈ ers, RoundTrips demoTy2 demoFl er ∧ GoodEvent demoTy2 er := by
    intro ers he
    refine ⟨fun a ha b hb => by rw [he a ha, he b hb]; exact ⟨rfl, rfl⟩, fun er her => ?_⟩
    rw [he er her]
    exact ⟨demoRem2_roundTrips, demoRem2_good⟩
  intro c hc
  simp only [demoCalls, List.mem_cons, List.not_mem_nil, or_false] at hc
  rcases hc with rfl | rfl | rfl | rfl
  · exact ⟨by decide, by simp, hone _ (by simp)⟩
  · exact ⟨by decide, by simp, hone _ (by simp)⟩
  · exact ⟨by decide, by simp, hone _ (by simp)⟩
  · exact ⟨by decide, by decide⟩

example := C166_partial demoOther_quiet demoCalls demoCalls_clean (by decide)

/-- The third event is there, the delete was refused with both numbers, and the server holds the data in another order. -/
example : total demoOther (fun s st => IM.totalEventsInStream s st false) (remoteAfter demoOther demoFl demoCalls)
    [65, 33, 49] = .ok 3 ∧
    ((HCall.delete [65, 33, 49] 2).remote demoOther demoFl (remoteAfter demoOther demoFl demoCalls)).2 =
      .err (.store (.unexpected 2 3)) ∧
    inOrder demoRemEr.event.data ≠ demoRemEr.event.data := by decide +kernel

/-- **C166** does not hold in full: the in-memory store keeps the first events of a batch whose later events belong to
another aggregate; the remote store sends nothing of it. -/
theorem C166_refuted : ¬ C166_full := by
  intro h
  have h1 := (h demoOther demoTy2 demoFl demoOther_quiet
    [.save [65, 33, 49] none [demoRemEr, { demoRemEr with event := { demoRemEr.event with aggType := [66] } }]]).1 0
  exact absurd h1 (by decide +kernel)

end RangeDB.Rem

import Verif.Proof.RemoteHistoryLD
import Verif.Thm.RemoteHistory

/-!
# A program that uses a remote store in front of a LevelDB store: C166
-/

namespace RangeDB.Rem

open RangeDB.Json RangeDB.Http

/-- **C166** where it holds, LevelDB stores: after any calls that lose nothing on their way, whatever the program reads from
the remote store is what it would read from a LevelDB store of its own, with the same records and the same error, and it
hangs if it would hang there (C14). The next call returns what it would return there, or hangs as it would.
Missing: as in `C166_partial`, and names of which one is a prefix of another one's keys (C12). -/
theorem C166_leveldb_partial {N : Names} {other : Err → Str} (hq : Quiet other) {ty : Types} {fl : Str → Option Str}
    (calls : List HCall) (hc : ∀ c ∈ calls, c.Clean ty fl ∧ c.NamesIn N) (hN : (calls.map HCall.size).sum < 2 ^ 64) :
    let sR := remoteAfterLD other fl calls
    let sL := hereAfterLD ty calls
    (∀ g, g < 2 ^ 64 → SameRead (events other ty fl) (LD.events (serializer unbound) sR none g)
      (LD.events (serializer ty) sL none g)) ∧
    (∀ g types, g < 2 ^ 64 → types.Nodup → (∀ t ∈ types, N.types t) → SameRead (events other ty fl)
      (LD.eventsByAggregateTypes (serializer unbound) sR (fun _ => none) g types)
      (LD.eventsByAggregateTypes (serializer ty) sL (fun _ => none) g types)) ∧
    (∀ n st, Valid st → N.streams st → SameRead (eventsByStream other ty fl)
      (LD.eventsByStream (serializer unbound) sR none n st) (LD.eventsByStream (serializer ty) sL none n st)) ∧
    (∀ st, Valid st → N.streams st → total other (fun s st => LD.totalEventsInStream s st false) sR st =
      asClient (LD.totalEventsInStream sL st false)) ∧
    ∀ c : HCall, c.Clean ty fl → c.NamesIn N → (calls.map HCall.size).sum + c.size < 2 ^ 64 →
      (c.remoteLD other fl sR).2 = asClient (c.hereLD ty sL).2 := by
  intro sR sL
  obtain ⟨A, h⟩ : ∃ A, PairLD N ty fl sR sL A (calls.map HCall.size).sum := by
    have := pairLD_run hq calls (pairLD_init ty fl) hc (by omega)
    rwa [Nat.zero_add] at this
  have hback : ∀ (p : Record → Bool), ∀ r ∈ A.log.recs.filter p, toRecord ty fl (sent r) = some r ∧ Servable (sent r) :=
    fun p r hr => h.back r (List.mem_filter.mp hr).1
  refine ⟨?_, ?_, ?_, ?_, ?_⟩
  · intro g hg
    rw [ld_events_deser, ld_events_deser, LD.simA_events h.server none g hg, LD.simA_events h.here none g hg]
    have hst : (sentA A).stuck = A.stuck := rfl
    rw [hst]
    cases A.stuck with
    | true => exact Or.inr ⟨rfl, rfl⟩
    | false =>
      refine Or.inl ⟨_, _, rfl, rfl, ?_⟩
      simp only [cut, asClientIter, Option.map_none]
      have hf : (sentA A).log.recs.filter (fun r => decide (r.gsn ≥ g)) =
          (A.log.recs.filter (fun r => decide (r.gsn ≥ g))).map sent := by
        simp only [sentA, sentLog, List.filter_map]; rfl
      rw [hf]
      exact read_sent other false none _ (hback _)
  · intro g types hg hd hty
    rw [typesLD_deser, typesLD_deser]
    by_cases hne : types = []
    · subst hne
      refine Or.inl ⟨⟨[], none⟩, ⟨[], none⟩, ?_, ?_, ?_⟩
      · unfold LD.eventsByAggregateTypes; simp; rfl
      · unfold LD.eventsByAggregateTypes; simp; rfl
      · exact read_sent other (ty := ty) (fl := fl) false none [] (by simp)
    · have hmR : sR.muxHeld = A.stuck := h.server.mux
      have hmL : sL.muxHeld = A.stuck := h.here.mux
      cases hk : A.stuck with
      | true =>
        rw [hk] at hmR hmL
        refine Or.inr ⟨?_, ?_⟩
        · unfold LD.eventsByAggregateTypes; rw [if_pos ⟨hmR, hne⟩]
        · unfold LD.eventsByAggregateTypes; rw [if_pos ⟨hmL, hne⟩]
      | false =>
        rw [hk] at hmR hmL
        rw [LD.eventsByAggregateTypes_spec h.server.sim h.server.wf g hg types hd hty hmR,
          LD.eventsByAggregateTypes_spec h.here.sim h.here.wf g hg types hd hty hmL]
        refine Or.inl ⟨_, _, rfl, rfl, ?_⟩
        simp only [asClientIter, Option.map_none]
        have hf : (sentA A).log.recs.filter (fun r => decide (r.aggType ∈ types) && decide (r.gsn ≥ g)) =
            (A.log.recs.filter (fun r => decide (r.aggType ∈ types) && decide (r.gsn ≥ g))).map sent := by
          simp only [sentA, sentLog, List.filter_map]; rfl
        rw [hf]
        exact read_sent other false none _ (hback _)
  · intro n st _ hst
    have hmR : sR.muxHeld = A.stuck := h.server.mux
    have hmL : sL.muxHeld = A.stuck := h.here.mux
    unfold LD.eventsByStream
    rw [hmR, hmL]
    cases hk : A.stuck with
    | true => exact Or.inr ⟨rfl, rfl⟩
    | false =>
      simp only [Bool.false_eq_true, if_false]
      rw [prefixLD_deser, prefixLD_deser, LD.prefix_stream h.server.sim h.server.wf none n hst,
        LD.prefix_stream h.here.sim h.here.wf none n hst]
      refine Or.inl ⟨_, _, rfl, rfl, ?_⟩
      have hsl : (sentA A).log.streamLen st = A.log.streamLen st := sentLog_streamLen _ _
      rw [hsl]
      by_cases h0 : A.log.streamLen st = 0
      · rw [if_pos h0, if_pos h0]
        have := read_sent other (ty := ty) (fl := fl) true (some .notFound) [] (by simp)
        simp only [List.map_nil] at this
        show read other ty fl true _ = _
        rw [this]
        simp only [asClientIter, Option.map_some, if_true, CIter.mk.injEq, true_and]
        simp only [statusError, receive, unknown_canceled hq, Bool.false_eq_true, if_false,
          (unknown_notFound hq .notFound).mpr rfl, if_true]
      · rw [if_neg h0, if_neg h0]
        simp only [cut, asClientIter, Option.map_none]
        have hf : ((sentA A).log.stream st).filter (fun r => decide (r.seq ≥ n)) =
            ((A.log.stream st).filter (fun r => decide (r.seq ≥ n))).map sent := by
          show ((sentLog A.log).stream st).filter _ = _
          rw [sentLog_stream, List.filter_map]; rfl
        rw [hf]
        exact read_sent other true none _
          (fun r hr => h.back r (List.mem_filter.mp (List.mem_filter.mp hr).1).1)
  · intro st hv hst
    rw [LD.simA_total h.here hst]
    refine (C42_total other _ _ st hv _).mpr ?_
    show LD.totalEventsInStream sR st false = _
    rw [LD.simA_total h.server hst]
    exact congrArg Outcome.ok (sentLog_streamLen _ _)
  · intro c hcc hcn hb
    exact (pairLD_step hq h c hcc hcn hb).1

/-! The premises can be met: one stream, one type; the last call of the demo is a delete that is refused, after which the
next write hangs in both. -/

def demoHNames : Names where
  streams := fun s => s = [65, 33, 49]
  types := fun t => t = [65]
  streams_apart := fun a b ha hb _ => ha.trans hb.symm
  types_apart := fun a b ha hb _ => ha.trans hb.symm

theorem demoCalls_names : ∀ c ∈ demoCalls, c.NamesIn demoHNames := by
  intro c hc
  simp only [demoCalls, List.mem_cons, List.not_mem_nil, or_false] at hc
  rcases hc with rfl | rfl | rfl | rfl
  · exact ⟨rfl, by simp [demoHNames, demoRemEr]⟩
  · exact ⟨rfl, by simp [demoHNames, demoRemEr]⟩
  · exact ⟨rfl, by simp [demoHNames, demoRemEr]⟩
  · exact rfl

example := C166_leveldb_partial demoOther_quiet demoCalls (fun c hc => ⟨demoCalls_clean c hc, demoCalls_names c hc⟩)
  (by decide)

example : ((HCall.delete [65, 33, 49] 2).remoteLD demoOther demoFl (remoteAfterLD demoOther demoFl (demoCalls.take 3))).2 =
      .err (.store (.unexpected 2 3)) ∧
    ((HCall.delete [65, 33, 49] 3).remoteLD demoOther demoFl (remoteAfterLD demoOther demoFl demoCalls)).2 = .none := by
  decide +kernel

end RangeDB.Rem

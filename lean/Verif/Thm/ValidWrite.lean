import Verif.Proof.ValidWrite
import Verif.Thm.FailedBatch

/-!
# C167: a valid write is not refused
-/

namespace RangeDB

open Demo

variable {z : Serializer} {N : Names}

/-- The full property: after every history on names that do not clash, of fewer than 2^64 events, a `Save` of a valid batch, or an
`OptimisticSave` with the right number, with a live context, succeeds on both stores and returns the stream's new number; and so does
a delete of a stream that has events, with the right number. -/
def C167_full : Prop :=
  ∀ (z : Serializer), z.Lawful → ∀ (N : Names) (ops : List Op), (∀ op ∈ ops, op.NamesIn N) →
    (∀ st n expected ers, ValidBatch z st ers → Right expected n → (Op.save st expected none ers).NamesIn N →
      (ops.map Op.size).sum + ers.length < 2 ^ 64 →
      (IM.totalEventsInStream (IM.run z ops) st false = .ok n →
        (IM.saveEvents z (IM.run z ops) st expected none ers).out = .ok (n + ers.length)) ∧
      (LD.totalEventsInStream (LD.run z ops) st false = .ok n →
        (LD.saveEvents z (LD.run z ops) st expected none ers).out = .ok (n + ers.length))) ∧
    (∀ st n, n ≠ 0 → N.streams st → (ops.map Op.size).sum < 2 ^ 64 →
      (IM.totalEventsInStream (IM.run z ops) st false = .ok n → (IM.deleteStream (IM.run z ops) st n false).2 = .ok ()) ∧
      (LD.totalEventsInStream (LD.run z ops) st false = .ok n → (LD.deleteStream z (LD.run z ops) st n false).2 = .ok ()))

namespace IM

/-- **C167**, the in-memory store: after every history after which the store answers at all, a `Save` of a valid batch, or an
`OptimisticSave` with the right number, with a live context, succeeds and returns the stream's new number. -/
theorem C167_save_partial (ops : List Op) (st : Str) (n : Nat) (expected : Option Nat) (ers : List EventRecord)
    (hn : totalEventsInStream (run z ops) st false = .ok n) (hv : ValidBatch z st ers) (he : Right expected n) :
    (saveEvents z (run z ops) st expected none ers).out = .ok (n + ers.length) := by
  generalize run z ops = s at hn
  have hl : s.locked = false := by
    cases h : s.locked with
    | false => rfl
    | true => simp [totalEventsInStream, h] at hn
  have hs : n = streamSeq s st := by
    simp [totalEventsInStream, hl] at hn
    exact hn.symm
  subst hs
  obtain ⟨t, i, ho⟩ := hv.one
  obtain ⟨s', pend, h⟩ := saveLoop_valid st t i ers 0 s [] [] expected [] [] 0 ho hv.accepted he (.inl rfl) (.inl rfl)
    (fun h => (hv.some h).elim)
  unfold saveEvents
  rw [if_neg (by have := List.length_pos_iff.mpr hv.some; omega), hl, if_neg (by simp), h]

/-- After every guarded history the store answers. -/
theorem C167_answers (hz : z.Lawful) (ops : List Op) (hg : ∀ op ∈ ops, op.Guarded z) (st : Str) :
    ∃ n, totalEventsInStream (run z ops) st false = .ok n := by
  obtain ⟨n, _, h, _⟩ := C02_stream_contiguous hz ops hg st
  exact ⟨n, h⟩

/-- **C167**, the in-memory store, deletes: after every guarded history a delete of a stream that has events succeeds with the right
number. -/
theorem C167_delete_partial (hz : z.Lawful) (ops : List Op) (hg : ∀ op ∈ ops, op.Guarded z) (st : Str) (n : Nat)
    (hn : totalEventsInStream (run z ops) st false = .ok n) (h0 : n ≠ 0) : (deleteStream (run z ops) st n false).2 = .ok () :=
  ((C08_partial hz ops hg st n n hn).2.1 h0 rfl).1

end IM

namespace LD

theorem not_leaked (hz : z.Lawful) (ops : List Op) (hn : ∀ op ∈ ops, op.NamesIn N) (hb : (ops.map Op.size).sum < 2 ^ 64)
    (hf : ¬ DeleteFailed z ops) {st : Str} (hst : N.streams st) : (aRun z ops).leaked = false := by
  cases hl : (aRun z ops).leaked with
  | false => rfl
  | true =>
    have := ((C11_calls hz ops hn).2 st 0 false hst hb)
    rw [aDeleteOut, hl] at this
    exact (hf (((C14_exact (z := z) ops).2.1 st 0).mp (by simpa using this))).elim

/-- **C167**, the LevelDB store: the same, after every history in which no delete that was called with a live context failed (such a
delete blocks the store, C14). -/
theorem C167_save_partial (hz : z.Lawful) (ops : List Op) (hn : ∀ op ∈ ops, op.NamesIn N) (hf : ¬ DeleteFailed z ops)
    (st : Str) (n : Nat) (expected : Option Nat) (ers : List EventRecord)
    (hno : (Op.save st expected none ers).NamesIn N) (hb : (ops.map Op.size).sum + ers.length < 2 ^ 64)
    (ht : totalEventsInStream (run z ops) st false = .ok n) (hv : ValidBatch z st ers) (he : Right expected n) :
    (saveEvents z (run z ops) st expected none ers).out = .ok (n + ers.length) := by
  have hlen : n = (aRun z ops).log.streamLen st := by
    rw [(C11_reads hz ops hn (by omega)).2.1 st hno.1] at ht
    exact (Outcome.ok.inj ht).symm
  subst hlen
  rw [((C11_calls hz ops hn).1 st expected none ers hno hb).1, aSaveOut, if_neg hv.some,
    not_leaked hz ops hn (by omega) hf hno.1, if_neg (by simp), batchProblem_valid hv he]

/-- **C167**, the LevelDB store, deletes. -/
theorem C167_delete_partial (hz : z.Lawful) (ops : List Op) (hn : ∀ op ∈ ops, op.NamesIn N) (hf : ¬ DeleteFailed z ops)
    (hb : (ops.map Op.size).sum < 2 ^ 64) (st : Str) (hst : N.streams st) (n : Nat)
    (ht : totalEventsInStream (run z ops) st false = .ok n) (h0 : n ≠ 0) : (deleteStream z (run z ops) st n false).2 = .ok () := by
  have hlen : n = (aRun z ops).log.streamLen st := by
    rw [(C11_reads hz ops hn hb).2.1 st hst] at ht
    exact (Outcome.ok.inj ht).symm
  subst hlen
  rw [(C11_calls hz ops hn).2 st _ false hst hb, aDeleteOut, not_leaked hz ops hn hb hf hst]
  simp [h0]

end LD

/-! ### The full property is false, and the hypotheses are met -/

theorem evA_valid (d : List (List Nat)) (hd : d ≠ []) (h : ∀ x ∈ d, x.head? ≠ some 255) : ValidBatch demo sA (d.map evA) where
  some := by simpa using hd
  one := ⟨(evA []).event.aggType, (evA []).event.aggId, by
    intro er her
    obtain ⟨x, _, rfl⟩ := List.mem_map.mp her
    exact ⟨rfl, rfl⟩⟩
  accepted := by
    intro er her g q
    obtain ⟨x, hx, rfl⟩ := List.mem_map.mp her
    have := h x hx
    simp [demo, ser, evA, ev, mkRecord, this]

/-- A delete that fails blocks the LevelDB store: a valid save is not answered. -/
theorem C167_refuted : ¬ C167_full := by
  intro h
  have := ((h demo demo_lawful Names.plain [.delete sA 0 false] (by
    intro op hop; simp only [List.mem_singleton] at hop; subst hop
    simp [Op.NamesIn, Names.plain, sA, NoSep])).1 sA 0 none [evA [1]]
    (evA_valid [[1]] (by simp) (by simp)) (.inl rfl) (by simp [Op.NamesIn, Names.plain, sA, evA, ev, NoSep]) (by simp [Op.size])).2
    (by decide)
  exact absurd this (by decide)

/-- A history with a rejected save and a delete, after which a stream has two events: the hypotheses are met, and two more can be saved. -/
def demoWrites : List Op :=
  [.save sA none none [evA [1]], .save sA (some 7) none [evA [2]], .delete sA 1 false, .save sA none none [evA [1], evA [2]]]

example : (∀ op ∈ demoWrites, op.NamesIn Names.plain) ∧ IM.totalEventsInStream (IM.run demo demoWrites) sA false = .ok 2 ∧
    LD.totalEventsInStream (LD.run demo demoWrites) sA false = .ok 2 ∧ ValidBatch demo sA ([[4], [5]].map evA) ∧
    (IM.saveEvents demo (IM.run demo demoWrites) sA (some 2) none ([[4], [5]].map evA)).out = .ok 4 ∧
    (LD.saveEvents demo (LD.run demo demoWrites) sA (some 2) none ([[4], [5]].map evA)).out = .ok 4 := by
  refine ⟨?_, by decide, by decide, evA_valid _ (by simp) (by simp), by decide, by decide⟩
  intro op hop
  simp only [demoWrites, List.mem_cons, List.not_mem_nil, or_false] at hop
  rcases hop with rfl | rfl | rfl | rfl <;> simp [Op.NamesIn, Names.plain, sA, evA, ev, NoSep]

/-- No delete of it failed. -/
example : ¬ LD.DeleteFailed demo demoWrites := by
  intro h
  have := ((LD.C14_exact (z := demo) demoWrites).2.1 sA 0).mpr h
  exact absurd this (by decide)

end RangeDB

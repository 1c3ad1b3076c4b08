import Verif.Proof.LevelDB
import Verif.Base.Demo

/-! # C15: the in-memory and the LevelDB store are interchangeable -/

namespace RangeDB

open Demo

variable {z : Serializer}

/-- A call that does not fail part-way, on a store holding `L`: a save that succeeds, or that fails on
its first event for a reason other than the serializer; a delete that succeeds or is cancelled. -/
def Op.Clean (z : Serializer) (L : Log) : Op → Prop
  | .save st expected cancelAt ers =>
    batchProblem z L st expected cancelAt ers = none ∨
    ∃ e, batchProblem z L st expected cancelAt ers = some (0, e) ∧ e ≠ .serialize
  | .delete st expected cancelled =>
    cancelled = true ∨ (L.streamLen st ≠ 0 ∧ expected = L.streamLen st)

/-- The log after a clean call: one definition for both stores. -/
def cleanStep (z : Serializer) (L : Log) : Op → Log
  | .save st expected cancelAt ers =>
    if batchProblem z L st expected cancelAt ers = none then L.append z.view st ers else L
  | .delete st _ cancelled => if cancelled then L else L.delete st

/-- A history of clean calls. -/
def CleanFrom (z : Serializer) : Log → List Op → Prop
  | _, [] => True
  | L, op :: ops => op.Clean z L ∧ CleanFrom z (cleanStep z L op) ops

theorem clean_step (hz : z.Lawful) {s : IM.State} {t : LD.State} {L : Log} (hs : IM.Sim z s L)
    (ht : LD.SimA N z t ⟨L, false, false⟩) (op : Op) (hc : op.Clean z L) (hn : op.NamesIn N)
    (hb : L.last + op.size < 2 ^ 64) :
    (match op with
      | .save st e c ers =>
        (LD.saveEvents z t st e c ers).out = (IM.saveEvents z s st e c ers).out ∧
        (LD.saveEvents z t st e c ers).broadcast = (IM.saveEvents z s st e c ers).broadcast
      | .delete st e c => (LD.deleteStream z t st e c).2 = (IM.deleteStream s st e c).2) ∧
    IM.Sim z (IM.step z s op) (cleanStep z L op) ∧
    LD.SimA N z (LD.step z t op) ⟨cleanStep z L op, false, false⟩ ∧
    (cleanStep z L op).last ≤ L.last + op.size := by
  have hL : L.WF := ht.wf
  have hA := LD.step_simA hz ht op hn hb
  cases op with
  | save st e c ers =>
    by_cases hne : ers = []
    · subst hne
      have h0 : L.append z.view st [] = L := by simp [Log.append, numbered]
      simp only [cleanStep, h0, ite_self, IM.step, LD.step, LD.saveEvents, IM.saveEvents,
        List.length_nil, Nat.zero_lt_one, if_true]
      exact ⟨⟨trivial, trivial⟩, hs, ht, by omega⟩
    · have hg : ∀ j, batchProblem z L st e c ers ≠ some (j, .serialize) := by
        intro j hj
        rcases hc with hc | ⟨x, hc, hx⟩
        · rw [hc] at hj; simp at hj
        · rw [hc] at hj; simp at hj; exact hx hj.2
      have hi := IM.saveEvents_spec' hz hL hs st e c ers (Or.inr hg) hne
      have hl := LD.saveEvents_spec hz hL ht.sim (by rw [ht.mux]) (by rw [ht.tx]) hn.1 e c ers hn.2
        hb hne
      rcases hc with hc | ⟨x, hc, hx⟩
      · obtain ⟨i1, i2, i3⟩ := hi.1 hc
        obtain ⟨l1, _, l3⟩ := hl.1 hc
        simp only [aStep, if_neg hne, hc, Bool.false_eq_true, if_false] at hA
        simp only [cleanStep, hc, if_true]
        exact ⟨⟨l1.trans i1.symm, l3.trans i3.symm⟩, i2, hA.1, hA.2⟩
      · obtain ⟨i1, i2, i3⟩ := hi.2 0 x hc
        have l1 := hl.2 0 x hc
        simp only [aStep, if_neg hne, hc, Bool.false_eq_true, if_false] at hA
        have haf : afterFail z.view L st ers 0 x = L := by
          have h0 : L.append z.view st [] = L := by simp [Log.append, numbered]
          cases x <;> first | rfl | exact absurd rfl hx | exact h0
        rw [haf] at i2
        have hns : ¬ batchProblem z L st e c ers = none := by rw [hc]; simp
        simp only [cleanStep, hns, if_false]
        refine ⟨⟨by rw [l1, i1], by rw [l1, i3]⟩, i2, hA.1, by omega⟩
  | delete st e c =>
    rcases hc with rfl | ⟨h0, hx⟩
    · simp only [cleanStep, if_true, IM.step, LD.step, LD.deleteStream, IM.deleteStream]
      exact ⟨trivial, hs, ht, by omega⟩
    · cases c with
      | true =>
        simp only [cleanStep, if_true, IM.step, LD.step, LD.deleteStream, IM.deleteStream]
        exact ⟨trivial, hs, ht, by omega⟩
      | false =>
        have hi := (IM.deleteStream_spec hL hs st e false).2.2.1 rfl h0 hx
        obtain ⟨db', l1, l2⟩ := (LD.deleteStream_spec hL ht.sim (by rw [ht.mux]) (by rw [ht.tx])
          (show N.streams st from hn) e).2.2 h0 hx
        simp only [aStep, Bool.false_eq_true, if_false] at hA
        rw [if_neg (by simp [h0, hx])] at hA
        simp only [cleanStep, Bool.false_eq_true, if_false]
        exact ⟨by rw [l1, hi.1], hi.2, hA.1, hA.2⟩

theorem clean_run (hz : z.Lawful) (ops : List Op) : ∀ (s : IM.State) (t : LD.State) (L : Log),
    IM.Sim z s L → LD.SimA N z t ⟨L, false, false⟩ → CleanFrom z L ops → (∀ op ∈ ops, op.NamesIn N) →
    L.last + (ops.map Op.size).sum < 2 ^ 64 →
    IM.Sim z (ops.foldl (IM.step z) s) (ops.foldl (cleanStep z) L) ∧
    LD.SimA N z (ops.foldl (LD.step z) t) ⟨ops.foldl (cleanStep z) L, false, false⟩ ∧
    (ops.foldl (cleanStep z) L).last ≤ L.last + (ops.map Op.size).sum := by
  induction ops with
  | nil => intro s t L hs ht _ _ _; exact ⟨hs, ht, by simp⟩
  | cons op ops ih =>
    intro s t L hs ht hc hn hb
    simp only [List.map_cons, List.sum_cons] at hb
    obtain ⟨_, h2, h3, h4⟩ := clean_step hz hs ht op hc.1 (hn op (by simp)) (by omega)
    obtain ⟨g1, g2, g3⟩ := ih _ _ _ h2 h3 hc.2 (fun o ho => hn o (by simp [ho])) (by omega)
    simp only [List.foldl_cons, List.map_cons, List.sum_cons]
    exact ⟨g1, g2, by omega⟩

/-- **C15.** Run the same history against both stores, none of whose calls fails part-way. Then the next
such call returns the same result from both and hands the same records to the subscribers, and every
read returns the same records and errors from both, also when the reader's context is cancelled. -/
theorem C15_agree (hz : z.Lawful) (ops : List Op) (hc : CleanFrom z Log.empty ops)
    (hn : ∀ op ∈ ops, op.NamesIn N) (hb : (ops.map Op.size).sum < 2 ^ 64) :
    (∀ op : Op, CleanFrom z Log.empty (ops ++ [op]) → op.NamesIn N →
      (ops.map Op.size).sum + op.size < 2 ^ 64 →
      match op with
      | .save st e c ers =>
        (LD.saveEvents z (LD.run z ops) st e c ers).out
          = (IM.saveEvents z (IM.run z ops) st e c ers).out ∧
        (LD.saveEvents z (LD.run z ops) st e c ers).broadcast
          = (IM.saveEvents z (IM.run z ops) st e c ers).broadcast
      | .delete st e c =>
        (LD.deleteStream z (LD.run z ops) st e c).2 = (IM.deleteStream (IM.run z ops) st e c).2) ∧
    (∀ c g, g < 2 ^ 64 → LD.events z (LD.run z ops) c g = .ok (IM.events z (IM.run z ops) c g)) ∧
    (∀ g types, g < 2 ^ 64 → types.Nodup → (∀ t ∈ types, N.types t) →
      LD.eventsByAggregateTypes z (LD.run z ops) (fun _ => none) g types
        = .ok (IM.eventsByAggregateTypes z (IM.run z ops) (fun _ => none) g types)) ∧
    (∀ c n st, N.streams st → LD.eventsByStream z (LD.run z ops) c n st
        = .ok (IM.eventsByStream z (IM.run z ops) c n st)) ∧
    (∀ st b, N.streams st → LD.totalEventsInStream (LD.run z ops) st b
        = IM.totalEventsInStream (IM.run z ops) st b) := by
  obtain ⟨hs, ht, hle⟩ := clean_run hz ops IM.init LD.init Log.empty IM.sim_init LD.simA_init hc hn
    (by simpa [Log.empty] using hb)
  have hL := ht.wf
  have hLd := ht.sim
  simp only at hL hLd
  have hcl : ∀ (L : Log) (op : Op) (ops : List Op), CleanFrom z L (ops ++ [op]) →
      op.Clean z (ops.foldl (cleanStep z) L) := by
    intro L op ops
    induction ops generalizing L with
    | nil => intro h; exact h.1
    | cons o os ih => intro h; exact ih _ h.2
  change IM.Sim z (IM.run z ops) _ at hs
  change LD.SimA N z (LD.run z ops) _ at ht
  change LD.Sim N z (LD.run z ops).db _ at hLd
  have hmux : (LD.run z ops).muxHeld = false := ht.mux
  refine ⟨?_, ?_, ?_, ?_, ?_⟩
  · intro op hcl' hno hbo
    simp only [Log.empty, Nat.zero_add] at hle
    have := (clean_step hz hs ht op (hcl _ _ _ hcl') hno (by
      have : (ops.foldl (cleanStep z) Log.empty).last ≤ (ops.map Op.size).sum := hle
      omega)).1
    exact this
  · intro c g hg
    simp only [LD.events, hmux, Bool.false_eq_true, if_false, LD.lookup_all hLd hL c g hg,
      IM.events_spec hs]
  · intro g types hg hd hty
    rw [LD.eventsByAggregateTypes_spec hLd hL g hg types hd hty hmux,
      IM.eventsByAggregateTypes_spec hs hL g types hd]
  · intro c n st hno
    simp only [LD.eventsByStream, hmux, Bool.false_eq_true, if_false, LD.prefix_stream hLd hL c n hno,
      IM.eventsByStream_spec hs]
  · intro st b hno
    cases b with
    | true => simp [LD.totalEventsInStream, IM.totalEventsInStream]
    | false =>
      rw [IM.total_spec hs]
      simp only [LD.totalEventsInStream, Bool.false_eq_true, if_false, LD.seqNumber_spec hLd hL hno]

/-- A history with a failing optimistic save and a delete is clean. -/
example : CleanFrom demo Log.empty [.save sA none none [evA [1], evA [2]],
    .save sA (some 1) none [evA [3]], .delete sA 2 false, .save sB (some 0) none [evB [1]]] := by
  refine ⟨Or.inl (by decide), Or.inr ⟨.unexpected 1 2, by decide, by simp⟩, Or.inr (by decide),
    Or.inl (by decide), trivial⟩

/-- The restriction is needed: after a batch that fails part-way the stores differ. -/
theorem C15_differ_part_way :
    LD.events demo (LD.run demo [.save sA none none [evA [1], evB [2]]]) none 0
      ≠ .ok (IM.events demo (IM.run demo [.save sA none none [evA [1], evB [2]]]) none 0) := by decide

end RangeDB

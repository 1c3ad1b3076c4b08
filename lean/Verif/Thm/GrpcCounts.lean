import Verif.Model.GrpcCounts
import Verif.Spec.BrokenDeletes
import Verif.Thm.Remote
import Verif.Thm.InMemory

/-!
# Theorems: the counts in the replies of the gRPC server (C138)
-/

namespace RangeDB.Rem

open RangeDB.Json RangeDB.Http RangeDB.IM RangeDB.Demo

variable {z : Serializer}

/-- The number of events that are stored. -/
def stored (z : Serializer) (s : IM.State) : Nat := (IM.events z s none 0).recs.length

/-- Apart from the counts the reply is that of `serverSave`. -/
theorem replySave_serverSave {σ : Type} (other : Err → Str)
    (save : σ → Str → Option Nat → List EventRecord → σ × Outcome Nat) (fl : Str → Option Str) (s : σ) (stream : Str)
    (expected : Option Nat) (es : List PbEvent) :
    (replySave other save fl s stream expected es).1 = (serverSave other save fl s stream expected es).1 ∧
    ((replySave other save fl s stream expected es).2.map (·.map (·.last))) = (serverSave other save fl s stream expected es).2 := by
  unfold replySave serverSave
  cases serverEvents fl es with
  | error t => exact ⟨rfl, rfl⟩
  | ok ers =>
    refine ⟨rfl, ?_⟩
    dsimp only
    cases (save s stream expected ers).2 <;> rfl

theorem serverEvents_length {fl : Str → Option Str} : ∀ (es : List PbEvent) (ers : List EventRecord),
    serverEvents fl es = .ok ers → ers.length = es.length
  | [], ers, h => by simp only [serverEvents, Except.ok.injEq] at h; subst h; rfl
  | e :: es, ers, h => by
    simp only [serverEvents] at h
    repeat' split at h
    all_goals first | (simp at h; done) | skip
    all_goals
      rename_i ers' h'
      simp only [Except.ok.injEq] at h
      subst h
      simp [serverEvents_length es ers' h']

/-- **C138**, saves, after every history: if the call succeeds, then `EventsSaved` is the number of events of the request, cut to 32
bits; that many events are stored on top of those that were, all of them in the stream; and `LastStreamSequenceNumber` is the
new length of the stream. -/
theorem C138_save (hz : z.Lawful) (other : Err → Str) (fl : Str → Option Str) (ops : List Op) (st : Str) (expected : Option Nat)
    (es : List PbEvent) (s' : IM.State) (r : SaveResponse)
    (h : replySave other (imSave z) fl (run z ops) st expected es = (s', some (.ok r))) :
    r.eventsSaved = es.length % 2 ^ 32 ∧
    stored z s' = stored z (run z ops) + es.length ∧
    ∃ n, totalEventsInStream (run z ops) st false = .ok n ∧ r.last = n + es.length := by
  unfold replySave at h
  cases hse : serverEvents fl es with
  | error t => rw [hse] at h; simp at h
  | ok ers =>
    rw [hse] at h
    have hlen := serverEvents_length es ers hse
    simp only [imSave, Prod.mk.injEq] at h
    obtain ⟨h1, h2⟩ := h
    cases ho : (saveEvents z (run z ops) st expected none ers).out with
    | ok k =>
      rw [ho] at h2
      simp only [Option.some.injEq, Except.ok.injEq] at h2
      obtain ⟨n, g, c1, _, _, c4, c5, _⟩ := C01_save_appends hz ops st expected none ers k ho
      subst h1 h2
      refine ⟨by rw [uint32, hlen], ?_, n, c1, by rw [c4, hlen]⟩
      rw [stored, c5, stored, List.length_append, List.length_map, numbered_length, hlen]
    | err e => rw [ho] at h2; simp at h2
    | panic => rw [ho] at h2; simp at h2
    | blocked => rw [ho] at h2; simp at h2

/-- The claim for deletes: `EventsDeleted` is the number of events that the call removed. -/
def C138_full : Prop :=
  ∀ (z : Serializer), z.Lawful → ∀ (other : Err → Str) (ops : List Op), (∀ op ∈ ops, op.Guarded z) → ∀ (st : Str) (e : Nat)
    (s' : IM.State) (k : Nat), replyDelete other (imDeleteAt false) (run z ops) st e = (s', some (.ok k)) →
    stored z (run z ops) = stored z s' + k

theorem filter_split (p : Record → Bool) : ∀ l : List Record,
    l.length = (l.filter (fun r => !p r)).length + (l.filter p).length
  | [] => rfl
  | x :: l => by
    have := filter_split p l
    cases h : p x <;> simp [List.filter_cons, h] <;> omega

/-- What a successful delete removes. -/
theorem delete_removes (hz : z.Lawful) (ops : List Op) (hg : ∀ op ∈ ops, op.Guarded z) (st : Str) (e : Nat)
    (h : (deleteStream (run z ops) st e false).2 = .ok ()) :
    stored z (run z ops) = stored z (deleteStream (run z ops) st e false).1 + e ∧
    totalEventsInStream (run z ops) st false = .ok e := by
  obtain ⟨hL, hs⟩ := run_sim hz ops hg
  generalize run z ops = s at h hs
  generalize specRun z ops = L at hL hs
  obtain ⟨_, d2, d3, d4⟩ := deleteStream_spec hL hs st e false
  by_cases h0 : L.streamLen st = 0
  · obtain ⟨e1, e2⟩ := d4 rfl h0
    have he : e = 0 := by
      rcases e2 with ⟨_, e2⟩ | ⟨_, e2⟩ | ⟨e2, _⟩
      · rw [h] at e2; cases e2
      · rw [h] at e2; cases e2
      · exact e2
    subst he
    exact ⟨by simp only [stored]; rw [events_spec hs, events_spec e1]; rfl, by rw [total_spec hs, h0]⟩
  · by_cases hx : e = L.streamLen st
    · obtain ⟨_, e1⟩ := d3 rfl h0 hx
      refine ⟨?_, by rw [total_spec hs, hx]⟩
      simp only [stored]
      rw [events_spec hs, events_spec e1, hx]
      have hsp := filter_split (fun r => decide (r.streamName = st)) L.recs
      have hd : L.recs.filter (fun _ => true) = L.recs := List.filter_eq_self.mpr (by simp)
      simpa [cut, Log.delete, Log.streamLen, Log.stream, hd] using hsp
    · rw [d2 rfl h0 hx] at h; cases h

/-- **C138**, deletes: if the call succeeds and the request's number is below 2^32, then `EventsDeleted` is the number of events
that were in the stream, and that many are removed. Missing: longer streams, for which the claim is false. -/
theorem C138_delete_partial (hz : z.Lawful) (other : Err → Str) (ops : List Op) (hg : ∀ op ∈ ops, op.Guarded z) (st : Str) (e : Nat)
    (he : e < 2 ^ 32) (s' : IM.State) (k : Nat)
    (h : replyDelete other (imDeleteAt false) (run z ops) st e = (s', some (.ok k))) :
    stored z (run z ops) = stored z s' + k ∧ totalEventsInStream (run z ops) st false = .ok k := by
  simp only [replyDelete, imDeleteAt, Prod.mk.injEq] at h
  obtain ⟨h1, h2⟩ := h
  cases ho : (deleteStream (run z ops) st e false).2 with
  | ok u =>
    rw [ho] at h2
    simp only [Option.some.injEq, Except.ok.injEq] at h2
    have hk : k = e := by rw [← h2, uint32]; exact Nat.mod_eq_of_lt he
    obtain ⟨r1, r2⟩ := delete_removes hz ops hg st e (by rw [ho])
    rw [← h1, hk]
    exact ⟨r1, r2⟩
  | err x => rw [ho] at h2; simp at h2
  | panic => rw [ho] at h2; simp at h2
  | blocked => rw [ho] at h2; simp at h2

/-- A history that gives a stream any number of events. -/
theorem many_total (n : Nat) : (∀ op ∈ List.replicate n (Op.save sA none none [evA [1]]), op.Guarded demo) ∧
    totalEventsInStream (run demo (List.replicate n (Op.save sA none none [evA [1]]))) sA false = .ok n := by
  have hg : ∀ op ∈ List.replicate n (Op.save sA none none [evA [1]]), op.Guarded demo := by
    intro op hop
    rw [List.eq_of_mem_replicate hop]
    exact Or.inr (Or.inr (by simp))
  refine ⟨hg, ?_⟩
  obtain ⟨_, hs⟩ := run_sim demo_lawful _ hg
  rw [total_spec hs]
  congr 1
  have key : ∀ (n : Nat) (L : Log), ((List.replicate n (Op.save sA none none [evA [1]])).foldl (specStep demo) L).streamLen sA =
      L.streamLen sA + n := by
    intro n
    induction n with
    | zero => intro L; rfl
    | succ n ih =>
      intro L
      rw [List.replicate_succ, List.foldl_cons, ih]
      have hstep : specStep demo L (.save sA none none [evA [1]]) = L.append demo.view sA [evA [1]] := by
        have hb : batchProblem demo L sA none none [evA [1]] = none := by
          simp [batchProblem, firstProblem, problem, differs, ctxDone, demo, ser, mkRecord, evA, ev]
        simp [specStep, hb]
      rw [hstep, Log.streamLen_append_self demo_lawful]
      simp only [List.length_cons, List.length_nil]
      omega
  have := key n Log.empty
  simpa [specRun, Log.empty, Log.streamLen, Log.stream] using this

/-- **C138 is false of streams with 2^32 events** (or a multiple of it): they are all removed, and the reply says that none
was. -/
theorem C138_truncated (other : Err → Str) (n : Nat) (hn : n ≠ 0) (hm : n % 2 ^ 32 = 0) :
    ∃ ops : List Op, (∀ op ∈ ops, op.Guarded demo) ∧ ∃ s',
      replyDelete other (imDeleteAt false) (run demo ops) sA n = (s', some (.ok 0)) ∧
      stored demo (run demo ops) = stored demo s' + n := by
  obtain ⟨hg, ht⟩ := many_total n
  generalize List.replicate n (Op.save sA none none [evA [1]]) = ops at hg ht
  have hok : (deleteStream (run demo ops) sA n false).2 = .ok () :=
    ((C08_partial demo_lawful ops hg sA n n ht).2.1 hn rfl).1
  refine ⟨ops, hg, (deleteStream (run demo ops) sA n false).1, ?_, (delete_removes demo_lawful ops hg sA n hok).1⟩
  simp only [replyDelete, imDeleteAt, hok, uint32, hm]

theorem C138_false : ¬ C138_full := by
  intro h
  obtain ⟨ops, hg, s', h1, h2⟩ := C138_truncated demoOther (2 ^ 32) (by decide) (by decide)
  have := h demo demo_lawful demoOther ops hg sA (2 ^ 32) s' 0 h1
  omega

example : (replySave demoOther (imSave (serializer unbound)) demoFl IM.init [65, 33, 49] none
    [⟨[65], [49], [69], [49], [], [117], 7⟩, ⟨[65], [49], [69], [50], [], [117], 7⟩]).2.map (fun r => r.toOption) = some (some ⟨2, 2⟩) := by decide +kernel

example : (replyDelete demoOther (imDeleteAt false) (run demo [.save sA none none [evA [1], evA [2]], .save sB none none [evB [1]]])
    sA 2).2.map (fun r => r.toOption) = some (some 2) := by decide

end RangeDB.Rem

import Verif.Proof.InMemoryAll
import Verif.Base.Demo

/-!
# Properties of the in-memory store

`run z ops` is the store after the history `ops` (any interleaving of `Save`, `OptimisticSave` and
`OptimisticDeleteStream` calls, with any arguments, successful or not). Reads are `events` (`Events`),
`eventsByStream`, `eventsByAggregateTypes`, `totalEventsInStream`. Theorems without a `Guarded`
hypothesis hold for every history; the others for every history whose calls satisfy `Op.Guarded`
(`Verif/Spec/EventLog.lean`), i.e. which do not trigger the defect of C07.
-/

namespace RangeDB.IM

open Demo

variable {z : Serializer}

/-- Two states in which every read returns the same. -/
def SameReads (z : Serializer) (s s' : State) : Prop :=
  (∀ c g, events z s' c g = events z s c g) ∧
  (∀ c n st, eventsByStream z s' c n st = eventsByStream z s c n st) ∧
  (∀ c g ts, eventsByAggregateTypes z s' c g ts = eventsByAggregateTypes z s c g ts) ∧
  (∀ st c, totalEventsInStream s' st c = totalEventsInStream s st c)

/-- What `numbered` says, index by index. -/
theorem numbered_getElem (st : Str) (g q : Nat) (ers : List EventRecord) (i : Nat)
    (h : i < ers.length) :
    (numbered st g q ers)[i]? = some (mkRecord st (g + 1 + i) (q + 1 + i) ers[i]) := by
  induction ers generalizing g q i with
  | nil => simp at h
  | cons e es ih =>
    cases i with
    | zero => simp [numbered]
    | succ i =>
      simp only [numbered, List.getElem?_cons_succ, List.getElem_cons_succ]
      rw [ih (g + 1) (q + 1) i (by simpa using h)]
      congr 2 <;> omega

/-! ## C01 -/

/-- **C01.** After any history, a save that returns `(k, nil)` extends what `Events(0)` returns by
exactly its events, in order, numbered consecutively above every earlier global number and after the
stream's current number; it returns the new stream number and broadcasts exactly those records. -/
theorem C01_save_appends (hz : z.Lawful) (ops : List Op) (st : Str) (expected cancelAt : Option Nat)
    (ers : List EventRecord) (k : Nat)
    (hok : (saveEvents z (run z ops) st expected cancelAt ers).out = .ok k) :
    ∃ n g,
      totalEventsInStream (run z ops) st false = .ok n ∧
      (events z (run z ops) none 0).err = none ∧
      (∀ r ∈ (events z (run z ops) none 0).recs, r.gsn ≤ g) ∧
      k = n + ers.length ∧
      events z (saveEvents z (run z ops) st expected cancelAt ers).state none 0 =
        ⟨(events z (run z ops) none 0).recs ++ (numbered st g n ers).map z.view, none⟩ ∧
      (saveEvents z (run z ops) st expected cancelAt ers).broadcast
        = (numbered st g n ers).map z.view := by
  obtain ⟨L, hL⟩ := run_E hz ops
  obtain ⟨h1, h2, h3, h4⟩ := (saveEvents_E hz hL st expected cancelAt ers).1 k hok
  have hl : (run z ops).locked = false := by
    cases hl : (run z ops).locked with
    | false => rfl
    | true =>
      unfold saveEvents at hok
      simp only [hl, if_true] at hok
      split at hok <;> simp at hok
  refine ⟨streamSeq (run z ops) st, L.last, ?_, ?_, ?_, h2, ?_, h4⟩
  · simp [totalEventsInStream, hl, streamSeq]
  · rw [events_E_zero hL]
  · rw [events_E_zero hL]; exact fun r hr => (hL.bounded r hr).2
  · rw [events_E_zero hL, events_E_zero h1]; rfl

example : (saveEvents demo (run demo [.save sA none none [evA [1]], .delete sA 1 false])
    sB none none [evB [2], evB [3]]).out = .ok 2 := by decide

/-- **C01**, per-stream and per-type reads (guarded histories): the stream grows by exactly the new
records, every other stream is unchanged, every type's read grows by its own new records. -/
theorem C01_save_appends_indexes (hz : z.Lawful) (ops : List Op) (hg : ∀ op ∈ ops, op.Guarded z)
    (st : Str) (expected cancelAt : Option Nat) (ers : List EventRecord) (k : Nat)
    (hge : Guarded z st ers)
    (hok : (saveEvents z (run z ops) st expected cancelAt ers).out = .ok k) :
    ∃ new : List Record,
      (events z (saveEvents z (run z ops) st expected cancelAt ers).state none 0).recs
        = (events z (run z ops) none 0).recs ++ new ∧
      (eventsByStream z (saveEvents z (run z ops) st expected cancelAt ers).state none 0 st)
        = ⟨(eventsByStream z (run z ops) none 0 st).recs ++ new, none⟩ ∧
      (∀ t, (eventsByAggregateTypes z (saveEvents z (run z ops) st expected cancelAt ers).state
          (fun _ => none) 0 [t]).recs
        = (eventsByAggregateTypes z (run z ops) (fun _ => none) 0 [t]).recs
            ++ new.filter (fun r => r.aggType = t)) := by
  obtain ⟨hL, hs⟩ := run_sim hz ops hg
  generalize specRun z ops = L at hL hs
  have hne : ers ≠ [] := by
    rintro rfl; simp [saveEvents] at hok
  have hspec := saveEvents_spec hz hL hs st expected cancelAt ers hge hne
  have hp : batchProblem z L st expected cancelAt ers = none := by
    cases hp : batchProblem z L st expected cancelAt ers with
    | none => rfl
    | some p => obtain ⟨j, e⟩ := p; rw [(hspec.2 j e hp).1] at hok; simp at hok
  obtain ⟨h1, h2, _⟩ := hspec.1 hp
  have hall : ∀ l : List Record, l.filter (fun r => decide (r.gsn ≥ 0)) = l := by
    intro l; rw [List.filter_eq_self]; simp
  have hall' : ∀ l : List Record, l.filter (fun r => decide (r.seq ≥ 0)) = l := by
    intro l; rw [List.filter_eq_self]; simp
  have hlen : (L.append z.view st ers).streamLen st ≠ 0 := by
    rw [Log.streamLen_append_self hz]
    have : ers.length ≠ 0 := fun h => hne (List.length_eq_zero_iff.mp h)
    omega
  refine ⟨(numbered st L.last (L.streamLen st) ers).map z.view, ?_, ?_, ?_⟩
  · rw [events_spec h2, events_spec hs]; simp only [cut, hall]; rfl
  · rw [eventsByStream_spec h2, eventsByStream_spec hs, if_neg hlen]
    simp only [cut, hall', Log.stream_append_self hz]
    split
    · rename_i h0
      have : L.stream st = [] := List.length_eq_zero_iff.mp h0
      simp [this]
    · rfl
  · intro t
    rw [eventsByAggregateTypes_spec h2 (hL.append hz st ers) 0 [t] (by simp),
      eventsByAggregateTypes_spec hs hL 0 [t] (by simp)]
    simp only [Log.append, List.filter_append, Nat.zero_le, ge_iff_le, decide_true, Bool.and_true,
      List.mem_singleton]

example : Guarded demo sB [evB [2], evB [3]] ∧
    ∀ op ∈ [Op.save sA none none [evA [1], evA [255]], .delete sA 0 false], op.Guarded demo := by
  refine ⟨Or.inl (by decide), ?_⟩
  intro op hop
  simp only [List.mem_cons, List.not_mem_nil, or_false] at hop
  rcases hop with rfl | rfl
  · exact Or.inl (by decide)
  · trivial

/-! ## C02 -/

/-- **C02.** In every (guarded) reachable state a stream with `n` events reads as `n` records numbered
1, ..., n, all carrying the stream's name; a read from `k` yields those numbered `k` or more; a stream
without events yields `ErrStreamNotFound`. The stream is the part of `Events(0)` with its name. -/
theorem C02_stream_contiguous (hz : z.Lawful) (ops : List Op) (hg : ∀ op ∈ ops, op.Guarded z)
    (st : Str) :
    ∃ n all, totalEventsInStream (run z ops) st false = .ok n ∧
      all = (events z (run z ops) none 0).recs.filter (fun r => r.streamName = st) ∧
      all.map (·.seq) = List.range' 1 n ∧
      (n = 0 → ∀ c k, eventsByStream z (run z ops) c k st = ⟨[], some .notFound⟩) ∧
      (n ≠ 0 → ∀ c k, eventsByStream z (run z ops) c k st = cut c (all.filter (fun r => r.seq ≥ k))) := by
  obtain ⟨hL, hs⟩ := run_sim hz ops hg
  generalize specRun z ops = L at hL hs
  refine ⟨L.streamLen st, L.stream st, total_spec hs st, ?_, hL.contiguous st, ?_, ?_⟩
  · rw [events_spec hs]
    simp only [cut, Nat.zero_le, ge_iff_le, decide_true, Log.stream]
    rw [List.filter_eq_self (p := fun _ => true) |>.mpr (by simp)]
  · intro h0 c k; rw [eventsByStream_spec hs, if_pos h0]
  · intro h0 c k; rw [eventsByStream_spec hs, if_neg h0]

example : totalEventsInStream (run demo [.save sA none none [evA [1], evA [2]],
    .save sB none none [evB [1]], .save sA (some 2) none [evA [3]]]) sA false = .ok 3 := by decide

/-! ## C03 -/

/-- **C03**, every history: there is one list of live records, strictly increasing in global number,
and `Events(ctx, g)` returns exactly those numbered `g` or more, each once and in that order (cut off
with an error if the context is cancelled). -/
theorem C03_events_ordered (hz : z.Lawful) (ops : List Op) :
    ∃ live : List Record, live.Pairwise (fun a b => a.gsn < b.gsn) ∧
      ∀ c g, events z (run z ops) c g = cut c (live.filter (fun r => r.gsn ≥ g)) := by
  obtain ⟨L, hL⟩ := run_E hz ops
  exact ⟨L.recs, hL.sorted, fun c g => events_E hL c g⟩

/-- **C03**, guarded histories: the live records are those of the abstract log. -/
theorem C03_events_is_log (hz : z.Lawful) (ops : List Op) (hg : ∀ op ∈ ops, op.Guarded z) (g : Nat) :
    events z (run z ops) none g = ⟨(specRun z ops).recs.filter (fun r => r.gsn ≥ g), none⟩ := by
  rw [events_spec (run_sim hz ops hg).2]; rfl

example : (events demo (run demo [.save sA none none [evA [1], evA [2]], .save sB none none [evB [1]],
    .delete sA 2 false, .save sA none none [evA [4]]]) none 0).recs.map (·.gsn) = [3, 4] := by decide

/-! ## C04 -/

/-- **C04.** With pairwise different types, `EventsByAggregateTypes(g, types...)` returns exactly the
live records with one of the types and global number `g` or more, in strictly increasing order. -/
theorem C04_events_by_types (hz : z.Lawful) (ops : List Op) (hg : ∀ op ∈ ops, op.Guarded z) (g : Nat)
    (types : List Str) (hd : types.Nodup) :
    eventsByAggregateTypes z (run z ops) (fun _ => none) g types =
      ⟨(events z (run z ops) none 0).recs.filter
        (fun r => decide (r.aggType ∈ types) && decide (r.gsn ≥ g)), none⟩ ∧
    (eventsByAggregateTypes z (run z ops) (fun _ => none) g types).recs.Pairwise
      (fun a b => a.gsn < b.gsn) := by
  obtain ⟨hL, hs⟩ := run_sim hz ops hg
  generalize specRun z ops = L at hL hs
  rw [eventsByAggregateTypes_spec hs hL g types hd, events_spec hs]
  refine ⟨?_, hL.sorted.filter _⟩
  simp only [cut, Nat.zero_le, ge_iff_le, decide_true]
  rw [List.filter_eq_self (p := fun _ => true) |>.mpr (by simp)]

example : (eventsByAggregateTypes demo (run demo [.save sA none none [evA [1]],
    .save sB none none [evB [1]], .save sA none none [evA [2]]]) (fun _ => none) 0
    [[65], [66]]).recs.map (·.gsn) = [1, 2, 3] := by decide

/-- Without the condition on the types C04 is false: a repeated type repeats its records. -/
theorem C04_repeated_type_duplicates :
    (eventsByAggregateTypes demo (run demo [.save sA none none [evA [1]]]) (fun _ => none) 0
      [[65], [65]]).recs.map (·.gsn) = [1, 1] := by decide

/-! ## C05 -/

theorem sameReads_of {s s' : State} (h1 : s'.records = s.records) (h2 : s'.data = s.data)
    (h3 : ∀ n, get s'.streams n = get s.streams n) (h4 : ∀ t, get s'.aggTypes t = get s.aggTypes t)
    (h5 : s'.locked = s.locked) : SameReads z s s' := by
  have hr : ∀ c keep n ids, recordsByIDs z s' c keep n ids = recordsByIDs z s c keep n ids := by
    intro c keep n ids
    induction ids generalizing n with
    | nil => rfl
    | cons x xs ih => simp only [recordsByIDs, h2, ih]
  have ht : ∀ c g t, eventsByType z s' c g t = eventsByType z s c g t := by
    intro c g t; simp only [eventsByType, h4, hr]
  refine ⟨?_, ?_, ?_, ?_⟩
  · intro c g; simp only [events, h1, hr]
  · intro c n st
    have hcond : ((s'.streams st).isNone ∨ (get s'.streams st).length = 0) ↔
        ((s.streams st).isNone ∨ (get s.streams st).length = 0) := by
      have h0 : ∀ m : Str → Option (List Nat), (m st).isNone = true → (get m st).length = 0 := by
        intro m hm; simp only [Option.isNone_iff_eq_none] at hm; simp [get, hm]
      constructor
      · rintro (h | h)
        · right; rw [← h3]; exact h0 _ h
        · right; rw [← h3]; exact h
      · rintro (h | h)
        · right; rw [h3]; exact h0 _ h
        · right; rw [h3]; exact h
    rw [h3] at hcond
    simp only [eventsByStream, h3, hr, hcond]
  · intro c g ts
    have hm : ts.map (fun t => eventsByType z s' (c t) g t)
        = ts.map (fun t => eventsByType z s (c t) g t) := by simp only [ht]
    unfold eventsByAggregateTypes
    split
    · rw [ht]
    · rw [hm]
  · intro st c; simp only [totalEventsInStream, h5, h3]

/-- **C05**, mismatch: in every history, an `OptimisticSave` whose expected number is not the stream's
current number returns `UnexpectedSequenceNumber{expected, actual}`, broadcasts nothing and changes no
read. (The context is not already cancelled, there is at least one event, and the store is not blocked.) -/
theorem C05_mismatch (ops : List Op) (st : Str) (e n : Nat) (cancelAt : Option Nat) (er : EventRecord)
    (ers : List EventRecord) (hc : cancelAt ≠ some 0)
    (hn : totalEventsInStream (run z ops) st false = .ok n) (hne : e ≠ n) :
    (saveEvents z (run z ops) st (some e) cancelAt (er :: ers)).out = .err (.unexpected e n) ∧
    (saveEvents z (run z ops) st (some e) cancelAt (er :: ers)).broadcast = [] ∧
    SameReads z (run z ops) (saveEvents z (run z ops) st (some e) cancelAt (er :: ers)).state := by
  generalize run z ops = s at *
  have hl : s.locked = false := by
    cases hl : s.locked with
    | false => rfl
    | true => simp [totalEventsInStream, hl] at hn
  have hn' : streamSeq s st = n := by
    simpa [totalEventsInStream, hl, streamSeq] using hn
  have hctx : ctxDone cancelAt 0 = false := by
    unfold ctxDone
    cases cancelAt with
    | none => rfl
    | some c => cases c with
      | zero => exact absurd rfl hc
      | succ c => simp
  have hrr : removeRecentEvents s [] er.event.aggType er.event.aggId =
      ({ s with
          streams := setMap s.streams (getStream er.event.aggType er.event.aggId)
            (some (get s.streams (getStream er.event.aggType er.event.aggId)))
          aggTypes := setMap s.aggTypes er.event.aggType (some (get s.aggTypes er.event.aggType)) },
        false) := by
    simp [removeRecentEvents, rTrim]
  have hres : saveEvents z s st (some e) cancelAt (er :: ers) =
      ⟨(removeRecentEvents s [] er.event.aggType er.event.aggId).1, .err (.unexpected e n), []⟩ := by
    simp [saveEvents, saveLoop, hl, hctx, saveEvent, hn', hne, hrr]
  rw [hres]
  refine ⟨rfl, rfl, ?_⟩
  rw [hrr]
  refine sameReads_of rfl rfl ?_ ?_ rfl
  · intro n'; simp only [get_setMap]; split
    · rename_i h; rw [h]
    · rfl
  · intro n'; simp only [get_setMap]; split
    · rename_i h; rw [h]
    · rfl

/-- **C05**, match: in every history, an `OptimisticSave` that succeeds expected exactly the stream's
current number. -/
theorem C05_success_only_if_match (ops : List Op) (st : Str) (e k : Nat) (cancelAt : Option Nat)
    (ers : List EventRecord)
    (hok : (saveEvents z (run z ops) st (some e) cancelAt ers).out = .ok k) :
    totalEventsInStream (run z ops) st false = .ok e := by
  cases ers with
  | nil => simp [saveEvents] at hok
  | cons er ers =>
    have hl : (run z ops).locked = false := by
      cases hl : (run z ops).locked with
      | false => rfl
      | true => simp [saveEvents, hl] at hok
    have hn : totalEventsInStream (run z ops) st false = .ok (streamSeq (run z ops) st) := by
      simp [totalEventsInStream, hl, streamSeq]
    by_cases hc : cancelAt = some 0
    · subst hc
      simp [saveEvents, hl, saveLoop, ctxDone] at hok
    · by_cases hne : e = streamSeq (run z ops) st
      · rw [hn, hne]
      · rw [(C05_mismatch ops st e _ cancelAt er ers hc hn hne).1] at hok
        simp at hok

example : (saveEvents demo (run demo [.save sA none none [evA [1]]]) sA (some 1) none [evA [2]]).out
    = .ok 2 ∧ (saveEvents demo (run demo [.save sA none none [evA [1]]]) sA (some 3) none [evA [2]]).out
    = .err (.unexpected 3 1) := by decide

/-- **C05**, later reads: whatever (guarded) calls follow, the state reads as if the failed call had
never been made. -/
theorem C05_later_reads (hz : z.Lawful) (ops later : List Op) (hg : ∀ op ∈ ops, op.Guarded z)
    (hg' : ∀ op ∈ later, op.Guarded z) (st : Str) (e n : Nat) (cancelAt : Option Nat)
    (er : EventRecord) (ers : List EventRecord) (hge : Guarded z st (er :: ers))
    (hc : cancelAt ≠ some 0) (hn : totalEventsInStream (run z ops) st false = .ok n) (hne : e ≠ n) :
    let with' := run z (ops ++ .save st (some e) cancelAt (er :: ers) :: later)
    let without := run z (ops ++ later)
    (∀ c g, events z with' c g = events z without c g) ∧
    (∀ c k st', eventsByStream z with' c k st' = eventsByStream z without c k st') ∧
    (∀ g types, types.Nodup → eventsByAggregateTypes z with' (fun _ => none) g types
      = eventsByAggregateTypes z without (fun _ => none) g types) ∧
    (∀ st' b, totalEventsInStream with' st' b = totalEventsInStream without st' b) := by
  obtain ⟨hL, hs⟩ := run_sim hz ops hg
  have hlen : (specRun z ops).streamLen st = n := by
    rw [total_spec hs st] at hn; exact Outcome.ok.inj hn
  have hctx : ¬ ctxDone cancelAt 0 = true := by
    unfold ctxDone
    cases cancelAt with
    | none => simp
    | some c => cases c with
      | zero => exact absurd rfl hc
      | succ c => simp
  have hstep : specStep z (specRun z ops) (.save st (some e) cancelAt (er :: ers)) = specRun z ops := by
    simp only [specStep, batchProblem, firstProblem]
    rw [problem_unexpected (by simp [differs]) (by simp [differs]) hctx rfl (by rw [hlen]; exact hne)]
    simp [afterFail]
  have hrun : specRun z (ops ++ .save st (some e) cancelAt (er :: ers) :: later)
      = specRun z (ops ++ later) := by
    simp only [specRun, List.foldl_append, List.foldl_cons] at hstep ⊢
    rw [hstep]
  have h1 := run_sim hz (ops ++ .save st (some e) cancelAt (er :: ers) :: later) (by
    intro op hop
    simp only [List.mem_append, List.mem_cons] at hop
    rcases hop with h | rfl | h
    · exact hg op h
    · exact hge
    · exact hg' op h)
  have h2 := run_sim hz (ops ++ later) (by
    intro op hop
    rcases List.mem_append.mp hop with h | h
    · exact hg op h
    · exact hg' op h)
  rw [hrun] at h1
  refine ⟨fun c g => ?_, fun c k st' => ?_, fun g types hd => ?_, fun st' b => ?_⟩
  · rw [events_spec h1.2, events_spec h2.2]
  · rw [eventsByStream_spec h1.2, eventsByStream_spec h2.2]
  · rw [eventsByAggregateTypes_spec h1.2 h1.1 g types hd, eventsByAggregateTypes_spec h2.2 h2.1 g types hd]
  · cases b with
    | true => simp [totalEventsInStream, h1.2.unlocked, h2.2.unlocked]
    | false => rw [total_spec h1.2 st', total_spec h2.2 st']

/-! ## C06 -/

/-- The full claim of **C06**: a failed save changes no read. -/
def C06_full : Prop :=
  ∀ (z : Serializer), z.Lawful → ∀ (ops : List Op) (st : Str) (expected cancelAt : Option Nat)
    (ers : List EventRecord) (e : Err),
    (saveEvents z (run z ops) st expected cancelAt ers).out = .err e →
    SameReads z (run z ops) (saveEvents z (run z ops) st expected cancelAt ers).state

/-- **C06 is false**: a batch whose second event has another aggregate ID returns an error but its
first event is readable (and was never broadcast). -/
theorem C06_false : ¬ C06_full := by
  intro h
  have h' := (h demo demo_lawful [] sA none none [evA [1], ev [65] [50] [2]] .unmatchedId (by decide)).1
    none 0
  exact absurd (congrArg (fun it => it.recs.length) h') (by decide)

/-- The same with a context cancelled between the two events. -/
theorem C06_false_canceled :
    (saveEvents demo init sA none (some 1) [evA [1], evA [2]]).out = .err .canceled ∧
    (saveEvents demo init sA none (some 1) [evA [1], evA [2]]).broadcast = [] ∧
    (events demo (saveEvents demo init sA none (some 1) [evA [1], evA [2]]).state none 0).recs.length
      = 1 := by decide

/-- **C06**, the part that holds: a save that fails because of the expected number or the serializer,
or at its first event, or for lack of events, changes no read. Missing: failures at a later event for
another reason (unmatched type or ID, cancelled context), for which the claim is false. -/
theorem C06_partial (hz : z.Lawful) (ops : List Op) (hg : ∀ op ∈ ops, op.Guarded z) (st : Str)
    (expected cancelAt : Option Nat) (ers : List EventRecord) (hge : Guarded z st ers) (e : Err)
    (herr : (saveEvents z (run z ops) st expected cancelAt ers).out = .err e)
    (hcase : (∃ x a, e = .unexpected x a) ∨ e = .serialize ∨ e = .missingEvents ∨ cancelAt = some 0 ∨
      ers.length ≤ 1) :
    ∀ g st',
      events z (saveEvents z (run z ops) st expected cancelAt ers).state none g
        = events z (run z ops) none g ∧
      eventsByStream z (saveEvents z (run z ops) st expected cancelAt ers).state none g st'
        = eventsByStream z (run z ops) none g st' ∧
      (∀ types, types.Nodup →
        eventsByAggregateTypes z (saveEvents z (run z ops) st expected cancelAt ers).state
          (fun _ => none) g types
        = eventsByAggregateTypes z (run z ops) (fun _ => none) g types) ∧
      totalEventsInStream (saveEvents z (run z ops) st expected cancelAt ers).state st' false
        = totalEventsInStream (run z ops) st' false := by
  intro g st'
  obtain ⟨hL, hs⟩ := run_sim hz ops hg
  generalize specRun z ops = L at hL hs
  by_cases hne : ers = []
  · subst hne; simp [saveEvents]
  · have hspec := saveEvents_spec hz hL hs st expected cancelAt ers hge hne
    cases hp : batchProblem z L st expected cancelAt ers with
    | none => rw [(hspec.1 hp).1] at herr; simp at herr
    | some p =>
      obtain ⟨j, e'⟩ := p
      obtain ⟨h1, h2, _⟩ := hspec.2 j e' hp
      rw [h1] at herr
      cases herr
      -- the log afterwards has the same records
      have hrecs : (afterFail z.view L st ers j e).recs = L.recs := by
        have h0 : ∀ n, n = 0 → (L.append z.view st (ers.take n)).recs = L.recs := by
          rintro _ rfl; simp [Log.append, numbered]
        have hj : cancelAt = some 0 ∨ ers.length ≤ 1 → j = 0 := by
          intro hc
          cases ers with
          | nil => exact absurd rfl hne
          | cons er ers =>
            simp only [batchProblem, firstProblem] at hp
            rcases hc with hc | hc
            · rw [problem_ctx (by simp [differs]) (by simp [differs]) (by simp [hc, ctxDone])] at hp
              simp at hp; exact hp.1.symm
            · have : ers = [] := List.length_eq_zero_iff.mp (by simpa using hc)
              subst this
              simp only [firstProblem] at hp
              split at hp
              · simp at hp; exact hp.1.symm
              · simp at hp
        rcases hcase with ⟨x, a, rfl⟩ | rfl | rfl | hc | hc
        · rfl
        · rfl
        · -- `missingEvents` is never a batch problem
          exfalso
          have : ∀ (l : List EventRecord) (g q : Nat) (ex : Option Nat) (i : Nat)
              (pr : Option EventRecord) (j : Nat),
              firstProblem z.ser st cancelAt g q ex i pr l ≠ some (j, .missingEvents) := by
            intro l
            induction l with
            | nil => intros; simp [firstProblem]
            | cons a l ih =>
              intro g q ex i pr j
              simp only [firstProblem]
              split
              · rename_i e he
                intro hc
                simp only [Option.some.injEq, Prod.mk.injEq] at hc
                rw [hc.2] at he
                unfold problem at he
                split at he
                · simp at he
                split at he
                · simp at he
                split at he
                · simp at he
                split at he
                · split at he
                  · simp at he
                  · split at he <;> simp at he
                · split at he <;> simp at he
              · exact ih _ _ _ _ _ _
          exact this _ _ _ _ _ _ _ hp
        · cases e <;> first | rfl | exact h0 _ (hj (Or.inl hc))
        · cases e <;> first | rfl | exact h0 _ (hj (Or.inr hc))
      have hWF' := afterFail_WF hz hL st ers j e
      have hlen : ∀ n, (afterFail z.view L st ers j e).streamLen n = L.streamLen n := by
        intro n; simp [Log.streamLen, Log.stream, hrecs]
      have hstr : ∀ n, (afterFail z.view L st ers j e).stream n = L.stream n := by
        intro n; simp [Log.stream, hrecs]
      refine ⟨?_, ?_, ?_, ?_⟩
      · rw [events_spec h2, events_spec hs, hrecs]
      · rw [eventsByStream_spec h2, eventsByStream_spec hs, hlen, hstr]
      · intro types hd
        rw [eventsByAggregateTypes_spec h2 hWF' g types hd, eventsByAggregateTypes_spec hs hL g types hd,
          hrecs]
      · rw [total_spec h2, total_spec hs, hlen]

example : (saveEvents demo (run demo [.save sA none none [evA [1]]]) sA none none
    [evA [2], evA [255]]).out = .err .serialize ∧ Guarded demo sA [evA [2], evA [255]] :=
  ⟨by decide, Or.inl (by decide)⟩

/-! ## C07 -/

/-- The full claim of **C07**: a batch that the serializer rejects leaves every stream as it was and
does not panic. -/
def C07_full : Prop :=
  ∀ (z : Serializer), z.Lawful → ∀ (ops : List Op) (st : Str) (ers : List EventRecord),
    (run z ops).locked = false → batchProblem z (specRun z ops) st none none ers ≠ none →
    (saveEvents z (run z ops) st none none ers).out ≠ .panic ∧
    ∀ n, eventsByStream z (saveEvents z (run z ops) st none none ers).state none 0 n
      = eventsByStream z (run z ops) none 0 n

/-- **C07 is false** (panic): a rejected batch saved to stream "S" (events of type "A", ID "1", for
which no stream "A!1" exists) panics while the store's lock is held. -/
theorem C07_false : ¬ C07_full := by
  intro h
  exact (h demo demo_lawful [] [83] [evA [1], evA [255]] rfl (by decide)).1 (by decide)

/-- After that panic every later save blocks. -/
theorem C07_panic_blocks :
    (saveEvents demo (saveEvents demo init [83] none none [evA [1], evA [255]]).state
      sB none none [evB [1]]).out = .blocked := by decide

/-- **C07 is false** (corruption): if stream "A!1" exists, the rejected batch for stream "S" removes the
newest event of "A!1" from its index and leaves a dangling one in "S". -/
theorem C07_corrupts :
    (eventsByStream demo (run demo [.save sA none none [evA [1]]]) none 0 sA).recs.length = 1 ∧
    (saveEvents demo (run demo [.save sA none none [evA [1]]]) [83] none none [evA [2], evA [255]]).out
      = .err .serialize ∧
    eventsByStream demo (saveEvents demo (run demo [.save sA none none [evA [1]]]) [83] none none
      [evA [2], evA [255]]).state none 0 sA = ⟨[], some .notFound⟩ ∧
    eventsByStream demo (saveEvents demo (run demo [.save sA none none [evA [1]]]) [83] none none
      [evA [2], evA [255]]).state none 0 [83] = ⟨[], some .recordMissing⟩ := by decide

/-- **C07**, the part that holds: if the stream is named after the events' aggregate type and ID (or
the batch is guarded otherwise), a batch the serializer rejects leaves every read as it was. Missing:
batches of two or more events for other stream names, for which the claim is false. -/
theorem C07_partial (hz : z.Lawful) (ops : List Op) (hg : ∀ op ∈ ops, op.Guarded z) (st : Str)
    (expected cancelAt : Option Nat) (ers : List EventRecord) (hge : Guarded z st ers) (j : Nat)
    (hrej : batchProblem z (specRun z ops) st expected cancelAt ers = some (j, .serialize))
    (n : Str) :
    (saveEvents z (run z ops) st expected cancelAt ers).out = .err .serialize ∧
    eventsByStream z (saveEvents z (run z ops) st expected cancelAt ers).state none 0 n
      = eventsByStream z (run z ops) none 0 n := by
  obtain ⟨hL, hs⟩ := run_sim hz ops hg
  have hne : ers ≠ [] := by rintro rfl; simp [batchProblem, firstProblem] at hrej
  have h1 := ((saveEvents_spec hz hL hs st expected cancelAt ers hge hne).2 j _ hrej).1
  exact ⟨h1, (C06_partial hz ops hg st expected cancelAt ers hge .serialize h1
    (Or.inr (Or.inl rfl)) 0 n).2.1⟩

example : batchProblem demo (specRun demo [.save sA none none [evA [1]]]) sA none none
    [evA [2], evA [255]] = some (1, .serialize) := by decide

/-! ## C08 -/

/-- The full claim of **C08**, first half: a delete succeeds only if the stream has events and
`expected` is their number; a delete of a stream without events returns `ErrStreamNotFound`. -/
def C08_full : Prop :=
  ∀ (z : Serializer), z.Lawful → ∀ (ops : List Op), (∀ op ∈ ops, op.Guarded z) → ∀ (st : Str) (e n : Nat),
    totalEventsInStream (run z ops) st false = .ok n →
    (n = 0 → (deleteStream (run z ops) st e false).2 = .err .notFound) ∧
    (n ≠ 0 → e ≠ n → (deleteStream (run z ops) st e false).2 = .err (.unexpected e n)) ∧
    (n ≠ 0 → e = n → (deleteStream (run z ops) st e false).2 = .ok ())

/-- **C08 is false** in one corner: after a failed first save the stream key exists without events, and
a delete expecting 0 then succeeds instead of returning `ErrStreamNotFound`. -/
theorem C08_false : ¬ C08_full := by
  intro h
  have := (h demo demo_lawful [.save sA (some 5) none [evA [1]]] (by
    intro op hop; simp only [List.mem_singleton] at hop; subst hop; exact Or.inl (by decide))
    sA 0 0 (by decide)).1 rfl
  exact absurd this (by decide)

/-- **C08**, what holds in every guarded history. For a stream with `n > 0` events: a delete succeeds
iff `expected = n`, and then every read is the previous one minus the records of the stream; otherwise
it returns `UnexpectedSequenceNumber{expected, n}` and changes nothing. For a stream without events it
changes no read, and returns `ErrStreamNotFound` unless an earlier save of an event it is named after was rejected
(`C08_not_found` and `C08_found_empty` say when). Missing: `ErrStreamNotFound` in that last case, for which the claim
is false. -/
theorem C08_partial (hz : z.Lawful) (ops : List Op) (hg : ∀ op ∈ ops, op.Guarded z) (st : Str)
    (e n : Nat) (hn : totalEventsInStream (run z ops) st false = .ok n) :
    (n ≠ 0 → e ≠ n → deleteStream (run z ops) st e false = (run z ops, .err (.unexpected e n))) ∧
    (n ≠ 0 → e = n → (deleteStream (run z ops) st e false).2 = .ok () ∧
      (∀ g, events z (deleteStream (run z ops) st e false).1 none g =
        ⟨(events z (run z ops) none g).recs.filter (fun r => r.streamName ≠ st), none⟩) ∧
      (∀ c k st', st' ≠ st → eventsByStream z (deleteStream (run z ops) st e false).1 c k st'
        = eventsByStream z (run z ops) c k st') ∧
      (∀ c k, eventsByStream z (deleteStream (run z ops) st e false).1 c k st
        = ⟨[], some .notFound⟩) ∧
      (∀ g types, types.Nodup →
        eventsByAggregateTypes z (deleteStream (run z ops) st e false).1 (fun _ => none) g types =
        ⟨(eventsByAggregateTypes z (run z ops) (fun _ => none) g types).recs.filter
          (fun r => r.streamName ≠ st), none⟩)) ∧
    (n = 0 →
      (∀ c g, events z (deleteStream (run z ops) st e false).1 c g = events z (run z ops) c g) ∧
      (∀ c k st', eventsByStream z (deleteStream (run z ops) st e false).1 c k st'
        = eventsByStream z (run z ops) c k st') ∧
      ((deleteStream (run z ops) st e false).2 = .err .notFound ∨
       (e ≠ 0 ∧ (deleteStream (run z ops) st e false).2 = .err (.unexpected e 0)) ∨
       (e = 0 ∧ (deleteStream (run z ops) st e false).2 = .ok ()))) := by
  obtain ⟨hL, hs⟩ := run_sim hz ops hg
  generalize specRun z ops = L at hL hs
  have hlen : n = L.streamLen st := by
    rw [total_spec hs st] at hn; exact (Outcome.ok.inj hn).symm
  subst hlen
  have hd := deleteStream_spec hL hs st e false
  refine ⟨hd.2.1 rfl, ?_, ?_⟩
  · intro h0 hx
    obtain ⟨h1, h2⟩ := hd.2.2.1 rfl h0 hx
    have hlen0 : (L.delete st).streamLen st = 0 := by
      simp [Log.streamLen, Log.stream_delete_self]
    refine ⟨h1, ?_, ?_, ?_, ?_⟩
    · intro g
      rw [events_spec h2, events_spec hs]
      simp only [cut, Log.delete, List.filter_filter]
      congr 1
      apply List.filter_congr
      intro r _
      rw [Bool.and_comm]
    · intro c k st' hne
      rw [eventsByStream_spec h2, eventsByStream_spec hs, Log.streamLen, Log.streamLen,
        Log.stream_delete_other L hne]
    · intro c k
      rw [eventsByStream_spec h2, if_pos hlen0]
    · intro g types hty
      rw [eventsByAggregateTypes_spec h2 (hL.delete st) g types hty,
        eventsByAggregateTypes_spec hs hL g types hty]
      simp only [Log.delete, List.filter_filter]
      congr 1
      apply List.filter_congr
      intro r _
      rw [Bool.and_comm]
  · intro h0
    obtain ⟨h1, h2⟩ := hd.2.2.2 rfl h0
    refine ⟨?_, ?_, ?_⟩
    · intro c g; rw [events_spec h1, events_spec hs]
    · intro c k st'; rw [eventsByStream_spec h1, eventsByStream_spec hs]
    · rcases h2 with ⟨_, h⟩ | h | h
      · exact Or.inl h
      · exact Or.inr (Or.inl h)
      · exact Or.inr (Or.inr h)

example : (deleteStream (run demo [.save sA none none [evA [1], evA [2]], .save sB none none [evB [1]]])
    sA 2 false).2 = .ok () ∧
  (deleteStream (run demo [.save sA none none [evA [1], evA [2]]]) sA 1 false).2
    = .err (.unexpected 1 2) ∧
  (deleteStream (run demo [.save sA none none [evA [1], evA [2]]]) sB 1 false).2 = .err .notFound := by
  decide

/-- A cancelled delete changes nothing. -/
theorem C08_cancelled (s : State) (st : Str) (e : Nat) :
    deleteStream s st e true = (s, .err .canceled) := by simp [deleteStream]

/-! ## C09 -/

/-- **C09**, every history: a record readable after `ops` and a record readable after `ops ++ later`
that have the same global sequence number are the same record. -/
theorem C09_gsn_never_reused (hz : z.Lawful) (ops later : List Op) (r r' : Record)
    (h1 : r ∈ (events z (run z ops) none 0).recs)
    (h2 : r' ∈ (events z (run z (ops ++ later)) none 0).recs) (he : r.gsn = r'.gsn) : r = r' := by
  obtain ⟨L, hL⟩ := run_E hz ops
  obtain ⟨L', hL', hlate⟩ := foldl_E hz later hL
  rw [events_E_zero hL] at h1
  have : run z (ops ++ later) = later.foldl (step z) (run z ops) := by simp [run]
  rw [this, events_E_zero hL'] at h2
  rcases hlate.2 r' h2 with h | h
  · exact hL.mem_gsn h1 h he
  · have := hL.bounded r h1; omega

/-- Deleting the newest events does not free their numbers. -/
example : (events demo (run demo [.save sA none none [evA [1], evA [2]], .delete sA 2 false,
    .save sA none none [evA [1]]]) none 0).recs.map (fun r => (r.gsn, r.seq)) = [(3, 1)] := by decide

/-! ## C10 -/

/-- **C10.** Any guarded call addressed to stream `s`, whatever its outcome, leaves every other stream's
`EventsByStream` and `TotalEventsInStream` unchanged. -/
theorem C10_isolation (hz : z.Lawful) (ops : List Op) (op : Op) (hg : ∀ o ∈ ops, o.Guarded z)
    (hgo : op.Guarded z) (other : Str)
    (hother : match op with
      | .save st _ _ _ => other ≠ st
      | .delete st _ _ => other ≠ st) (c : Option Nat) (k : Nat) :
    eventsByStream z (step z (run z ops) op) c k other = eventsByStream z (run z ops) c k other ∧
    totalEventsInStream (step z (run z ops) op) other false
      = totalEventsInStream (run z ops) other false := by
  obtain ⟨hL, hs⟩ := run_sim hz ops hg
  generalize specRun z ops = L at hL hs
  have h' := step_sim hz hL hs op hgo
  have hstr : (specStep z L op).stream other = L.stream other := by
    cases op with
    | save st expected cancelAt ers =>
      simp only at hother
      simp only [specStep]
      split
      · rfl
      · split
        · exact Log.stream_append_other hz L ers hother
        · rename_i j e _
          cases e <;> first | rfl | exact Log.stream_append_other hz L _ hother
    | delete st expected cancelled =>
      simp only at hother
      simp only [specStep]
      split
      · exact Log.stream_delete_other L hother
      · rfl
  rw [eventsByStream_spec h', eventsByStream_spec hs, total_spec h', total_spec hs, Log.streamLen,
    Log.streamLen, hstr]
  exact ⟨rfl, rfl⟩

example : (Op.save sA none (some 1) [evA [1], evA [2]]).Guarded demo ∧ sB ≠ sA :=
  ⟨Or.inl (by decide), by decide⟩

/-- The guard of **C10** and **C02** cannot be dropped: a batch for stream "S", whose events belong to
aggregate "A!1", is rejected at its second event; the rollback empties the stream "A!1", which the call
did not address, and leaves "S" counting an event that cannot be read. -/
theorem C10_guard_needed :
    let ops : List Op := [.save sA none none [evA [1]]]
    let op : Op := .save [83] none none [evA [2], evA [255]]
    sA ≠ [83] ∧ ¬ op.Guarded demo ∧
    (eventsByStream demo (run demo ops) none 0 sA).recs.length = 1 ∧
    eventsByStream demo (step demo (run demo ops) op) none 0 sA = ⟨[], some .notFound⟩ ∧
    totalEventsInStream (step demo (run demo ops) op) [83] false = .ok 1 ∧
    eventsByStream demo (step demo (run demo ops) op) none 0 [83] = ⟨[], some .recordMissing⟩ := by
  refine ⟨by decide, ?_, by decide, by decide, by decide, by decide⟩
  rintro (h | h | h)
  · exact absurd (h _ (List.mem_cons_self)) (by decide)
  · exact absurd (h (evA [255]) (by decide) 0 0) (by decide)
  · exact absurd h (by decide)

end RangeDB.IM

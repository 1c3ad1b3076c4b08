import Verif.Model.InMemory
import Verif.Proof.Log

/-! # Simulation between the in-memory store and the abstract log: saves -/

namespace RangeDB.IM

variable {z : Serializer}

/-- The store state `s` represents the log `L`. -/
structure Sim (z : Serializer) (s : State) (L : Log) : Prop where
  unlocked : s.locked = false
  gsn : s.gsn = L.last
  records : s.records = L.recs.map (·.gsn)
  data : ∀ r ∈ L.recs, ∃ b, s.data r.gsn = some b ∧ z.deser b = some r
  noData : ∀ g, g ∉ L.recs.map (·.gsn) → s.data g = none
  streams : ∀ n, get s.streams n = (L.stream n).map (·.gsn)
  aggTypes : ∀ t, get s.aggTypes t = (L.recs.filter (fun r => r.aggType = t)).map (·.gsn)

theorem sim_init : Sim z init Log.empty where
  unlocked := rfl
  gsn := rfl
  records := rfl
  data := by simp [Log.empty]
  noData := by simp [init]
  streams := by simp [init, Log.empty, get, Log.stream]
  aggTypes := by simp [init, Log.empty, get]

theorem Sim.streamSeq {s : State} {L : Log} (h : Sim z s L) (n : Str) :
    IM.streamSeq s n = L.streamLen n := by
  simp [IM.streamSeq, h.streams, Log.streamLen]

theorem get_setMap (m : Str → Option (List Nat)) (k k' : Str) (v : List Nat) :
    get (setMap m k (some v)) k' = if k' = k then v else get m k' := by
  simp only [get, setMap]; split <;> simp_all

theorem saveEvent_ok (hz : z.Lawful) {s : State} {L : Log} (h : Sim z s L) (hL : L.WF) {st : Str}
    {expected : Option Nat} {er : EventRecord} {b : Str}
    (hser : z.ser (mkRecord st (L.last + 1) (L.streamLen st + 1) er) = some b)
    (hexp : ∀ e, expected = some e → e = L.streamLen st) :
    ∃ s1, saveEvent z s st expected er
        = (s1, .ok (b, mkRecord st (L.last + 1) (L.streamLen st + 1) er)) ∧
      Sim z s1 (L.append z.view st [er]) := by
  have hstore : saveEvent z s st expected er
      = saveEvent.store z s st (L.streamLen st) er := by
    unfold saveEvent
    cases expected with
    | none => simp [h.streamSeq]
    | some e => simp [h.streamSeq, hexp e rfl]
  rw [hstore]
  unfold saveEvent.store
  simp only [h.gsn, hser]
  refine ⟨_, rfl, ?_⟩
  constructor
  · exact h.unlocked
  · simp [Log.append]
  · simp [Log.append, h.records, numbered, mkRecord, hz.gsn]
  · intro r hr
    simp only [Log.append, numbered, List.map_cons, List.map_nil, List.mem_append,
      List.mem_singleton] at hr
    rcases hr with hr | rfl
    · have := hL.bounded r hr
      simp only [setMap]
      rw [if_neg (by omega)]
      exact h.data r hr
    · refine ⟨b, ?_, hz.roundTrip _ _ hser⟩
      simp [setMap, hz.gsn, mkRecord]
  · intro g hg
    simp only [Log.append, numbered, List.map_append, List.map_cons, List.map_nil, hz.gsn,
      List.mem_append, List.mem_singleton, not_or, mkRecord] at hg
    simp only [setMap]
    rw [if_neg hg.2]
    exact h.noData g hg.1
  · intro n
    simp only [get_setMap]
    by_cases hn : n = st
    · subst hn
      rw [Log.stream_append_self hz]
      simp [h.streams, numbered, mkRecord, hz.gsn]
    · rw [if_neg hn, Log.stream_append_other hz L _ hn, h.streams]
  · intro t
    simp only [get_setMap, Log.append, numbered, List.filter_append]
    by_cases ht : t = er.event.aggType
    · subst ht
      simp [h.aggTypes, mkRecord, hz.gsn, hz.aggType]
    · have : ¬ er.event.aggType = t := fun e => ht e.symm
      simp [h.aggTypes, mkRecord, hz.aggType, ht, this]

theorem saveEvent_noser {s : State} {L : Log} (h : Sim z s L) {st : Str}
    {expected : Option Nat} {er : EventRecord}
    (hser : z.ser (mkRecord st (L.last + 1) (L.streamLen st + 1) er) = none)
    (hexp : ∀ e, expected = some e → e = L.streamLen st) :
    saveEvent z s st expected er = ({ s with gsn := s.gsn + 1 }, .error .serialize) := by
  have hstore : saveEvent z s st expected er
      = saveEvent.store z s st (L.streamLen st) er := by
    unfold saveEvent
    cases expected with
    | none => simp [h.streamSeq]
    | some e => simp [h.streamSeq, hexp e rfl]
  rw [hstore]
  unfold saveEvent.store
  simp only [h.gsn, hser]

theorem saveEvent_unexpected {s : State} {L : Log} (h : Sim z s L) {st : Str}
    {e : Nat} {er : EventRecord} (hexp : e ≠ L.streamLen st) :
    saveEvent z s st (some e) er = (s, .error (.unexpected e (L.streamLen st))) := by
  simp [saveEvent, h.streamSeq, hexp]

theorem foldl_erase (gsns : List Nat) (d : Nat → Option Str) (g : Nat) :
    (gsns.foldl (fun d g => setMap d g none) d) g = if g ∈ gsns then none else d g := by
  induction gsns generalizing d with
  | nil => simp
  | cons x xs ih =>
    simp only [List.foldl_cons, ih, List.mem_cons, setMap]
    by_cases h1 : g ∈ xs <;> by_cases h2 : g = x <;> simp [h1, h2]

theorem rTrim_append (a b : List Nat) (n : Nat) (h : n = b.length) : rTrim (a ++ b) n = some a := by
  subst h; simp [rTrim]

theorem removeRecent_sim (hz : z.Lawful) {L0 : Log} (hL0 : L0.WF) {s : State} {st T I : Str}
    {done : List EventRecord} (h : Sim z s (L0.append z.view st done)) (k : Nat)
    (hT : ∀ er ∈ done, er.event.aggType = T) (hst : done ≠ [] → st = getStream T I) :
    ∃ s2, removeRecentEvents { s with gsn := s.gsn + k }
        ((numbered st L0.last (L0.streamLen st) done).map (·.gsn)) T I = (s2, false) ∧
      Sim z s2 { L0 with last := L0.last + k } := by
  have hnew : ((numbered st L0.last (L0.streamLen st) done).map z.view).map (·.gsn)
      = (numbered st L0.last (L0.streamLen st) done).map (·.gsn) := view_gsn_map hz _
  have hrec : s.records = L0.recs.map (·.gsn) ++
      (numbered st L0.last (L0.streamLen st) done).map (·.gsn) := by
    rw [h.records]; simp [Log.append, hz.gsn]
  have hstream : ∃ l, rTrim (get s.streams (getStream T I)) done.length = some l ∧
      l = (L0.stream (getStream T I)).map (·.gsn) := by
    refine ⟨_, ?_, rfl⟩
    rw [h.streams]
    by_cases hd : done = []
    · subst hd; simp only [Log.append, numbered, rTrim, Log.stream]; simp
      rw [List.take_of_length_le (by simp)]
    · rw [← hst hd, Log.stream_append_self hz, List.map_append, hnew]
      apply rTrim_append; simp
  have htype : rTrim (get s.aggTypes T) done.length =
      some ((L0.recs.filter (fun r => r.aggType = T)).map (·.gsn)) := by
    rw [h.aggTypes]
    simp only [Log.append, List.filter_append, List.map_append]
    apply rTrim_append
    rw [List.length_map, List.filter_eq_self.mpr]
    · simp
    · intro r hr
      rw [List.mem_map] at hr
      obtain ⟨r', h1, rfl⟩ := hr
      obtain ⟨er, h2, h3⟩ := numbered_aggType h1
      simp [hz.aggType, h3, hT er h2]
  obtain ⟨l, hl1, hl2⟩ := hstream
  unfold removeRecentEvents
  simp only [List.length_map, numbered_length]
  rw [hrec, rTrim_append _ _ _ (by simp), hl1]
  simp only [htype]
  refine ⟨_, rfl, ?_⟩
  constructor
  · exact h.unlocked
  · simp only [h.gsn, Log.append]; omega
  · rfl
  · intro r hr
    have hb := hL0.bounded r hr
    simp only [foldl_erase]
    rw [if_neg]
    · exact h.data r (by simp [Log.append]; exact Or.inl hr)
    · rw [numbered_gsn_range, List.mem_range'_1]; omega
  · intro g hg
    simp only [foldl_erase]
    split
    · rfl
    · rename_i hg2
      apply h.noData
      simp only [Log.append, List.map_append, List.mem_append, not_or, hnew]
      exact ⟨hg, hg2⟩
  · intro n
    simp only [get_setMap]
    split
    · rename_i hn; subst hn; rw [hl2]; rfl
    · rename_i hn
      rw [h.streams]
      by_cases hns : n = st
      · have hd : done = [] := by
          apply Classical.byContradiction; intro hd
          exact hn (hns.trans (hst hd))
        subst hd; simp [Log.append, numbered, Log.stream]
      · rw [Log.stream_append_other hz L0 done hns]; rfl
  · intro t
    simp only [get_setMap]
    split
    · rename_i ht; subst ht; rfl
    · rename_i ht
      rw [h.aggTypes]
      simp only [Log.append, List.filter_append]
      suffices h0 : ((numbered st L0.last (L0.streamLen st) done).map z.view).filter
          (fun r => r.aggType = t) = [] by rw [h0, List.append_nil]
      rw [List.filter_eq_nil_iff]
      intro r hr
      rw [List.mem_map] at hr
      obtain ⟨r', h1, rfl⟩ := hr
      obtain ⟨er, h2, h3⟩ := numbered_aggType h1
      simp only [hz.aggType, h3, hT er h2, decide_eq_true_eq]
      exact fun h' => ht h'.symm

/-- If two events have the same canonical stream name and pass the batch checks, they have the same
aggregate type and ID. -/
theorem canonical_same {t1 i1 t2 i2 : Str} (h : getStream t1 i1 = getStream t2 i2)
    (h1 : ¬ (t1 ≠ [] ∧ t1 ≠ t2)) (h2 : ¬ (i1 ≠ [] ∧ i1 ≠ i2)) : t1 = t2 ∧ i1 = i2 := by
  simp only [getStream] at h
  by_cases hc : t1 = t2
  · subst hc; simpa using h
  · have ht : t1 = [] := by
      apply Classical.byContradiction; intro h'; exact h1 ⟨h', hc⟩
    by_cases hi : i1 = i2
    · subst hi
      exact ⟨by simpa using h, rfl⟩
    · have hi' : i1 = [] := by
        apply Classical.byContradiction; intro h'; exact h2 ⟨h', hi⟩
      subst ht hi'
      have := congrArg List.length h
      simp at this
      have a1 : t2 = [] := by apply List.length_eq_zero_iff.mp; omega
      have a2 : i2 = [] := by apply List.length_eq_zero_iff.mp; omega
      exact ⟨a1.symm, a2.symm⟩

section problemLemmas
variable {acc : Bool} {len i : Nat} {expected cancelAt : Option Nat} {prev : Option EventRecord}
  {er : EventRecord}

theorem problem_type (h : differs Event.aggType prev er = true) :
    problem acc len expected cancelAt i prev er = some .unmatchedType := by simp [problem, h]

theorem problem_id (h1 : ¬ differs Event.aggType prev er = true)
    (h : differs Event.aggId prev er = true) :
    problem acc len expected cancelAt i prev er = some .unmatchedId := by simp [problem, h, h1]

theorem problem_ctx (h1 : ¬ differs Event.aggType prev er = true)
    (h2 : ¬ differs Event.aggId prev er = true) (h : ctxDone cancelAt i = true) :
    problem acc len expected cancelAt i prev er = some .canceled := by simp [problem, h, h1, h2]

theorem problem_unexpected (h1 : ¬ differs Event.aggType prev er = true)
    (h2 : ¬ differs Event.aggId prev er = true) (h3 : ¬ ctxDone cancelAt i = true) {e : Nat}
    (he : expected = some e) (hne : e ≠ len) :
    problem acc len expected cancelAt i prev er = some (.unexpected e len) := by
  simp [problem, h1, h2, h3, he, hne]

theorem problem_ser (h1 : ¬ differs Event.aggType prev er = true)
    (h2 : ¬ differs Event.aggId prev er = true) (h3 : ¬ ctxDone cancelAt i = true)
    (he : ∀ e, expected = some e → e = len) :
    problem acc len expected cancelAt i prev er = if acc then none else some .serialize := by
  cases expected with
  | none => simp [problem, h1, h2, h3]
  | some e => simp [problem, h1, h2, h3, he e rfl]

end problemLemmas

theorem saveLoop_spec (hz : z.Lawful) {L0 : Log} (hL0 : L0.WF) (st : Str)
    (cancelAt exp0 : Option Nat) :
    ∀ (ers done : List EventRecord) (s : State) (pending : List Str) (prev : Option EventRecord)
      (pt pid : Str) (last : Nat),
      Sim z s (L0.append z.view st done) →
      pending.filterMap z.deser = (numbered st L0.last (L0.streamLen st) done).map z.view →
      last = (if done = [] then 0 else L0.streamLen st + done.length) →
      (done ≠ [] → ∀ e, exp0 = some e → e = L0.streamLen st) →
      (Guarded z st (done ++ ers) ∨ ∀ j, firstProblem z.ser st cancelAt (L0.last + done.length)
        (L0.streamLen st + done.length) (exp0.map (· + done.length)) done.length prev ers
          ≠ some (j, .serialize)) →
      ((prev = none ∧ done = [] ∧ pt = [] ∧ pid = []) ∨
        ∃ p, prev = some p ∧ done ≠ [] ∧ pt = p.event.aggType ∧ pid = p.event.aggId ∧ p ∈ done) →
      ((∀ er ∈ done ++ ers, st = getStream er.event.aggType er.event.aggId) →
        ∀ a ∈ done, a.event.aggType = pt ∧ a.event.aggId = pid) →
      let res := saveLoop z st cancelAt done.length s pt pid (exp0.map (· + done.length))
        ((numbered st L0.last (L0.streamLen st) done).map (·.gsn)) pending last ers
      let fp := firstProblem z.ser st cancelAt (L0.last + done.length)
        (L0.streamLen st + done.length) (exp0.map (· + done.length)) done.length prev ers
      (fp = none → ∃ s' pend, res = (s', .ok ((if done ++ ers = [] then 0 else
            L0.streamLen st + (done ++ ers).length), pend)) ∧
          Sim z s' (L0.append z.view st (done ++ ers)) ∧
          pend.filterMap z.deser
            = (numbered st L0.last (L0.streamLen st) (done ++ ers)).map z.view) ∧
      (∀ j e, fp = some (j, e) → ∃ s', res = (s', .err e) ∧
          Sim z s' (afterFail z.view L0 st (done ++ ers) j e)) := by
  intro ers
  induction ers with
  | nil =>
    intro done s pending prev pt pid last hs hp hlast hexp hg hprev hu
    simp only [firstProblem, saveLoop, List.append_nil]
    refine ⟨fun _ => ⟨s, pending, by rw [hlast], hs, hp⟩, by simp⟩
  | cons er ers ih =>
    intro done s pending prev pt pid last hs hp hlast hexp hg hprev hu
    have hlen : (L0.append z.view st done).streamLen st = L0.streamLen st + done.length :=
      Log.streamLen_append_self hz L0 st done
    have hWF : (L0.append z.view st done).WF := hL0.append hz st done
    have hlastE : (L0.append z.view st done).last = L0.last + done.length := rfl
    simp only [firstProblem, saveLoop]
    -- the batch checks
    have hc1 : differs Event.aggType prev er = true ↔
        (pt ≠ [] ∧ pt ≠ er.event.aggType) := by
      rcases hprev with ⟨rfl, _, rfl, rfl⟩ | ⟨p, rfl, _, rfl, rfl, _⟩ <;> simp [differs]
    have hc2 : differs Event.aggId prev er = true ↔
        (pid ≠ [] ∧ pid ≠ er.event.aggId) := by
      rcases hprev with ⟨rfl, _, rfl, rfl⟩ | ⟨p, rfl, _, rfl, rfl, _⟩ <;> simp [differs]
    have htake : (done ++ er :: ers).take done.length = done := by simp
    by_cases h1 : pt ≠ [] ∧ pt ≠ er.event.aggType
    · rw [if_pos h1, problem_type (hc1.mpr h1)]
      refine ⟨by simp, ?_⟩
      rintro j e ⟨⟩
      exact ⟨s, rfl, by simpa [afterFail] using hs⟩
    have h1' : ¬ differs Event.aggType prev er = true := fun h => h1 (hc1.mp h)
    rw [if_neg h1]
    by_cases h2 : pid ≠ [] ∧ pid ≠ er.event.aggId
    · rw [if_pos h2, problem_id h1' (hc2.mpr h2)]
      refine ⟨by simp, ?_⟩
      rintro j e ⟨⟩
      exact ⟨s, rfl, by simpa [afterFail] using hs⟩
    have h2' : ¬ differs Event.aggId prev er = true := fun h => h2 (hc2.mp h)
    rw [if_neg h2]
    by_cases h3 : ctxDone cancelAt done.length
    · rw [if_pos h3, problem_ctx h1' h2' h3]
      refine ⟨by simp, ?_⟩
      rintro j e ⟨⟩
      exact ⟨s, rfl, by simpa [afterFail] using hs⟩
    rw [if_neg h3]
    -- facts for a rollback
    have hcanon : (∀ er' ∈ done ++ er :: ers, st = getStream er'.event.aggType er'.event.aggId) →
        ∀ a ∈ done, a.event.aggType = er.event.aggType ∧ a.event.aggId = er.event.aggId := by
      intro hcan a ha
      have hpa := hu hcan a ha
      have e1 := hcan a (by simp [ha])
      have e2 := hcan er (by simp)
      rw [hpa.1, hpa.2] at e1
      have := canonical_same (e1.symm.trans e2) h1 h2
      exact ⟨hpa.1.trans this.1, hpa.2.trans this.2⟩
    have hroll : ∀ k, ((∀ er' ∈ done ++ er :: ers,
          st = getStream er'.event.aggType er'.event.aggId) ∨ done = []) →
        ∃ s2, removeRecentEvents { s with gsn := s.gsn + k }
          ((numbered st L0.last (L0.streamLen st) done).map (·.gsn))
          er.event.aggType er.event.aggId = (s2, false) ∧
        Sim z s2 { L0 with last := L0.last + k } := by
      intro k hcase
      apply removeRecent_sim hz hL0 hs k
      · rcases hcase with hcan | rfl
        · exact fun a ha => (hcanon hcan a ha).1
        · simp
      · rcases hcase with hcan | rfl
        · intro _; exact hcan er (by simp)
        · simp
    by_cases h4 : ∀ e, (exp0.map (· + done.length)) = some e → e = L0.streamLen st + done.length
    · -- the expected number matches
      rw [problem_ser h1' h2' h3 h4]
      cases hser : z.ser (mkRecord st (L0.last + done.length + 1)
          (L0.streamLen st + done.length + 1) er) with
      | none =>
        rw [saveEvent_noser hs (by rw [hlen, hlastE]; exact hser) (by rw [hlen]; exact h4)]
        have hcase : (∀ er' ∈ done ++ er :: ers,
            st = getStream er'.event.aggType er'.event.aggId) ∨ done = [] := by
          rcases hg with (hg | hg | hg) | hg
          · exact Or.inl hg
          · have := hg er (by simp) (L0.last + done.length + 1) (L0.streamLen st + done.length + 1)
            rw [hser] at this; simp at this
          · right; simp at hg
            apply List.length_eq_zero_iff.mp; omega
          · refine absurd ?_ (hg done.length)
            simp only [firstProblem, problem_ser h1' h2' h3 h4, hser, Option.isSome_none,
              Bool.false_eq_true, if_false]
        obtain ⟨s2, hr1, hr2⟩ := hroll 1 hcase
        simp only [Option.isSome_none, Bool.false_eq_true, if_false]
        refine ⟨by simp, ?_⟩
        rintro j e ⟨⟩
        refine ⟨s2, by rw [hr1], by simpa [afterFail] using hr2⟩
      | some b =>
        obtain ⟨s1, hse, hsim⟩ := saveEvent_ok hz hs hWF (st := st) (er := er) (b := b)
          (by rw [hlen, hlastE]; exact hser) (by rw [hlen]; exact h4)
        rw [hse]
        simp only [Option.isSome_some, if_true]
        rw [Log.append_append hz] at hsim
        have hnum : numbered st L0.last (L0.streamLen st) (done ++ [er]) =
            numbered st L0.last (L0.streamLen st) done ++
              [mkRecord st (L0.last + done.length + 1) (L0.streamLen st + done.length + 1) er] := by
          rw [numbered_append]; rfl
        have hexp' : ∀ e, exp0 = some e → e = L0.streamLen st := by
          intro e he; have := h4 (e + done.length) (by simp [he]); omega
        have hib := ih (done ++ [er]) s1 (pending ++ [b]) (some er) er.event.aggType er.event.aggId
          (L0.streamLen st + done.length + 1) hsim
          (by rw [List.filterMap_append, hp, hnum, List.map_append]
              simp [hz.roundTrip _ _ hser])
          (by simp; omega) (fun _ => hexp') (by
            rcases hg with hg | hg
            · exact Or.inl (by simpa using hg)
            · right
              intro j hj
              apply hg j
              simp only [firstProblem, problem_ser h1' h2' h3 h4, hser, Option.isSome_some, if_true]
              rw [← hj]
              cases exp0 <;> simp [Nat.add_assoc])
          (Or.inr ⟨er, rfl, by simp, rfl, rfl, by simp⟩)
          (by
            intro hcan a ha
            simp only [List.mem_append, List.mem_singleton] at ha
            rcases ha with ha | rfl
            · exact hcanon (by simpa using hcan) a ha
            · exact ⟨rfl, rfl⟩)
        have hmap : (exp0.map (· + done.length)).map (· + 1)
            = exp0.map (· + (done ++ [er]).length) := by
          cases exp0 with
          | none => rfl
          | some e => simp; omega
        simp only [List.append_assoc, List.cons_append, List.nil_append] at hib
        have hgs : List.map (·.gsn) (numbered st L0.last (L0.streamLen st) done) ++
            [(mkRecord st ((L0.append z.view st done).last + 1)
              ((L0.append z.view st done).streamLen st + 1) er).gsn] =
            List.map (·.gsn) (numbered st L0.last (L0.streamLen st) (done ++ [er])) := by
          rw [hnum]; simp [mkRecord, hlastE]
        rw [hmap, hgs]
        have hl1 : (done ++ [er]).length = done.length + 1 := by simp
        rw [hl1] at hib ⊢
        have hseq : (mkRecord st ((L0.append z.view st done).last + 1)
              ((L0.append z.view st done).streamLen st + 1) er).seq
              = L0.streamLen st + done.length + 1 := by simp [mkRecord, hlen]
        rw [hseq]
        exact hib
    · -- the expected number does not match: only possible for the first event
      obtain ⟨e, he, hne⟩ : ∃ e, exp0.map (· + done.length) = some e ∧
          e ≠ L0.streamLen st + done.length := by
        apply Classical.byContradiction
        intro hno
        apply h4
        intro e he
        apply Classical.byContradiction
        intro hne
        exact hno ⟨e, he, hne⟩
      have hd : done = [] := by
        apply Classical.byContradiction
        intro hd
        cases hx : exp0 with
        | none => simp [hx] at he
        | some e0 =>
          have := hexp hd e0 hx
          simp [hx] at he
          omega
      rw [problem_unexpected h1' h2' h3 he hne, he]
      rw [saveEvent_unexpected hs (by rw [hlen]; exact hne), hlen]
      obtain ⟨s2, hr1, hr2⟩ := hroll 0 (Or.inr hd)
      refine ⟨by simp, ?_⟩
      rintro j e' ⟨⟩
      simp only [Nat.add_zero] at hr1 hr2
      change removeRecentEvents s _ _ _ = _ at hr1
      exact ⟨s2, by simp only [hr1], hr2⟩

theorem saveEvents_spec' (hz : z.Lawful) {s : State} {L : Log} (hL : L.WF) (h : Sim z s L)
    (st : Str) (expected cancelAt : Option Nat) (ers : List EventRecord)
    (hg : Guarded z st ers ∨ ∀ j, batchProblem z L st expected cancelAt ers ≠ some (j, .serialize))
    (hne : ers ≠ []) :
    (batchProblem z L st expected cancelAt ers = none →
      (saveEvents z s st expected cancelAt ers).out = .ok (L.streamLen st + ers.length) ∧
      Sim z (saveEvents z s st expected cancelAt ers).state (L.append z.view st ers) ∧
      (saveEvents z s st expected cancelAt ers).broadcast
        = (numbered st L.last (L.streamLen st) ers).map z.view) ∧
    (∀ j e, batchProblem z L st expected cancelAt ers = some (j, e) →
      (saveEvents z s st expected cancelAt ers).out = .err e ∧
      Sim z (saveEvents z s st expected cancelAt ers).state (afterFail z.view L st ers j e) ∧
      (saveEvents z s st expected cancelAt ers).broadcast = []) := by
  have h0 : L.append z.view st [] = L := by simp [Log.append, numbered]
  have hloop := saveLoop_spec hz hL st cancelAt expected ers [] s [] none [] [] 0
    (by rw [h0]; exact h) rfl rfl (by simp) (by
      have hm : expected.map (fun x => x) = expected := by cases expected <;> simp
      rcases hg with hg | hg
      · exact Or.inl (by simpa using hg)
      · right; simpa only [List.length_nil, Nat.add_zero, hm, batchProblem] using hg)
    (Or.inl ⟨rfl, rfl, rfl, rfl⟩) (by simp)
  have hm : expected.map (fun x => x) = expected := by
    cases expected <;> simp
  have hlen : ¬ ers.length < 1 := by
    cases ers with
    | nil => exact absurd rfl hne
    | cons a b => simp
  simp only [List.length_nil, Nat.add_zero, List.nil_append, numbered, List.map_nil, hm] at hloop
  unfold saveEvents
  rw [if_neg hlen, h.unlocked]
  simp only [Bool.false_eq_true, if_false]
  refine ⟨fun hp => ?_, fun j e hp => ?_⟩
  · obtain ⟨s', pend, hr, hsim, hb⟩ := hloop.1 hp
    rw [hr]
    simp only [hne, if_false]
    exact ⟨trivial, hsim, hb⟩
  · obtain ⟨s', hr, hsim⟩ := hloop.2 j e hp
    rw [hr]
    exact ⟨rfl, hsim, rfl⟩

theorem saveEvents_spec (hz : z.Lawful) {s : State} {L : Log} (hL : L.WF) (h : Sim z s L)
    (st : Str) (expected cancelAt : Option Nat) (ers : List EventRecord) (hg : Guarded z st ers)
    (hne : ers ≠ []) :
    (batchProblem z L st expected cancelAt ers = none →
      (saveEvents z s st expected cancelAt ers).out = .ok (L.streamLen st + ers.length) ∧
      Sim z (saveEvents z s st expected cancelAt ers).state (L.append z.view st ers) ∧
      (saveEvents z s st expected cancelAt ers).broadcast
        = (numbered st L.last (L.streamLen st) ers).map z.view) ∧
    (∀ j e, batchProblem z L st expected cancelAt ers = some (j, e) →
      (saveEvents z s st expected cancelAt ers).out = .err e ∧
      Sim z (saveEvents z s st expected cancelAt ers).state (afterFail z.view L st ers j e) ∧
      (saveEvents z s st expected cancelAt ers).broadcast = []) :=
  saveEvents_spec' hz hL h st expected cancelAt ers (Or.inl hg) hne

end RangeDB.IM

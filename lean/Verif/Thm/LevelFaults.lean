import Verif.Model.LevelFaults
import Verif.Thm.LevelDB

/-!
# C130, C131: the LevelDB store on a disk that fails

C130 is about saves and deletes that meet a fault, C131 about reads. The full statements are false.
-/

namespace RangeDB.LDF

open KV LD Demo

variable {N : Names} {z : Serializer}

/-! ## Without faults -/

theorem saveEvent_quiet {f : Faults} {i : Nat} (hl : f.last i = false) (hc : f.counter i = false) (db : DB) (st : Str)
    (e : Option Nat) (c : Bool) (er : EventRecord) :
    saveEvent z f i db st e c er = LD.saveEvent z db st e c er ∨ saveEvent z f i db st e c er = .error .db ∧ f.write i = true := by
  unfold saveEvent LD.saveEvent
  simp only [hl, Bool.false_eq_true, if_false]
  split
  · exact .inl rfl
  · have hs : saveEvent.store z f i st er db (getStreamSequenceNumber db st) =
        LD.saveEvent.store z st er db (getStreamSequenceNumber db st) ∨
        saveEvent.store z f i st er db (getStreamSequenceNumber db st) = .error .db ∧ f.write i = true := by
      unfold saveEvent.store LD.saveEvent.store
      simp only [hc, Bool.false_eq_true, if_false]
      cases z.ser _ with
      | none => exact .inl rfl
      | some d =>
        cases hw : f.write i with
        | true => exact .inr ⟨rfl, rfl⟩
        | false => exact .inl rfl
    cases e with
    | none => exact hs
    | some e =>
      simp only
      split
      · exact .inl rfl
      · exact hs

theorem saveLoop_quiet {f : Faults} (hl : ∀ i, f.last i = false) (hc : ∀ i, f.counter i = false) (st : Str)
    (cancelAt : Option Nat) (ers : List EventRecord) : ∀ (i : Nat) (db : DB) (pt pi : Str) (e : Option Nat) (pend : List Str)
    (last : Nat), saveLoop z f st cancelAt i db pt pi e pend last ers = LD.saveLoop z st cancelAt i db pt pi e pend last ers ∨
      saveLoop z f st cancelAt i db pt pi e pend last ers = .error .db ∧ ∃ j, f.write j = true := by
  induction ers with
  | nil => intros; exact .inl rfl
  | cons er ers ih =>
    intro i db pt pi e pend last
    simp only [saveLoop, LD.saveLoop]
    split
    · exact .inl rfl
    · split
      · exact .inl rfl
      · rcases saveEvent_quiet (hl i) (hc i) db st e (ctxDone cancelAt i) er with h | ⟨h, hw⟩
        · rw [h]
          cases LD.saveEvent z db st e (ctxDone cancelAt i) er with
          | error e => exact .inl rfl
          | ok x => exact ih _ _ _ _ _ _ _
        · rw [h]
          exact .inr ⟨rfl, i, hw⟩

/-- Without faults an open store is the store of `Model/LevelDB`. -/
theorem save_none (s : State) (st : Str) (e c : Option Nat) (ers : List EventRecord) :
    saveEvents z .none ⟨s, false⟩ st e c ers =
      ⟨⟨(LD.saveEvents z s st e c ers).state, false⟩, (LD.saveEvents z s st e c ers).out,
        (LD.saveEvents z s st e c ers).broadcast⟩ := by
  unfold saveEvents LD.saveEvents
  simp only [Faults.none, Bool.false_eq_true, if_false]
  split
  · rfl
  · split
    · rfl
    · split
      · rfl
      · have h := (saveLoop_quiet (z := z) (f := .none) (fun _ => rfl) (fun _ => rfl) st c ers 0 s.db [] [] e [] 0).resolve_right
          (by rintro ⟨_, j, hj⟩; simp [Faults.none] at hj)
        simp only [Faults.none] at h
        rw [h]
        cases LD.saveLoop z st c 0 s.db [] [] e [] 0 ers with
        | error e => rfl
        | ok x => rfl

theorem delete_none (s : State) (st : Str) (e : Nat) (c : Bool) :
    deleteStream z .none ⟨s, false⟩ st e c = (⟨(LD.deleteStream z s st e c).1, false⟩, (LD.deleteStream z s st e c).2) := by
  unfold deleteStream LD.deleteStream
  simp only [DFaults.none, Bool.false_eq_true, if_false, upTo]
  split
  · rfl
  · split
    · rfl
    · split
      · rfl
      · cases deleteLoop z 0 [] _ with
        | error e => rfl
        | ok x =>
          obtain ⟨cnt, batch⟩ := x
          simp only
          split
          · rfl
          · split
            · rfl
            · rfl

theorem lookupLoop_none (db : DB) (c : Option Nat) (g : Nat) (l : DB) : ∀ i p,
    lookupLoop z (fun _ => false) db c g i p l = LD.lookupLoop z db c g p l := by
  induction l with
  | nil => intros; rfl
  | cons x l ih =>
    intro i p
    simp only [lookupLoop, LD.lookupLoop, Bool.false_eq_true, if_false]
    cases KV.get db x.2 with
    | none => rfl
    | some v =>
      simp only
      cases z.deser v with
      | none => rfl
      | some r => simp only [ih]

theorem events_none (s : State) (c : Option Nat) (g : Nat) : events z .none ⟨s, false⟩ c g = LD.events z s c g := by
  simp only [events, lookup, LD.events, getEventsByLookup, visited, RFaults.none, upTo, Bool.false_eq_true, if_false,
    lookupLoop_none]

theorem eventsByStream_none (s : State) (c : Option Nat) (n : Nat) (st : Str) :
    eventsByStream z .none ⟨s, false⟩ c n st = LD.eventsByStream z s c n st := by
  simp only [eventsByStream, LD.eventsByStream, getEventsByPrefix, visited, RFaults.none, upTo, Bool.false_eq_true, if_false]

/-! ## C130 -/

/-- A save or delete that meets faults either does what it does without them, or returns an error and leaves the store as it
was. -/
def C130_full : Prop :=
  ∀ (z : Serializer), z.Lawful → ∀ (ops : List Op) (st : Str),
    (∀ (f : Faults) (e c : Option Nat) (ers : List EventRecord),
      let r := saveEvents z f ⟨LD.run z ops, false⟩ st e c ers
      let p := LD.saveEvents z (LD.run z ops) st e c ers
      (r.out = .err .db ∧ r.state = ⟨LD.run z ops, false⟩ ∧ r.broadcast = []) ∨
      (r.out = p.out ∧ r.state = ⟨p.state, false⟩ ∧ r.broadcast = p.broadcast)) ∧
    (∀ (f : DFaults) (n : Nat),
      let r := deleteStream z f ⟨LD.run z ops, false⟩ st n false
      let p := LD.deleteStream z (LD.run z ops) st n false
      r = (⟨LD.run z ops, false⟩, .err .db) ∨ r = (⟨p.1, false⟩, p.2))

/-- **C130 is false**: if `Commit` fails the transaction is neither tried again nor discarded. -/
theorem C130_false : ¬ C130_full := by
  intro h
  have := (h demo demo_lawful [] sA).1 ⟨false, fun _ => false, fun _ => false, fun _ => false, true⟩ none none [evA [1]]
  revert this
  decide

/-- What that means: after a save whose `Commit` failed nothing is stored, the error is returned, and the disk being well
again every further save and delete waits for ever; after the first of these every read does too. -/
theorem C130_commit (f : Faults) (hl : ∀ i, f.last i = false) (hct : ∀ i, f.counter i = false) (hw : ∀ i, f.write i = false)
    (ho : f.opening = false) (hcm : f.commit = true) (s : State) (st : Str) (e c : Option Nat) (ers : List EventRecord) (k : Nat)
    (hok : (LD.saveEvents z s st e c ers).out = .ok k) :
    let r := saveEvents z f ⟨s, false⟩ st e c ers
    r.out = .err .db ∧ r.broadcast = [] ∧ r.state = ⟨{ s with txOpen := true }, false⟩ ∧
    (∀ f' st' e' c' er ers', let w := saveEvents z f' r.state st' e' c' (er :: ers')
      w.out = .blocked ∧ (∀ rf c g, events z rf w.state c g = .blocked) ∧
      (∀ rf c n st, eventsByStream z rf w.state c n st = .blocked) ∧ (stop w.state).2 = .blocked) ∧
    (∀ f' st' e', (deleteStream z f' r.state st' e' false).2 = .blocked) := by
  intro r
  have hmux : s.muxHeld = false := by
    cases h : s.muxHeld with
    | false => rfl
    | true => unfold LD.saveEvents at hok; simp only [h, if_true] at hok; split at hok <;> simp at hok
  have htx : s.txOpen = false := by
    cases h : s.txOpen with
    | false => rfl
    | true => unfold LD.saveEvents at hok; simp only [h, hmux, if_true] at hok; split at hok <;> simp at hok
  have hlen : ¬ ers.length < 1 := by
    intro h; unfold LD.saveEvents at hok; simp [h] at hok
  have hr : r = ⟨⟨{ s with txOpen := true }, false⟩, .err .db, []⟩ := by
    have h1 := (saveLoop_quiet (z := z) hl hct st c ers 0 s.db [] [] e [] 0).resolve_right
      (by rintro ⟨_, j, hj⟩; rw [hw j] at hj; cases hj)
    have h2 : ∃ x, LD.saveLoop z st c 0 s.db [] [] e [] 0 ers = .ok x := by
      unfold LD.saveEvents at hok
      simp only [hlen, hmux, htx, Bool.false_eq_true, if_false] at hok
      cases hx : LD.saveLoop z st c 0 s.db [] [] e [] 0 ers with
      | error e => rw [hx] at hok; simp at hok
      | ok x => exact ⟨x, rfl⟩
    obtain ⟨⟨db, pend, last⟩, h2⟩ := h2
    simp only [r, saveEvents, hlen, hmux, htx, ho, Bool.false_eq_true, if_false, h1, h2, hcm, if_true]
  rw [hr]
  refine ⟨rfl, rfl, rfl, ?_, ?_⟩
  · intro f' st' e' c' er ers'
    have hw' : saveEvents z f' ⟨{ s with txOpen := true }, false⟩ st' e' c' (er :: ers') =
        ⟨⟨{ s with txOpen := true, muxHeld := true }, false⟩, .blocked, []⟩ := by
      simp [saveEvents, hmux]
    simp only [hw', events, lookup, eventsByStream, stop, if_true, implies_true, and_self]
  · intro f' st' e'
    simp [deleteStream, hmux]

example : (LD.saveEvents demo (LD.run demo [.save sA none none [evA [1]]]) sA none none [evA [2], evA [3]]).out = .ok 3 := by
  decide

/-- A save that meets no fault while it reads, whatever it meets when it opens, writes and commits: it is as without faults, or
an error is returned, nothing is stored and nobody is told. Only a failed `Commit` leaves the transaction open. -/
theorem C130_save (f : Faults) (hl : ∀ i, f.last i = false) (hct : ∀ i, f.counter i = false) (t : Store) (st : Str)
    (e c : Option Nat) (ers : List EventRecord) (hopen : t.closed = false) :
    let r := saveEvents z f t st e c ers
    let p := LD.saveEvents z t.s st e c ers
    (r.out = .err .db ∧ r.broadcast = [] ∧ (r.state = t ∨ f.commit = true ∧ r.state = ⟨{ t.s with txOpen := true }, false⟩)) ∨
    (r.out = p.out ∧ r.broadcast = p.broadcast ∧ r.state = ⟨p.state, false⟩) := by
  intro r p
  obtain ⟨s, closed⟩ := t
  simp only at hopen
  subst hopen
  simp only [r, p, saveEvents, LD.saveEvents]
  by_cases hlen : ers.length < 1
  · simp only [hlen, if_true]; simp
  · by_cases hm : s.muxHeld = true
    · simp only [hlen, hm, if_true, if_false]; simp
    · by_cases ht : s.txOpen = true
      · simp only [hlen, hm, ht, if_true, if_false, Bool.false_eq_true]; simp
      · simp only [hlen, hm, ht, if_false, Bool.false_eq_true]
        by_cases ho : f.opening = true
        · simp only [ho, if_true]; simp
        · simp only [ho, if_false, Bool.false_eq_true]
          rcases saveLoop_quiet (z := z) hl hct st c ers 0 s.db [] [] e [] 0 with h1 | ⟨h1, _⟩
          · rw [h1]
            cases LD.saveLoop z st c 0 s.db [] [] e [] 0 ers with
            | error e => exact .inr ⟨rfl, rfl, rfl⟩
            | ok x =>
              obtain ⟨db, pend, last⟩ := x
              by_cases hcm : f.commit = true
              · simp only [hcm, if_true]; simp
              · simp only [hcm, if_false, Bool.false_eq_true]; simp
          · rw [h1]; exact .inl ⟨rfl, rfl, .inl rfl⟩

/-- The faults that the store gets over: `OpenTransaction` and, in a save, `Write`. -/
def Survivable : FOp → Prop
  | .save f _ _ _ _ => (∀ i, f.last i = false) ∧ (∀ i, f.counter i = false) ∧ f.commit = false
  | .delete f _ _ _ => f.stop = none ∧ f.write = false ∧ f.commit = false

theorem step_survivable (t : Store) (op : FOp) (h : Survivable op) (hopen : t.closed = false) :
    step z t op = t ∨ step z t op = ⟨LD.step z t.s op.op, false⟩ := by
  cases op with
  | save f st e c ers =>
    obtain ⟨h1, h2, h3⟩ := h
    rcases C130_save (z := z) f h1 h2 t st e c ers hopen with ⟨_, _, h | ⟨h, _⟩⟩ | ⟨_, _, h⟩
    · exact .inl h
    · rw [h3] at h; cases h
    · exact .inr h
  | delete f st e c =>
    obtain ⟨h1, h2, h3⟩ := h
    obtain ⟨o, sp, w, cm⟩ := f
    simp only at h1 h2 h3
    subst h1 h2 h3
    obtain ⟨s, closed⟩ := t
    simp only at hopen
    subst hopen
    have hn := delete_none (z := z) s st e c
    cases o with
    | false =>
      right
      show (deleteStream z .none ⟨s, false⟩ st e c).1 = _
      rw [hn]; rfl
    | true =>
      simp only [step, FOp.op, LD.step, deleteStream, LD.deleteStream]
      cases c with
      | true => exact .inl rfl
      | false =>
        by_cases hm : s.muxHeld = true
        · simp only [hm, if_true, if_false, Bool.false_eq_true]; simp
        · by_cases ht : s.txOpen = true
          · simp only [hm, ht, if_true, if_false, Bool.false_eq_true]; simp
          · simp only [hm, ht, if_true, if_false, Bool.false_eq_true]; simp

/-- **C130**, what holds: after every history in which `OpenTransaction` fails at any calls and `Write` at any events of saves,
the store is exactly as if some of the calls had not been made; by `C130_save` these are calls that returned an error. So
everything that is proved of histories without faults (C11, C15 ...) holds of it. Missing: a failing `Commit` (`C130_commit`),
`Write` of a delete, and faults of reads inside a call (`C130_overwrites`), for which it is false. -/
theorem C130_partial (ops : List FOp) (h : ∀ op ∈ ops, Survivable op) :
    ∃ ops' : List Op, ops'.Sublist (ops.map FOp.op) ∧ run z ops = ⟨LD.run z ops', false⟩ := by
  suffices ∀ (s : State), ∃ ops' : List Op, ops'.Sublist (ops.map FOp.op) ∧
      ops.foldl (step z) ⟨s, false⟩ = ⟨ops'.foldl (LD.step z) s, false⟩ from this LD.init
  induction ops with
  | nil => exact fun s => ⟨[], .slnil, rfl⟩
  | cons op ops ih =>
    intro s
    have ih' := ih (fun o ho => h o (by simp [ho]))
    rcases step_survivable (z := z) ⟨s, false⟩ op (h op (by simp)) rfl with h1 | h1
    · obtain ⟨ops', h2, h3⟩ := ih' s
      exact ⟨ops', h2.cons _, by rw [List.foldl_cons, h1, h3]⟩
    · obtain ⟨ops', h2, h3⟩ := ih' (LD.step z s op.op)
      exact ⟨op.op :: ops', h2.cons_cons _, by rw [List.foldl_cons, h1, h3]; rfl⟩

/-- Three saves; the disk is full during the second event of the second one and when the first transaction is opened. -/
def faulty : List FOp :=
  [.save ⟨true, fun _ => false, fun _ => false, fun _ => false, false⟩ sA none none [evA [1]],
   .save ⟨false, fun _ => false, fun _ => false, fun i => i == 1, false⟩ sA none none [evA [2], evA [3]],
   .save .none sA none none [evA [4]]]

example : (∀ op ∈ faulty, Survivable op) ∧ (run demo faulty).s = LD.run demo [.save sA none none [evA [4]]] := by
  refine ⟨?_, by decide⟩
  intro op hop
  simp only [faulty, List.mem_cons, List.not_mem_nil, or_false] at hop
  rcases hop with rfl | rfl | rfl <;> simp [Survivable, Faults.none]

/-! ### A fault while a save reads -/

theorem lookupLoop_mem (db : DB) (c : Option Nat) (g : Nat) (r : Record) (l : DB) : ∀ p,
    r ∈ (LD.lookupLoop z db c g p l).recs → ∃ e ∈ l, ∃ v, KV.get db e.2 = some v ∧ z.deser v = some r := by
  induction l with
  | nil => intro p h; simp [LD.lookupLoop] at h
  | cons x l ih =>
    intro p h
    simp only [LD.lookupLoop] at h
    cases hg : KV.get db x.2 with
    | none => simp [hg] at h
    | some v =>
      cases hd : z.deser v with
      | none => simp [hg, hd] at h
      | some r' =>
        simp only [hg, hd] at h
        split at h
        · obtain ⟨e, he, h⟩ := ih _ h
          exact ⟨e, by simp [he], h⟩
        · split at h
          · simp at h
          · simp only [List.mem_cons] at h
            rcases h with rfl | h
            · exact ⟨x, by simp, v, hg, hd⟩
            · obtain ⟨e, he, h⟩ := ih _ h
              exact ⟨e, by simp [he], h⟩

theorem prefixLoop_mem (c : Option Nat) (n : Nat) (r : Record) (l : DB) : ∀ p,
    r ∈ (prefixLoop z c n p l).recs → ∃ e ∈ l, z.deser e.2 = some r := by
  induction l with
  | nil => intro p h; simp [prefixLoop] at h
  | cons x l ih =>
    intro p h
    simp only [prefixLoop] at h
    cases hd : z.deser x.2 with
    | none => simp [hd] at h
    | some r' =>
      simp only [hd] at h
      split at h
      · obtain ⟨e, he, h⟩ := ih _ h
        exact ⟨e, by simp [he], h⟩
      · split at h
        · simp at h
        · simp only [List.mem_cons] at h
          rcases h with rfl | h
          · exact ⟨x, by simp, hd⟩
          · obtain ⟨e, he, h⟩ := ih _ h
            exact ⟨e, by simp [he], h⟩

/-- If the disk fails at the moment when a save looks for the last number of its stream, the save *succeeds*, returns number 1,
and overwrites the first event of the stream: no read returns that event any more. `r1` is that event. -/
theorem C130_overwrites (hz : z.Lawful) (ops : List Op) (hn : ∀ op ∈ ops, op.NamesIn N) (st : Str) (er : EventRecord)
    (hb : (ops.map Op.size).sum + 1 < 2 ^ 64) (r1 : Record) (rest : List Record) (hst : N.streams st)
    (hr1 : LD.eventsByStream z (LD.run z ops) none 0 st = .ok ⟨r1 :: rest, none⟩) (htx : (LD.run z ops).txOpen = false)
    (f : Faults) (hf : f.opening = false ∧ f.last 0 = true ∧ f.counter 0 = false ∧ f.write 0 = false ∧ f.commit = false)
    (hser : z.ser (mkRecord st (getGlobalSequenceNumber (LD.run z ops).db + 1) 1 er) ≠ none) :
    let r := saveEvents z f ⟨LD.run z ops, false⟩ st none none [er]
    r.out = .ok 1 ∧
    (∀ c g it, events z .none r.state c g = .ok it → r1 ∉ it.recs) ∧
    (∀ c n it, eventsByStream z .none r.state c n st = .ok it → r1 ∉ it.recs) := by
  obtain ⟨hsim, hle⟩ := run_simA hz ops hn (by omega)
  obtain ⟨hs, hw, htx', hmx, hstk⟩ := hsim
  have hmu : (LD.run z ops).muxHeld = false := by
    cases hx : (LD.run z ops).muxHeld with
    | false => rfl
    | true => simp [LD.eventsByStream, hx] at hr1
  have hk : (aRun z ops).stuck = false := by rw [← hmx, hmu]
  have hrd := ((C11_reads hz ops hn (by omega)).1 hk).2.2.2 none 0 st hst
  rw [hrd] at hr1
  have hlen0 : (aRun z ops).log.streamLen st ≠ 0 := by
    intro h0; simp [h0] at hr1
  have hstream : (aRun z ops).log.stream st = r1 :: rest := by
    simp only [hlen0, if_false, Outcome.ok.injEq, cut, Iter.mk.injEq, and_true] at hr1
    rw [← hr1]
    exact (List.filter_eq_self.mpr (by simp)).symm
  have hr1m : r1 ∈ (aRun z ops).log.stream st := by rw [hstream]; simp
  have hr1L : r1 ∈ (aRun z ops).log.recs := (List.mem_filter.mp hr1m).1
  have hr1s : r1.streamName = st := by simpa using (List.mem_filter.mp hr1m).2
  have hr1q : r1.seq = 1 := by
    have h1 := hw.contiguous st
    rw [hstream] at h1
    have : (aRun z ops).log.streamLen st = rest.length + 1 := by simp [Log.streamLen, hstream]
    rw [this] at h1
    simp [List.range'] at h1
    exact h1.1
  generalize hdb : (LD.run z ops).db = db at hs hser
  cases hsd : z.ser (mkRecord st (getGlobalSequenceNumber db + 1) 1 er) with
  | none => exact absurd hsd hser
  | some data =>
    obtain ⟨ho, h1, h2, h3, h4⟩ := hf
    let new := mkRecord st (getGlobalSequenceNumber db + 1) 1 er
    have hnew : z.deser data = some (z.view new) := hz.roundTrip _ _ hsd
    have hne : z.view new ≠ r1 := by
      intro h
      have h5 : r1.gsn = getGlobalSequenceNumber db + 1 := by rw [← h, hz.gsn]; rfl
      have h6 := (hw.bounded r1 hr1L).2
      rw [hs.gsn] at h5
      omega
    have hres : saveEvents z f ⟨LD.run z ops, false⟩ st none none [er] =
        ⟨⟨{ LD.run z ops with db := apply db (eventBatch st new data) }, false⟩, .ok 1, [z.view new]⟩ := by
      have hl : saveLoop z f st none 0 db [] [] none [] 0 [er] = .ok (apply db (eventBatch st new data), [data], 1) := by
        simp only [saveLoop, saveEvent, saveEvent.store, h1, h2, h3, ctxDone, ne_eq, not_true_eq_false, false_and, if_false,
          if_true, Bool.false_eq_true, Nat.zero_add, hsd, List.nil_append]
        rfl
      simp only [saveEvents, hdb, hl, hmu, htx, ho, h4, List.length_singleton, Nat.lt_irrefl, if_false, Bool.false_eq_true,
        List.filterMap_cons, hnew, List.filterMap_nil]
    intro r
    have hmem := mem_eventBatch hs.sorted st new data
    have hsrt := eventBatch_sorted hs.sorted st new data
    have hstate : r.state.s.db = apply db (eventBatch st new data) ∧ r.state.s.muxHeld = false ∧ r.state.closed = false := by
      simp only [r, hres, hmu, and_self]
    have hnq : new.seq = 1 := rfl
    have hng : new.gsn < 2 ^ 64 := by
      show getGlobalSequenceNumber db + 1 < 2 ^ 64
      rw [hs.gsn]; omega
    refine ⟨by simp only [r, hres], ?_, ?_⟩
    · intro c g it hit hr
      have hst' : r.state = ⟨r.state.s, false⟩ := by
        rw [← hstate.2.2]
      rw [hst', events_none] at hit
      simp only [LD.events, hstate.2.1, Bool.false_eq_true, if_false, Outcome.ok.injEq] at hit
      subst hit
      unfold getEventsByLookup at hr
      simp only [lookupStart_each, hstate.1] at hr
      obtain ⟨e, he, v, hv, hd⟩ := lookupLoop_mem _ _ _ _ _ _ hr
      have he' : e ∈ slice (apply db (eventBatch st new data)) allEventsPrefix := by
        split at he
        · exact List.mem_of_mem_drop he
        · exact he
      have he2 := (mem_slice _ [36, 97, 108, 108] 36 (by decide) e).mp he'
      have hmemv := get_mem hv
      -- the target is a stream key
      have htar : ∃ q ∈ (aRun z ops).log.recs ++ [new], e.2 = streamKey q.streamName q.seq := by
        obtain ⟨k, w⟩ := e
        rcases (hmem k w).mp he2.1 with ⟨_, hw⟩ | ⟨_, h⟩
        · exact ⟨new, by simp, hw⟩
        · rcases h with ⟨hk', hw⟩ | ⟨_, h⟩
          · exact ⟨new, by simp, hw⟩
          · have hpre : allEventsPrefix <+: k := he2.2
            rcases h with ⟨hk', _⟩ | ⟨_, h⟩
            · rw [hk'] at hpre; exact absurd hpre (allPrefix_stream _ _)
            · rcases h with ⟨hk', _⟩ | ⟨_, h⟩
              · rw [hk'] at hpre; exact absurd hpre allPrefix_gsn
              · rcases hs.entries k w h with hk' | ⟨q, hq, hk' | ⟨hk', _⟩ | ⟨_, hw⟩⟩
                · rw [hk'] at hpre; exact absurd hpre allPrefix_gsn
                · rw [hk'] at hpre; exact absurd hpre (allPrefix_stream _ _)
                · rw [hk'] at hpre; exact absurd hpre (allPrefix_type _ _)
                · exact ⟨q, by simp [hq], hw⟩
      obtain ⟨q, hq, hqe⟩ := htar
      rw [hqe] at hmemv
      rcases (hmem _ _).mp hmemv with ⟨hk', _⟩ | ⟨_, h⟩
      · exact absurd hk' (stream_ne_all _ _ _)
      · rcases h with ⟨hk', _⟩ | ⟨_, h⟩
        · exact absurd hk' (stream_ne_type _ _ _ _)
        · rcases h with ⟨_, hvd⟩ | ⟨hne', h⟩
          · rw [hvd, hnew] at hd
            exact hne (Option.some.inj hd)
          · rcases h with ⟨hk', _⟩ | ⟨_, h⟩
            · exact absurd hk' (stream_ne_gsn _ _)
            · rcases List.mem_append.mp hq with hq | hq
              · obtain ⟨v', hv', hd'⟩ := hs.data q hq
                have := hs.sorted.inj h hv'
                rw [this, hd'] at hd
                have hqr := Option.some.inj hd
                rw [hqr, hr1s, hr1q] at hne'
                exact hne' rfl
              · simp only [List.mem_singleton] at hq
                rw [hq] at hne'
                exact hne' rfl
    · intro c n it hit hr
      have hst' : r.state = ⟨r.state.s, false⟩ := by
        rw [← hstate.2.2]
      rw [hst', eventsByStream_none] at hit
      simp only [LD.eventsByStream, hstate.2.1, Bool.false_eq_true, if_false, Outcome.ok.injEq] at hit
      subst hit
      unfold getEventsByPrefix at hr
      simp only at hr
      split at hr
      · simp at hr
      · obtain ⟨e, he, hd⟩ := prefixLoop_mem _ _ _ _ _ hr
        rw [show DbIter.each ((DbIter.new r.state.s.db (getStreamKeyPrefix st)).items.length + 1)
          (DbIter.new r.state.s.db (getStreamKeyPrefix st)) = slice r.state.s.db (getStreamKeyPrefix st) from
          DbIter.each_soi _ _ (by simp [DbIter.new]), hstate.1] at he
        have he2 := (mem_slice _ (streamPrefix ++ (st ++ [36])) 33 (by decide) e).mp (by
          have : streamPrefix ++ (st ++ [36]) ++ [33] = getStreamKeyPrefix st := by simp [getStreamKeyPrefix]
          rw [this]; exact he)
        have hpre : getStreamKeyPrefix st <+: e.1 := by
          have : streamPrefix ++ (st ++ [36]) ++ [33] = getStreamKeyPrefix st := by simp [getStreamKeyPrefix]
          rw [← this]; exact he2.2
        obtain ⟨k, w⟩ := e
        rcases (hmem k w).mp he2.1 with ⟨hk', _⟩ | ⟨_, h⟩
        · rw [show (k, w).1 = k from rfl, hk'] at hpre; exact absurd hpre (streamPrefix_all _ _)
        · rcases h with ⟨hk', _⟩ | ⟨_, h⟩
          · rw [show (k, w).1 = k from rfl, hk'] at hpre; exact absurd hpre (streamPrefix_type _ _ _)
          · rcases h with ⟨_, hvd⟩ | ⟨hne', h⟩
            · simp only [hvd, hnew] at hd
              exact hne (Option.some.inj hd)
            · rcases h with ⟨hk', _⟩ | ⟨_, h⟩
              · rw [show (k, w).1 = k from rfl, hk'] at hpre; exact absurd hpre (streamPrefix_gsn _)
              · rcases hs.entries k w h with hk' | ⟨q, hq, hk' | ⟨hk', _⟩ | ⟨hk', _⟩⟩
                · rw [show (k, w).1 = k from rfl, hk'] at hpre; exact absurd hpre (streamPrefix_gsn _)
                · obtain ⟨v', hv', hd'⟩ := hs.data q hq
                  rw [← hk'] at hv'
                  have := hs.sorted.inj h hv'
                  simp only [this, hd'] at hd
                  have hqr := Option.some.inj hd
                  rw [hqr, hr1s, hr1q] at hk'
                  exact hne' hk'
                · rw [show (k, w).1 = k from rfl, hk'] at hpre; exact absurd hpre (streamPrefix_type _ _ _)
                · rw [show (k, w).1 = k from rfl, hk'] at hpre; exact absurd hpre (streamPrefix_all _ _)

/-- The stream and global numbers that a read returns, and its error. -/
def numbers : Outcome Iter → Option (List (Nat × Nat) × Option Err)
  | .ok it => some (it.recs.map (fun r => (r.seq, r.gsn)), it.err)
  | _ => none

/-- The disk fails while a save looks for the last number of its stream. -/
def badLast : Faults := ⟨false, fun _ => true, fun _ => false, fun _ => false, false⟩

example : LD.eventsByStream demo (LD.run demo [.save sA none none [evA [1], evA [2]]]) none 0 sA
      = .ok ⟨(LD.run demo [.save sA none none [evA [1], evA [2]]]).db.filterMap
          (fun e => if streamPrefix <+: e.1 then demo.deser e.2 else none), none⟩ ∧
    (LD.run demo [.save sA none none [evA [1], evA [2]]]).txOpen = false ∧
    demo.ser (mkRecord sA (getGlobalSequenceNumber (LD.run demo [.save sA none none [evA [1], evA [2]]]).db + 1) 1
      (evA [3])) ≠ none := by
  decide +kernel

/-- Two events are saved, then a third one on a disk that fails while the last number is read. The save answers 1. The stream
now holds event 3 (as number 1) and event 2; `Events` returns event 3 twice and event 1 never. -/
theorem C130_false_overwrites :
    let t := saveEvents demo badLast ⟨LD.run demo [.save sA none none [evA [1], evA [2]]], false⟩ sA none none [evA [3]]
    t.out = .ok 1 ∧
    numbers (eventsByStream demo .none t.state none 0 sA) = some ([(1, 3), (2, 2)], none) ∧
    numbers (events demo .none t.state none 0) = some ([(1, 3), (2, 2), (1, 3)], none) := by
  decide +kernel

/-- A delete whose iterator stops early deletes the beginning of the stream if the caller's expected number is that of the
events it saw, and returns no error; what is left has a gap at its beginning. -/
theorem C130_false_delete :
    let t := deleteStream demo ⟨false, some 1, false, false⟩ ⟨LD.run demo [.save sA none none [evA [1], evA [2]]], false⟩ sA 1 false
    t.2 = .ok () ∧
    numbers (eventsByStream demo .none t.1 none 0 sA) = some ([(2, 2)], none) := by
  decide +kernel

/-! ## C131 -/

/-- What a read returns of the records `l` if the `i`-th fetch of a record fails whenever `bad i`: those before the first
failure, and the error. -/
def untilFault (bad : Nat → Bool) : Nat → List Record → Iter
  | _, [] => ⟨[], none⟩
  | i, r :: l => if bad i then ⟨[], some .db⟩ else ⟨r :: (untilFault bad (i + 1) l).recs, (untilFault bad (i + 1) l).err⟩

theorem untilFault_none (l : List Record) : ∀ i, untilFault (fun _ => false) i l = ⟨l, none⟩ := by
  induction l with
  | nil => intro i; rfl
  | cons r l ih => intro i; simp [untilFault, ih]

theorem untilFault_prefix (bad : Nat → Bool) (l : List Record) : ∀ i, (untilFault bad i l).recs <+: l ∧
    (untilFault bad i l = ⟨l, none⟩ ∨ (untilFault bad i l).err = some .db) := by
  induction l with
  | nil => intro i; exact ⟨List.prefix_rfl, .inl rfl⟩
  | cons r l ih =>
    intro i
    simp only [untilFault]
    split
    · exact ⟨List.nil_prefix, .inr rfl⟩
    · obtain ⟨h1, h2⟩ := ih (i + 1)
      refine ⟨by simpa using h1, ?_⟩
      rcases h2 with h2 | h2
      · rw [h2]; exact .inl rfl
      · exact .inr h2

/-- A read that meets faults, or reads a stopped store, returns what it returns otherwise, or an error. -/
def C131_full : Prop :=
  ∀ (z : Serializer), z.Lawful → ∀ (ops : List Op) (f : RFaults) (c : Option Nat) (g : Nat) (st : Str),
    (LD.run z ops).muxHeld = false →
    (∀ it, events z f ⟨LD.run z ops, false⟩ c g = .ok it → it.err = none → .ok it = LD.events z (LD.run z ops) c g) ∧
    (∀ it, eventsByStream z f ⟨LD.run z ops, false⟩ c g st = .ok it → it.err = none →
      .ok it = LD.eventsByStream z (LD.run z ops) c g st) ∧
    (∀ it, events z f (stop ⟨LD.run z ops, false⟩).1 c g = .ok it → it.err = none → .ok it = LD.events z (LD.run z ops) c g) ∧
    (∀ b k, totalEventsInStream ⟨LD.run z ops, false⟩ b st false = .ok k →
      LD.totalEventsInStream (LD.run z ops) st false = .ok k)

/-- **C131 is false**: the iterator stops after the first of two records; `Events` returns that record and no error. -/
theorem C131_false : ¬ C131_full := by
  intro h
  have := (h demo demo_lawful [.save sA none none [evA [1], evA [2]]] ⟨some 1, fun _ => false⟩ none 0 sA (by decide)).1
  have h1 : numbers (events demo ⟨some 1, fun _ => false⟩ ⟨LD.run demo [.save sA none none [evA [1], evA [2]]], false⟩ none 0) =
      some ([(1, 1)], none) := by decide +kernel
  have h2 : numbers (LD.events demo (LD.run demo [.save sA none none [evA [1], evA [2]]]) none 0) =
      some ([(1, 1), (2, 2)], none) := by decide +kernel
  cases hit : events demo ⟨some 1, fun _ => false⟩ ⟨LD.run demo [.save sA none none [evA [1], evA [2]]], false⟩ none 0 with
  | ok it =>
    rw [hit] at h1
    have h4 : it.err = none := (Prod.mk.inj (Option.some.inj h1)).2
    rw [← this it hit h4, h1] at h2
    exact absurd h2 (by decide)
  | _ => rw [hit] at h1; simp [numbers] at h1

/-- It is false of a stopped store, too: `Events` of a store that holds an event returns nothing and no error. -/
theorem C131_false_closed :
    let t := (stop ⟨LD.run demo [.save sA none none [evA [1]]], false⟩).1
    events demo .none t none 0 = .ok ⟨[], none⟩ ∧
    LD.events demo (LD.run demo [.save sA none none [evA [1]]]) none 0 ≠ .ok ⟨[], none⟩ := by
  decide +kernel

theorem lookupLoop_seen {db : DB} (bad : Nat → Bool) (g : Nat) (key : Record → Str) (recs : List Record)
    (h : ∀ r ∈ recs, ∃ v, KV.get db (streamKey r.streamName r.seq) = some v ∧ z.deser v = some r) (hg : ∀ r ∈ recs, g ≤ r.gsn) :
    ∀ i p, lookupLoop z bad db none g i p (recs.map (fun r => (key r, streamKey r.streamName r.seq))) = untilFault bad i recs := by
  induction recs with
  | nil => intros; rfl
  | cons r rs ih =>
    intro i p
    obtain ⟨v, hv, hd⟩ := h r (by simp)
    have hgr : ¬ r.gsn < g := by have := hg r (by simp); omega
    have ih' := ih (fun r' hr' => h r' (by simp [hr'])) (fun r' hr' => hg r' (by simp [hr']))
    simp only [List.map_cons, lookupLoop, untilFault, hv, hd, hgr, if_false, ctxDone, Bool.false_eq_true, ih']

theorem seek_sorted (key : Str) (g : Nat) (hg : g < 2 ^ 64) (val : Record → Str) (recs : List Record)
    (hb : ∀ r ∈ recs, r.gsn < 2 ^ 64) (hs : recs.Pairwise (fun a b => a.gsn < b.gsn)) :
    (recs.map (fun r => (getKeyWithNumber key r.gsn, val r))).drop
        (DbIter.seekIdx (getKeyWithNumber key g) (recs.map (fun r => (getKeyWithNumber key r.gsn, val r))))
      = (recs.filter (fun r => r.gsn ≥ g)).map (fun r => (getKeyWithNumber key r.gsn, val r)) := by
  induction recs with
  | nil => rfl
  | cons r rs ih =>
    obtain ⟨h1, h2⟩ := List.pairwise_cons.mp hs
    have hlt : ltKey (getKeyWithNumber key r.gsn) (getKeyWithNumber key g) = decide (r.gsn < g) := by
      simp only [getKeyWithNumber, ltKey_append]
      exact ltKey_uint64 _ _ (hb r (by simp)) hg
    simp only [List.map_cons, DbIter.seekIdx, hlt]
    by_cases hk : r.gsn < g
    · simp only [hk, decide_true, if_true, List.drop_succ_cons]
      rw [List.filter_cons_of_neg (by simp; omega)]
      exact ih (fun r' hr' => hb r' (by simp [hr'])) h2
    · simp only [hk, decide_false, Bool.false_eq_true, if_false, List.drop_zero]
      rw [List.filter_eq_self.mpr]
      · rfl
      · intro r' hr'
        rcases List.mem_cons.mp hr' with rfl | hr'
        · simp; omega
        · have := h1 r' hr'; simp; omega

theorem upTo_map {α β : Type} (k : Option Nat) (fn : α → β) (l : List α) : upTo k (l.map fn) = (upTo k l).map fn := by
  cases k with
  | none => rfl
  | some k => simp [upTo, List.map_take]

theorem upTo_mem {α : Type} {k : Option Nat} {l : List α} {x : α} (h : x ∈ upTo k l) : x ∈ l := by
  cases k with
  | none => exact h
  | some k => exact List.mem_of_mem_take h

theorem lookup_seen {db : DB} {L : Log} (h : Sim N z db L) (hL : L.WF) (key : Str) (recs : List Record)
    (hr : ∀ r ∈ recs, r ∈ L.recs) (hsrt : recs.Pairwise (fun a b => a.gsn < b.gsn))
    (hs : slice db key = recs.map (fun r => (getKeyWithNumber key r.gsn, streamKey r.streamName r.seq)))
    (f : RFaults) (g : Nat) (hg : g < 2 ^ 64) (s : State) (hdb : s.db = db) (hmu : s.muxHeld = false) :
    lookup z f ⟨s, false⟩ none key g = .ok (untilFault f.get 0 (upTo f.stop (recs.filter (fun r => r.gsn ≥ g)))) := by
  have hv : visited ⟨s, false⟩ f.stop (lookupStart db key g) =
      (upTo f.stop (recs.filter (fun r => r.gsn ≥ g))).map
        (fun r => (getKeyWithNumber key r.gsn, streamKey r.streamName r.seq)) := by
    simp only [visited, Bool.false_eq_true, if_false]
    rw [lookupStart_each, hs]
    split
    · rw [seek_sorted key g hg (fun r => streamKey r.streamName r.seq) recs (fun r hr' => h.gsn_lt hL (hr r hr')) hsrt, upTo_map]
    · rw [upTo_map, List.filter_eq_self.mpr]
      intro r _; simp; omega
  simp only [lookup, hdb, hmu, Bool.false_eq_true, if_false, hv]
  rw [lookupLoop_seen]
  · intro r hr'
    have := (List.mem_filter.mp (upTo_mem hr')).1
    exact ⟨_, (h.get_data (hr r this)).2, (h.get_data (hr r this)).1⟩
  · intro r hr'
    simpa using (List.mem_filter.mp (upTo_mem hr')).2

/-- Exactly what reads return on a failing disk, after any history. `Events` and the reads of one type: of the right records,
those before the iterator stopped and before the first failed fetch; there is an error only if a fetch failed. `EventsByStream`:
the records before the iterator stopped and no error, but `ErrStreamNotFound` if it stopped at once. `TotalEventsInStream`: 0 if
its iterator fails. -/
theorem C131_exact (hz : z.Lawful) (ops : List Op) (hn : ∀ op ∈ ops, op.NamesIn N) (hb : (ops.map Op.size).sum < 2 ^ 64)
    (hk : (aRun z ops).stuck = false) (f : RFaults) :
    (∀ g, g < 2 ^ 64 → events z f ⟨LD.run z ops, false⟩ none g =
      .ok (untilFault f.get 0 (upTo f.stop ((aRun z ops).log.recs.filter (fun r => r.gsn ≥ g))))) ∧
    (∀ g ty, g < 2 ^ 64 → N.types ty → eventsByType z f ⟨LD.run z ops, false⟩ none g ty =
      .ok (untilFault f.get 0 (upTo f.stop
        (((aRun z ops).log.recs.filter (fun r => r.aggType = ty)).filter (fun r => r.gsn ≥ g))))) ∧
    (∀ n st, N.streams st → eventsByStream z f ⟨LD.run z ops, false⟩ none n st =
      .ok (if upTo f.stop ((aRun z ops).log.stream st) = [] then ⟨[], some .notFound⟩
        else ⟨(upTo f.stop ((aRun z ops).log.stream st)).filter (fun r => r.seq ≥ n), none⟩)) ∧
    (∀ b st, N.streams st → totalEventsInStream ⟨LD.run z ops, false⟩ b st false =
      .ok (if b then 0 else (aRun z ops).log.streamLen st)) := by
  obtain ⟨⟨hs, hw, htx, hmx, hst⟩, hle⟩ := run_simA hz ops hn hb
  have hmu : (LD.run z ops).muxHeld = false := hmx.trans hk
  refine ⟨?_, ?_, ?_, ?_⟩
  · intro g hg
    exact lookup_seen hs hw allEventsPrefix _ (fun _ h => h) hw.sorted (slice_all hs hw) f g hg _ rfl hmu
  · intro g ty hg ht
    exact lookup_seen hs hw (getAggregateTypeKeyPrefix ty) _ (fun _ h => (List.mem_filter.mp h).1)
      (hw.sorted.filter _) (slice_type hs hw ht) f g hg _ rfl hmu
  · intro n st hno
    have hsl := slice_stream hs hw hno
    have hv : visited ⟨LD.run z ops, false⟩ f.stop (DbIter.new (LD.run z ops).db (getStreamKeyPrefix st)) =
        (upTo f.stop ((aRun z ops).log.stream st)).map
          (fun r => (streamKey st r.seq, (KV.get (LD.run z ops).db (streamKey st r.seq)).getD [])) := by
      simp only [visited, Bool.false_eq_true, if_false]
      rw [show DbIter.each ((DbIter.new (LD.run z ops).db (getStreamKeyPrefix st)).items.length + 1)
          (DbIter.new (LD.run z ops).db (getStreamKeyPrefix st)) = slice (LD.run z ops).db (getStreamKeyPrefix st) from
          DbIter.each_soi _ _ (by simp [DbIter.new]), hsl, upTo_map]
    simp only [eventsByStream, hmu, Bool.false_eq_true, if_false, hv, List.length_map, List.length_eq_zero_iff]
    rw [prefixLoop_spec]
    · rfl
    · intro r hr
      have hm := upTo_mem hr
      have h1 := (List.mem_filter.mp hm)
      have h2 := hs.get_data h1.1
      have h3 : r.streamName = st := by simpa using h1.2
      rw [h3] at h2
      show z.deser ((KV.get _ _).getD []) = some r
      rw [h2.2]
      exact h2.1
  · intro b st hno
    have h := (C11_reads hz ops hn hb).2.1 st hno
    cases b with
    | true => rfl
    | false => exact h

example : ((aRun demo [.save sA none none [evA [1], evA [2]]]).stuck = false ∧
    numbers (events demo ⟨none, fun i => i == 1⟩ ⟨LD.run demo [.save sA none none [evA [1], evA [2]]], false⟩ none 0) =
      some ([(1, 1)], some .db)) := by
  decide +kernel

/-- **C131**, what holds: if the iterators do not fail, a read returns what it returns without faults, or the beginning of
that and an error. Missing: iterators that fail (`C131_exact`, `C131_false`), stopped stores (`C131_closed`). -/
theorem C131_partial (hz : z.Lawful) (ops : List Op) (hn : ∀ op ∈ ops, op.NamesIn N) (hb : (ops.map Op.size).sum < 2 ^ 64)
    (hk : (aRun z ops).stuck = false) (f : RFaults) (hf : f.stop = none) :
    (∀ g, g < 2 ^ 64 → ∃ it, events z f ⟨LD.run z ops, false⟩ none g = .ok it ∧
      it.recs <+: (aRun z ops).log.recs.filter (fun r => r.gsn ≥ g) ∧
      (.ok it = LD.events z (LD.run z ops) none g ∨ it.err = some .db)) ∧
    (∀ n st, eventsByStream z f ⟨LD.run z ops, false⟩ none n st = LD.eventsByStream z (LD.run z ops) none n st) := by
  refine ⟨?_, ?_⟩
  · intro g hg
    have h := (C131_exact hz ops hn hb hk f).1 g hg
    rw [hf] at h
    refine ⟨_, h, (untilFault_prefix _ _ 0).1, ?_⟩
    rcases (untilFault_prefix f.get (upTo none ((aRun z ops).log.recs.filter (fun r => r.gsn ≥ g))) 0).2 with h1 | h1
    · left
      rw [h1, ((C11_reads hz ops hn hb).1 hk).1 none g hg]
      simp [upTo, cut]
    · exact .inr h1
  · intro n st
    rw [← eventsByStream_none (z := z)]
    simp only [eventsByStream, hf, RFaults.none]
    rfl

/-- After `Stop` every read looks like a read of an empty store, and the error of the closed database is not reported; saves
and deletes do return it. -/
theorem C131_closed (s : State) (hmu : s.muxHeld = false) (f : RFaults) :
    let t := (stop ⟨s, false⟩).1
    (∀ c g, events z f t c g = .ok ⟨[], none⟩) ∧
    (∀ c g ty, eventsByType z f t c g ty = .ok ⟨[], none⟩) ∧
    (∀ c n st, eventsByStream z f t c n st = .ok ⟨[], some .notFound⟩) ∧
    (∀ b st, totalEventsInStream t b st false = .ok 0) ∧
    (∀ f st e c er ers, (saveEvents z f t st e c (er :: ers)).out = .err .db ∧
      (saveEvents z f t st e c (er :: ers)).state = t ∧ (saveEvents z f t st e c (er :: ers)).broadcast = []) ∧
    (∀ f st e, deleteStream z f t st e false = (t, .err .db)) ∧
    (stop t).2 = .err .db := by
  intro t
  have ht : t = ⟨{ s with txOpen := false }, true⟩ := by simp [t, stop, hmu]
  rw [ht]
  refine ⟨?_, ?_, ?_, ?_, ?_, ?_, ?_⟩
  · intro c g; simp [events, lookup, visited, lookupLoop, hmu]
  · intro c g ty; simp [eventsByType, lookup, visited, lookupLoop, hmu]
  · intro c n st; simp [eventsByStream, visited, hmu]
  · intro b st; simp [totalEventsInStream]
  · intro f st e c er ers; simp [saveEvents, hmu]
  · intro f st e; simp [deleteStream, hmu]
  · simp [stop, hmu]

end RangeDB.LDF

import Verif.Model.Dispatch
import Verif.Thm.Cqrs
import Verif.Thm.Encrypted
import Verif.Thm.JsonRecord

/-!
# Command handling when the stream cannot be read in full, and when events cannot be saved (C81, C82)
-/

namespace RangeDB.Disp

open RangeDB.Cqrs RangeDB.ES RangeDB.Key RangeDB.Cry Demo

variable {ι α κ σ : Type} [DecidableEq ι]

/-! ## C81 -/

/-- The full claim of **C81** for an application: a program that has just started decides a command on the
whole stream, or raises nothing; it never panics. `got` is what `EventsByStream` gives. -/
def C81_full (A : App ι α κ) (isEvent : Record → Bool) : Prop :=
  ∀ (got : Got) (c : κ), got.panicked = false →
    ∃ objs raised, decideGot A isEvent A.fresh got c = some (objs, raised) ∧
      (raised = [] ∨ (got.err = none ∧ ∃ recs, got.recs = recs.map some ∧ raised = decision A c recs))

theorem genLoad_some (isEvent : Record → Bool) (a : Aggregate α κ) (recs : List Record) :
    ∀ s, genLoad isEvent a s (recs.map some) = some ((recs.filter isEvent).foldl a.apply s) := by
  induction recs with
  | nil => intro s; rfl
  | cons r rs ih =>
    intro s
    simp only [List.map_cons, genLoad, ih]
    cases h : isEvent r <;> simp [h]

theorem genLoad_nil (isEvent : Record → Bool) (a : Aggregate α κ) (l : List (Option Record)) (h : none ∈ l) :
    ∀ s, genLoad isEvent a s l = none := by
  induction l with
  | nil => simp at h
  | cons x l ih =>
    intro s
    cases x with
    | none => rfl
    | some r =>
      simp only [List.mem_cons, reduceCtorEq, false_or] at h
      exact ih h _

/-- **C81 fails with an error**: whatever error ends the read, and wherever, the command is decided on the
records before it, as if there were no others. -/
theorem C81_error_ignored (A : App ι α κ) (isEvent : Record → Bool) (objs : ι → α) (recs : List Record)
    (e : RErr) (c : κ) :
    decideGot A isEvent objs ⟨recs.map some, some e, false⟩ c =
      decideGot A isEvent objs ⟨recs.map some, none, false⟩ c ∧
    (decideGot A (fun _ => true) A.fresh ⟨recs.map some, some e, false⟩ c).map (·.2) =
      some (decision A c recs) := by
  refine ⟨rfl, ?_⟩
  have hall : recs.filter (fun _ => true) = recs := List.filter_eq_self.mpr (fun _ _ => rfl)
  simp only [decideGot, decision]
  cases A.handlerOf (A.info c).cmdType with
  | none => rfl
  | some i => simp [genLoad_some, hall]

/-- **C81 fails with unbound types**: records of event types that were not bound are passed over, as if they
were not in the stream. -/
theorem C81_unbound_ignored (A : App ι α κ) (isEvent : Record → Bool) (recs : List Record) (c : κ) :
    (decideGot A isEvent A.fresh ⟨recs.map some, none, false⟩ c).map (·.2) =
      some (decision A c (recs.filter isEvent)) := by
  simp only [decideGot, decision]
  cases A.handlerOf (A.info c).cmdType with
  | none => rfl
  | some i => simp [genLoad_some]

/-- A command changes the object of its own aggregate only, which then is as the command's handler left it. -/
theorem C81_objects (A : App ι α κ) (isEvent : Record → Bool) (objs objs' : ι → α) (recs : List Record)
    (e : Option RErr) (c : κ) (raised : List Event) (i : ι) (hi : A.handlerOf (A.info c).cmdType = some i)
    (h : decideGot A isEvent objs ⟨recs.map some, e, false⟩ c = some (objs', raised)) :
    (∀ j, j ≠ i → objs' j = objs j) ∧
    (objs' i, raised) = (A.aggregate i).handle ((recs.filter isEvent).foldl (A.aggregate i).apply (objs i)) c := by
  simp only [decideGot, hi, genLoad_some, Bool.false_eq_true, if_false] at h
  obtain ⟨h1, h2⟩ := Prod.mk.inj (Option.some.inj h)
  subst h1 h2
  exact ⟨fun j hj => by simp [hj], by simp⟩

/-- **C81 is false**, through the in-memory store with the JSON serializer: the second event of the stream
has the data `null`, which cannot be read back (C61). A command that is allowed three times is let through as
though it had happened once, although it is in the stream three times. -/
def jsonStream : IM.State :=
  IM.run (Json.serializer Json.unbound)
    [.save [65, 33, 49] none none [Json.demoEr Json.goodData], .save [65, 33, 49] none none [Json.demoEr Json.nullText],
     .save [65, 33, 49] none none [Json.demoEr Json.goodData]]

theorem C81_false : ¬ C81_full counter (fun _ => true) := by
  intro h
  obtain ⟨objs, raised, h1, h2⟩ := h
    (plainGot (IM.eventsByStream (Json.serializer Json.unbound) jsonStream none 0 [65, 33, 49])) [49] rfl
  have hr : raised = [⟨[65], [49], [69], [1]⟩] := by
    have : (decideGot counter (fun _ => true) counter.fresh
      (plainGot (IM.eventsByStream (Json.serializer Json.unbound) jsonStream none 0 [65, 33, 49])) [49]).map (·.2) =
        some [⟨[65], [49], [69], [1]⟩] := by decide +kernel
    rw [h1] at this
    simpa using this
  rcases h2 with h2 | ⟨h2, _⟩
  · rw [hr] at h2; cases h2
  · exact absurd h2 (by decide +kernel)

/-- What the store holds at that point: three events in the stream. -/
example : IM.totalEventsInStream jsonStream [65, 33, 49] false = .ok 3 := by decide +kernel

theorem shredded_stream {K : Store σ} {m0 : σ} (hK : UpToShredded K m0) (A : App ι α κ)
    (isEvent : Record → Bool) (C : Codec) (enc : Encryptor) (z : Serializer) (keys nonces : Str) (ops : List HOp)
    (hC : C.Lawful) (he : enc.Lawful) (hz : z.Lawful) (hf : Faithful z) (hk : Bytes keys) (hn : Bytes nonces)
    (hwf : WellFormed C ops) (ht : ∀ c, HOp.world (.call c) ∈ ops → Timed c) (c : κ)
    (hh : (A.handlerOf (A.info c).cmdType).isSome)
    (hs : ∃ r ∈ (IM.eventsByStream z (IM.run z (plainOps C K enc z (start m0 keys nonces) ops)) none 0
        (A.stream c)).recs,
      shredded C K (hrun C K enc z (start m0 keys nonces) ops).world r = true)
    (objs : ι → α) (stamps : Nat → Stamp) :
    (dispatch A isEvent C K enc z stamps objs (hrun C K enc z (start m0 keys nonces) ops) c).2 = none := by
  have hread := (hK C enc z keys nonces ops hC he hz hf hk hn hwf ht).2.1 none 0 (A.stream c)
  obtain ⟨i, hi⟩ := Option.isSome_iff_exists.mp hh
  have hany : (IM.eventsByStream z (IM.run z (plainOps C K enc z (start m0 keys nonces) ops)) none 0
      (A.stream c)).recs.any (shredded C K (hrun C K enc z (start m0 keys nonces) ops).world) = true := by
    rw [List.any_eq_true]; exact hs
  simp only [dispatch]
  rw [show getStream (A.info c).aggType (A.info c).aggId = A.stream c from rfl]
  generalize hg : ES.eventsByStream C K enc z (hrun C K enc z (start m0 keys nonces) ops) none 0 (A.stream c) = g
  obtain ⟨w, got⟩ := g
  rw [hg] at hread
  simp only at hread
  have hd : decideGot A isEvent objs got c = none := by
    simp only [decideGot, hi, hread, decrypted, hany, if_true]
    rw [genLoad_nil _ _ _ (by simp)]
    rfl
  simp only [hd]

/-- **C81 fails by a crash**: with the encrypted store (in-memory or DynamoDB key store), after every history:
once the subject of one event in a stream has been shredded, every command for that stream that has a handler
panics. -/
theorem C81_shredded_panics (A : App ι α κ) (isEvent : Record → Bool) (C : Codec) (enc : Encryptor)
    (z : Serializer) (keys nonces : Str) (ops : List HOp)
    (hC : C.Lawful) (he : enc.Lawful) (hz : z.Lawful) (hf : Faithful z) (hk : Bytes keys) (hn : Bytes nonces)
    (hwf : WellFormed C ops) (ht : ∀ c, HOp.world (.call c) ∈ ops → Timed c) (c : κ)
    (hh : (A.handlerOf (A.info c).cmdType).isSome) (objs : ι → α) (stamps : Nat → Stamp) :
    ((∃ r ∈ (IM.eventsByStream z (IM.run z (plainOps C mem enc z (start Mem.new keys nonces) ops)) none 0
        (A.stream c)).recs, shredded C mem (hrun C mem enc z (start Mem.new keys nonces) ops).world r = true) →
      (dispatch A isEvent C mem enc z stamps objs (hrun C mem enc z (start Mem.new keys nonces) ops) c).2 = none) ∧
    ((∃ r ∈ (IM.eventsByStream z (IM.run z (plainOps C dyn enc z (start (fun _ => none) keys nonces) ops)) none 0
        (A.stream c)).recs, shredded C dyn (hrun C dyn enc z (start (fun _ => none) keys nonces) ops).world r = true) →
      (dispatch A isEvent C dyn enc z stamps objs (hrun C dyn enc z (start (fun _ => none) keys nonces) ops) c).2
        = none) :=
  ⟨fun hs => shredded_stream C31_partial.1 A isEvent C enc z keys nonces ops hC he hz hf hk hn hwf ht c hh hs objs stamps,
   fun hs => shredded_stream C31_partial.2 A isEvent C enc z keys nonces ops hC he hz hf hk hn hwf ht c hh hs objs stamps⟩

/-- The hypotheses are met after `hist31`, which shreds subject 1 of the stream `A!1`. -/
example : (∃ r ∈ (IM.eventsByStream demoAll (IM.run demoAll (plainOps codec0 mem (gcm toyAead) demoAll
      (start Mem.new (tape0 64) (tape0 96)) hist31)) none 0 (counter.stream [49])).recs,
    shredded codec0 mem (hrun codec0 mem (gcm toyAead) demoAll (start Mem.new (tape0 64) (tape0 96)) hist31).world r
      = true) ∧
    (counter.handlerOf (counter.info [49]).cmdType).isSome := by
  decide +kernel

/-- **C81**, what holds: over the encrypted store, after every history, if no event of the stream belongs to
a shredded subject and all its event types are bound, a program that has just started decides on the whole
stream, in plain text. Missing: read errors, unbound types and shredded subjects, for all of which it is
false. (C35 treats the in-memory store.) -/
theorem C81_partial (A : App ι α κ) (isEvent : Record → Bool) (C : Codec) (enc : Encryptor) (z : Serializer)
    (keys nonces : Str) (ops : List HOp) (hC : C.Lawful) (he : enc.Lawful) (hz : z.Lawful) (hf : Faithful z)
    (hk : Bytes keys) (hn : Bytes nonces) (hwf : WellFormed C ops)
    (ht : ∀ c, HOp.world (.call c) ∈ ops → Timed c) (c : κ) :
    let s := hrun C mem enc z (start Mem.new keys nonces) ops
    let plain := IM.eventsByStream z (IM.run z (plainOps C mem enc z (start Mem.new keys nonces) ops)) none 0 (A.stream c)
    (∀ r ∈ plain.recs, shredded C mem s.world r = false ∧ isEvent r = true) →
      (decideGot A isEvent A.fresh (ES.eventsByStream C mem enc z s none 0 (A.stream c)).2 c).map (·.2) =
        some (decision A c plain.recs) := by
  intro s plain hp
  have hread := (C31_partial.1 C enc z keys nonces ops hC he hz hf hk hn hwf ht).2.1 none 0 (A.stream c)
  rw [hread]
  have hno : plain.recs.any (shredded C mem s.world) = false := by
    rw [List.any_eq_false]
    intro r hr
    simp [(hp r hr).1]
  have htw : plain.recs.takeWhile (fun r => ! shredded C mem s.world r) = plain.recs := by
    have hall : ∀ r ∈ plain.recs, (! shredded C mem s.world r) = true := fun r hr => by simp [(hp r hr).1]
    clear_value plain
    clear hp hno hread
    obtain ⟨recs, e⟩ := plain
    simp only at hall ⊢
    induction recs with
    | nil => rfl
    | cons r rs ih =>
      rw [List.takeWhile_cons, if_pos (hall r (by simp)), ih (fun r hr => hall r (by simp [hr]))]
  have hfil : plain.recs.filter isEvent = plain.recs := List.filter_eq_self.mpr (fun r hr => (hp r hr).2)
  show Option.map _ (decideGot A isEvent A.fresh (decrypted (shredded C mem s.world) plain) c) = _
  simp only [decideGot, decision, decrypted, hno, htw]
  cases A.handlerOf (A.info c).cmdType with
  | none => rfl
  | some i => simp [genLoad_some, hfil]

/-- The hypotheses are met: two subjects, none shredded. -/
example : ∀ r ∈ (IM.eventsByStream demoAll (IM.run demoAll (plainOps codec0 mem (gcm toyAead) demoAll
      (start Mem.new (tape0 64) (tape0 96)) (hist31.take 4))) none 0 (counter.stream [49])).recs,
    shredded codec0 mem (hrun codec0 mem (gcm toyAead) demoAll (start Mem.new (tape0 64) (tape0 96))
      (hist31.take 4)).world r = false := by
  decide +kernel

/-! ## C82 -/

/-- An application whose only command raises two events; the first is one that the example serializer
rejects if the command says so. -/
def pair : App Unit Unit (Str × Bool) where
  objects := [()]
  aggregate := fun _ => {
    apply := fun _ _ => ()
    handle := fun _ c => ((), [⟨[65], c.1, [69], if c.2 then [255] else [1]⟩, ⟨[65], c.1, [69], [2]⟩])
    commandTypes := [[67]] }
  fresh := fun _ => ()
  info := fun c => ⟨[67], [65], c.1⟩

/-- The full claim of **C82**, for commands handled one at a time: all events of a command are saved, or
none. -/
def C82_full (z : Serializer) (A : App ι α κ) : Prop :=
  ∀ (items : List (Item κ)) (p : Nat) (stamps : Nat → Stamp) (c : κ), (∀ it ∈ items, it.Guarded z) →
    (Cqrs.dispatch A z stamps ⟨(Serial.run A z items).objs p, (Serial.run A z items).store⟩ c).2 = .ok [] ∨
    (Cqrs.dispatch A z stamps ⟨(Serial.run A z items).objs p, (Serial.run A z items).store⟩ c).2 =
      .ok (decideEvents A z ((Serial.run A z items).objs p) (Serial.run A z items).store c).2

/-- **C82 is false**: the first event is rejected, the second is saved all the same. -/
theorem C82_false : ¬ C82_full demo pair := by
  intro h
  have := h [] 0 stamp0 ([49], true) (by simp)
  exact absurd this (by decide)

/-- **C82 fails when the program stops between two saves**: the first event is in the store, the second is
not, and the program that had it in memory is gone. -/
theorem C82_false_crash : ∃ steps : List (SysStep (Str × Bool)),
    (decideEvents pair demo pair.fresh IM.init ([49], false)).2.length = 2 ∧
    ((IM.events demo (Sys.run pair demo (.call 0 0 ([49], false) :: steps)).store none 0).recs.map (·.data)) = [[1]] := by
  exact ⟨[.save 0 ⟨[85], 7⟩], by decide, by decide⟩

/-- **C82, interleaving**: the events of two commands for one stream can be mixed. -/
theorem C82_false_mixed : ∃ steps : List (SysStep (Str × Bool)),
    (∀ g, (Sys.run pair demo steps).pending g = []) ∧
    ((IM.eventsByStream demo (Sys.run pair demo steps).store none 0 [65, 33, 49]).recs.map (·.data))
      = [[1], [1], [2], [2]] := by
  refine ⟨[.call 0 0 ([49], false), .call 1 1 ([49], false), .save 0 ⟨[85], 7⟩, .save 1 ⟨[85], 7⟩,
    .save 0 ⟨[85], 7⟩, .save 1 ⟨[85], 7⟩], ?_, by decide⟩
  intro g
  match g with
  | 0 => decide
  | 1 => decide
  | g + 2 =>
    have h1 : g + 2 ≠ 1 := by omega
    simp [Sys.run, Sys.step, Sys.init, decideEvents, pair, App.handlerOf, h1]

/-- **C82**, what holds: commands handled one at a time on the in-memory store, in every history: if the
serializer accepts every event the command raises, they are all saved, one after the other and in order, behind
everything that was there; a command that raises one event saves it or nothing. Missing: rejected events,
stops and overlapping commands, for which it is false. -/
theorem C82_partial {z : Serializer} (hz : z.Lawful) (A : App ι α κ) (items : List (Item κ))
    (hg : ∀ it ∈ items, it.Guarded z) (p : Nat) (stamps : Nat → Stamp) (c : κ) (accepts : Event → Bool)
    (hacc : ∀ e g q t, (z.ser (mkRecord (getStream e.aggType e.aggId) g q (toRecord t e))).isSome = accepts e) :
    let raised := (decideEvents A z ((Serial.run A z items).objs p) (Serial.run A z items).store c).2
    let r := Cqrs.dispatch A z stamps ⟨(Serial.run A z items).objs p, (Serial.run A z items).store⟩ c
    ((∀ e ∈ raised, accepts e = true) → r.2 = .ok raised ∧ ∃ news,
      IM.events z r.1.store none 0 = ⟨(IM.events z (Serial.run A z items).store none 0).recs ++ news, none⟩ ∧
      Each (Stored z) raised news) ∧
    (raised.length ≤ 1 → r.2 = .ok raised ∨
      (r.2 = .ok [] ∧ (IM.events z r.1.store none 0).recs = (IM.events z (Serial.run A z items).store none 0).recs)) := by
  intro raised r
  have hsaved := C35_saved hz A items hg p stamps c accepts hacc
  obtain ⟨saved, news, h1, h2, h3⟩ := C35_persists hz A items hg p stamps c
  have heq : saved = raised.filter accepts := by
    rw [hsaved] at h1
    injection h1 with h1
    exact h1.symm
  refine ⟨fun hall => ?_, fun hlen => ?_⟩
  · have : raised.filter accepts = raised := List.filter_eq_self.mpr hall
    rw [this] at heq
    subst heq
    exact ⟨h1, news, h2, h3⟩
  · match hr : raised, hlen with
    | [], _ => left; rw [heq] at h1; exact h1
    | [e], _ =>
      cases ha : accepts e with
      | true => left; rw [heq] at h1; simpa [ha] using h1
      | false =>
        right
        have hs : saved = [] := by simpa [ha] using heq
        subst hs
        refine ⟨h1, ?_⟩
        cases h3
        show (IM.events z r.1.store none 0).recs = _
        rw [show IM.events z r.1.store none 0 = _ from h2]
        simp

/-- A command whose events are all accepted, after another command. -/
example : (Cqrs.dispatch pair demo stamp0 ⟨(Serial.run pair demo [.dispatch 0 stamp0 ([50], true)]).objs 0,
    (Serial.run pair demo [.dispatch 0 stamp0 ([50], true)]).store⟩ ([49], false)).2
    = .ok [⟨[65], [49], [69], [1]⟩, ⟨[65], [49], [69], [2]⟩] := by decide

end RangeDB.Disp

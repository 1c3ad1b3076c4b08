import Verif.Proof.Cqrs
import Verif.Base.Demo

/-!
# C35, C71: command handling

"Handling a command loads exactly the events of the command's stream, in order, and persists exactly the
events the handler returns." The second half holds; the first does not, because the aggregate object is
never reset between commands.
-/

namespace RangeDB.Cqrs

variable {z : Serializer} {ι σ κ : Type} [DecidableEq ι]

/-! ## The example application: a counter that accepts at most three events per stream -/

/-- One aggregate whose state is the number of events seen; a command is refused from three on. -/
def counter : App Unit Nat Str where
  objects := [()]
  aggregate := fun _ => {
    apply := fun n _ => n + 1
    handle := fun n id => (n, if n < 3 then [⟨[65], id, [69], [1]⟩] else [])
    commandTypes := [[67]] }
  fresh := fun _ => 0
  info := fun id => ⟨[67], [65], id⟩

/-- A constant UUID and clock. -/
def stamp0 : Nat → Stamp := fun _ => ⟨[85], 7⟩

/-! ## What is persisted -/

/-- **C35** (what is persisted): after any single-threaded history, `Dispatch` returns a list of events,
and exactly these events, in this order, each on the stream of its own aggregate, are what the store
holds afterwards in addition to what it held before. -/
theorem C35_persists (hz : z.Lawful) (A : App ι σ κ) (items : List (Item κ))
    (hg : ∀ it ∈ items, it.Guarded z) (p : Nat) (stamps : Nat → Stamp) (c : κ) :
    ∃ saved news,
      (dispatch A z stamps ⟨(Serial.run A z items).objs p, (Serial.run A z items).store⟩ c).2 = .ok saved ∧
      IM.events z (dispatch A z stamps
          ⟨(Serial.run A z items).objs p, (Serial.run A z items).store⟩ c).1.store none 0
        = ⟨(IM.events z (Serial.run A z items).store none 0).recs ++ news, none⟩ ∧
      Each (Stored z) saved news := by
  obtain ⟨L, h⟩ := serial_inv hz A items hg
  obtain ⟨L', saved, h1, h2, _, ⟨news, h4, h5⟩, _⟩ := dispatch_spec hz A stamps
    (st := ⟨(Serial.run A z items).objs p, (Serial.run A z items).store⟩) h c
  refine ⟨saved, news, h1, ?_, h5⟩
  rw [events_all h2, events_all h, h4]

/-- **C35** (nothing else is dropped): the events returned are the events the handler raised, without
those the serializer rejects; in particular all of them if it accepts them all. -/
theorem C35_saved (hz : z.Lawful) (A : App ι σ κ) (items : List (Item κ))
    (hg : ∀ it ∈ items, it.Guarded z) (p : Nat) (stamps : Nat → Stamp) (c : κ) (accepts : Event → Bool)
    (hacc : ∀ e g q t, (z.ser (mkRecord (getStream e.aggType e.aggId) g q (toRecord t e))).isSome
      = accepts e) :
    (dispatch A z stamps ⟨(Serial.run A z items).objs p, (Serial.run A z items).store⟩ c).2
      = .ok ((decideEvents A z ((Serial.run A z items).objs p) (Serial.run A z items).store c).2.filter
          accepts) := by
  obtain ⟨L, h⟩ := serial_inv hz A items hg
  obtain ⟨L', saved, h1, _, _, _, h6⟩ := dispatch_spec hz A stamps
    (st := ⟨(Serial.run A z items).objs p, (Serial.run A z items).store⟩) h c
  rw [h1, h6 accepts (fun e _ => hacc e)]

example : (dispatch counter Demo.demo stamp0
    ⟨(Serial.run counter Demo.demo [.dispatch 0 stamp0 [49]]).objs 0,
     (Serial.run counter Demo.demo [.dispatch 0 stamp0 [49]]).store⟩ [49]).2
    = .ok [⟨[65], [49], [69], [1]⟩] := by rfl

/-- Non-vacuity of `C35_saved`: the example serializer's verdict depends only on the event. -/
example : ∃ accepts : Event → Bool, ∀ e g q t,
    (Demo.demo.ser (mkRecord (getStream e.aggType e.aggId) g q (toRecord t e))).isSome = accepts e :=
  ⟨fun e => (Demo.demo.ser (mkRecord [] 0 0 (toRecord ⟨[], 0⟩ e))).isSome, by
    intro e g q t
    simp only [Demo.demo, Demo.ser, mkRecord, toRecord]
    split <;> rfl⟩

/-! ## What the decision depends on -/

/-- **C35** (full statement of the first half): whatever happened before, the events raised for a command
are a function of the command and of the records of its stream. -/
def C35_full (z : Serializer) (A : App ι σ κ) : Prop :=
  ∀ (items : List (Item κ)), (∀ it ∈ items, it.Guarded z) → ∀ (p : Nat) (c : κ),
    (decideEvents A z ((Serial.run A z items).objs p) (Serial.run A z items).store c).2
      = decision A c (IM.eventsByStream z (Serial.run A z items).store none 0 (A.stream c)).recs

/-- **C35 is false**, even when all commands concern one stream: the events are applied again, to the same
object, by every command. The counter refuses the third command although its stream holds two events. -/
theorem C35_false : ¬ C35_full Demo.demo counter := by
  intro h
  have := h [.dispatch 0 stamp0 [49], .dispatch 0 stamp0 [49]] (by simp [Item.Guarded]) 0 [49]
  exact absurd this (by decide)

/-- Does the item dispatch, in process `p`, a command handled by object `i`? -/
def touches (A : App ι σ κ) (p : Nat) (i : ι) : Item κ → Prop
  | .dispatch q _ c => q = p ∧ A.handlerOf (A.info c).cmdType = some i
  | _ => False

theorem untouched (A : App ι σ κ) (p : Nat) (i : ι) (items : List (Item κ))
    (h : ∀ it ∈ items, ¬ touches A p i it) : ∀ (S : Serial ι σ), S.objs p i = A.fresh i →
    (items.foldl (Serial.step A z) S).objs p i = A.fresh i := by
  induction items with
  | nil => intro S hS; exact hS
  | cons it items ih =>
    intro S hS
    refine ih (fun x hx => h x (by simp [hx])) _ ?_
    have hit := h it (by simp)
    cases it with
    | dispatch q stamps c =>
      simp only [Serial.step, dispatch, decideEvents]
      by_cases hq : p = q
      · subst hq
        rw [if_pos rfl]
        cases hh : A.handlerOf (A.info c).cmdType with
        | none => exact hS
        | some j =>
          have hij : i ≠ j := by
            intro hij; subst hij
            exact hit ⟨rfl, hh⟩
          simp only [if_neg hij]; exact hS
      · rw [if_neg hq]; exact hS
    | restart q =>
      simp only [Serial.step]
      by_cases hq : p = q
      · rw [if_pos hq]
      · rw [if_neg hq]; exact hS
    | other op => exact hS

/-- **C35 (partial)**: the claim holds for the first command an aggregate handles after the program
started (or was restarted): `recent` is what happened since then. -/
theorem C35_partial (hz : z.Lawful) (A : App ι σ κ) (old recent : List (Item κ))
    (hg : ∀ it ∈ old ++ recent, it.Guarded z) (p : Nat) (c : κ) (i : ι)
    (hi : A.handlerOf (A.info c).cmdType = some i)
    (hstart : old = [] ∨ ∃ old', old = old' ++ [.restart p])
    (hu : ∀ it ∈ recent, ¬ touches A p i it) :
    (decideEvents A z ((Serial.run A z (old ++ recent)).objs p) (Serial.run A z (old ++ recent)).store c).2
      = decision A c
          (IM.eventsByStream z (Serial.run A z (old ++ recent)).store none 0 (A.stream c)).recs := by
  have hfresh : (Serial.run A z (old ++ recent)).objs p i = A.fresh i := by
    simp only [Serial.run, List.foldl_append]
    refine untouched A p i recent hu _ ?_
    rcases hstart with rfl | ⟨old', rfl⟩
    · rfl
    · simp [Serial.step]
  simp only [decideEvents, decision, hi, load, hfresh, App.stream]

example : (decideEvents counter Demo.demo
    ((Serial.run counter Demo.demo ([.dispatch 0 stamp0 [49], .restart 0] ++ [.dispatch 1 stamp0 [49]])).objs 0)
    (Serial.run counter Demo.demo ([.dispatch 0 stamp0 [49], .restart 0] ++ [.dispatch 1 stamp0 [49]])).store
    [49]).2 = [⟨[65], [49], [69], [1]⟩] := by decide

/-! ## When re-applying events does no harm -/

/-- An aggregate for which seeing the beginning of a stream once more makes no observable difference:
`Eqv` relates states that its handlers cannot tell apart. -/
structure Absorbing (a : Aggregate σ κ) (s0 : σ) (Eqv : σ → σ → Prop) : Prop where
  refl : ∀ s, Eqv s s
  trans : ∀ {s t u}, Eqv s t → Eqv t u → Eqv s u
  apply : ∀ {s t} r, Eqv s t → Eqv (a.apply s r) (a.apply t r)
  handle : ∀ {s t} c, Eqv s t → (a.handle s c).2 = (a.handle t c).2
  handle_keeps : ∀ s c, Eqv (a.handle s c).1 s
  absorb : ∀ rs rs' : List Record, Eqv ((rs ++ rs').foldl a.apply (rs.foldl a.apply s0)) ((rs ++ rs').foldl a.apply s0)

theorem Absorbing.foldl {a : Aggregate σ κ} {s0 : σ} {Eqv : σ → σ → Prop} (h : Absorbing a s0 Eqv)
    (rs : List Record) : ∀ {s t}, Eqv s t → Eqv (rs.foldl a.apply s) (rs.foldl a.apply t) := by
  induction rs with
  | nil => intro s t e; exact e
  | cons r rs ih => intro s t e; exact ih (h.apply r e)

theorem Absorbing.load {a : Aggregate σ κ} {s0 : σ} {Eqv : σ → σ → Prop} (h : Absorbing a s0 Eqv)
    {s : σ} {rs : List Record} (hs : Eqv s (rs.foldl a.apply s0)) (rs' : List Record) :
    Eqv ((rs ++ rs').foldl a.apply s) ((rs ++ rs').foldl a.apply s0) :=
  h.trans (h.foldl _ hs) (h.absorb rs rs')

/-- Is the item harmless for the commands of process `p`, object `i`, all of which are about stream `st`?
Other commands and other users of the store may do anything but delete the stream. -/
def single (A : App ι σ κ) (p : Nat) (i : ι) (st : Str) : Item κ → Prop
  | .dispatch q _ c => q = p → A.handlerOf (A.info c).cmdType = some i → A.stream c = st
  | .restart _ => True
  | .other op => keeps st op

/-- **C35 (partial, one stream)**: if the aggregate is absorbing and the process uses it for one stream
only, every decision is a function of the command and the stream. -/
theorem C35_one_stream_partial (hz : z.Lawful) (A : App ι σ κ) (items : List (Item κ))
    (hg : ∀ it ∈ items, it.Guarded z) (p : Nat) (c : κ) (i : ι)
    (hi : A.handlerOf (A.info c).cmdType = some i) {Eqv : σ → σ → Prop}
    (ha : Absorbing (A.aggregate i) (A.fresh i) Eqv)
    (hone : ∀ it ∈ items, single A p i (A.stream c) it) :
    (decideEvents A z ((Serial.run A z items).objs p) (Serial.run A z items).store c).2
      = decision A c (IM.eventsByStream z (Serial.run A z items).store none 0 (A.stream c)).recs := by
  have key : ∀ (items : List (Item κ)) (S : Serial ι σ) (L : Log), (∀ it ∈ items, it.Guarded z) →
      (∀ it ∈ items, single A p i (A.stream c) it) → Inv z S.store L →
      (∃ a b, L.stream (A.stream c) = a ++ b ∧ Eqv (S.objs p i) (a.foldl (A.aggregate i).apply (A.fresh i))) →
      ∃ L, Inv z (items.foldl (Serial.step A z) S).store L ∧
        ∃ a b, L.stream (A.stream c) = a ++ b ∧
          Eqv ((items.foldl (Serial.step A z) S).objs p i) (a.foldl (A.aggregate i).apply (A.fresh i)) := by
    intro items
    induction items with
    | nil => intro S L _ _ h he; exact ⟨L, h, he⟩
    | cons it items ih =>
      intro S L hg hone h he
      obtain ⟨a, b, hab, he⟩ := he
      have hit := hone it (by simp)
      have hgit := hg it (by simp)
      have ih' := fun S L h he => ih S L (fun x hx => hg x (by simp [hx])) (fun x hx => hone x (by simp [hx])) h he
      cases it with
      | dispatch q stamps d =>
        obtain ⟨L', saved, _, h2, _, h4, _⟩ := dispatch_spec hz A stamps (st := ⟨S.objs q, S.store⟩) h d
        obtain ⟨news, hn⟩ := h4.stream (A.stream c)
        refine ih' _ L' h2 ?_
        by_cases hq : p = q
        · subst hq
          by_cases hh : A.handlerOf (A.info d).cmdType = some i
          · have hst := hit rfl hh
            refine ⟨a ++ b, news, by rw [hn, hab], ?_⟩
            simp only [Serial.step, dispatch, decideEvents, hh, if_true]
            refine ha.trans (ha.handle_keeps _ _) ?_
            have : getStream (A.info d).aggType (A.info d).aggId = A.stream c := hst
            rw [this, load, stream_recs h, hab]
            exact ha.load he b
          · refine ⟨a, b ++ news, by rw [hn, hab, List.append_assoc], ?_⟩
            simp only [Serial.step, dispatch, decideEvents, if_true]
            cases hh' : A.handlerOf (A.info d).cmdType with
            | none => exact he
            | some j =>
              have hij : i ≠ j := by intro e; subst e; exact hh hh'
              simp only [if_neg hij]; exact he
        · refine ⟨a, b ++ news, by rw [hn, hab, List.append_assoc], ?_⟩
          simp only [Serial.step, if_neg hq]; exact he
      | restart q =>
        refine ih' _ L h ?_
        by_cases hq : p = q
        · exact ⟨[], L.stream (A.stream c), by simp, by simp only [Serial.step, if_pos hq]; exact ha.refl _⟩
        · exact ⟨a, b, hab, by simp only [Serial.step, if_neg hq]; exact he⟩
      | other op =>
        obtain ⟨news, hn⟩ := specStep_stream hz L op (A.stream c) hit
        exact ih' _ _ ⟨IM.specStep_WF hz h.1 op, IM.step_sim hz h.1 h.2 op hgit⟩
          ⟨a, b ++ news, by rw [hn, hab, List.append_assoc], he⟩
  obtain ⟨L, h, a, b, hab, he⟩ := key items (Serial.init A) Log.empty hg hone inv_init ⟨[], [], rfl, ha.refl _⟩
  change Inv z (Serial.run A z items).store L at h
  have hl := ha.load he b
  simp only [decideEvents, decision, hi]
  rw [show getStream (A.info c).aggType (A.info c).aggId = A.stream c from rfl, load, stream_recs h, hab]
  exact ha.handle c hl

/-! ## Overlapping commands on one aggregate -/

/-- `l` is an interleaving of `a` and `b`. -/
inductive Interleaves {α : Type} : List α → List α → List α → Prop where
  | nil : Interleaves [] [] []
  | left {x a b l} : Interleaves a b l → Interleaves (x :: a) b (x :: l)
  | right {x a b l} : Interleaves a b l → Interleaves a (x :: b) (x :: l)

/-- **C71** (full statement): two commands handled at the same time by the same aggregate each yield their
own events. -/
def C71_full : Prop :=
  ∀ (e0 e1 : List Event) (l : List RaceStep),
    Interleaves (handleSteps 0 e0) (handleSteps 1 e1) l →
    (Race.run l).result 0 = some e0 ∧ (Race.run l).result 1 = some e1

/-- An event of aggregate "A", ID `i`. -/
private def evN (i : Nat) : Event := ⟨[65], [i], [69], [1]⟩

/-- **C71**: both commands can yield both events, so that each event is saved twice. -/
theorem C71_duplicated :
    ∃ l, Interleaves (handleSteps 0 [evN 0]) (handleSteps 1 [evN 1]) l ∧
      (Race.run l).result 0 = some [evN 0, evN 1] ∧ (Race.run l).result 1 = some [evN 0, evN 1] :=
  ⟨[.raise 0 [evN 0], .raise 1 [evN 1], .ret 0, .ret 1, .reset 0, .reset 1],
    .left (.right (.left (.right (.left (.right .nil))))), by decide, by decide⟩

/-- **C71**: a command can yield nothing although it raised an event: the event is lost. -/
theorem C71_lost :
    ∃ l, Interleaves (handleSteps 0 [evN 0]) (handleSteps 1 [evN 1]) l ∧
      (Race.run l).result 0 = some [evN 0] ∧ (Race.run l).result 1 = some [] :=
  ⟨[.raise 0 [evN 0], .ret 0, .raise 1 [evN 1], .reset 0, .ret 1, .reset 1],
    .left (.left (.right (.left (.right (.right .nil))))), by decide, by decide⟩

/-- **C71 is false.** -/
theorem C71_false : ¬ C71_full := by
  intro h
  obtain ⟨l, hl, _, h1⟩ := C71_lost
  have := (h _ _ l hl).2
  rw [h1] at this
  exact absurd this (by decide)

/-- **C71 (partial)**: if the calls of `Handle` do not overlap, every call yields exactly the events it
raised, whatever was handled before. -/
theorem C71_partial (before : List (Nat × List Event)) (g : Nat) (es : List Event) :
    (Race.run (before.flatMap (fun x => handleSteps x.1 x.2) ++ handleSteps g es)).result g = some es := by
  have key : ∀ (before : List (Nat × List Event)) (r : Race), r.pendingEvents = [] →
      ((before.flatMap (fun x => handleSteps x.1 x.2)).foldl Race.step r).pendingEvents = [] := by
    intro before
    induction before with
    | nil => intro r h; exact h
    | cons x xs ih =>
      intro r h
      simp only [List.flatMap_cons, List.foldl_append]
      exact ih _ rfl
  have h0 := key before Race.init rfl
  simp only [Race.run, List.foldl_append]
  rw [show ∀ r : Race, (handleSteps g es).foldl Race.step r
    = Race.step (Race.step (Race.step r (.raise g es)) (.ret g)) (.reset g) from fun _ => rfl]
  simp only [Race.step, h0, if_true, List.nil_append]

example : (Race.run ([(1, [evN 1])].flatMap (fun x => handleSteps x.1 x.2) ++ handleSteps 0 [evN 0])).result 0
    = some [evN 0] := by decide

end RangeDB.Cqrs

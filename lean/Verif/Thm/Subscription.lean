import Verif.Proof.Subscription
import Verif.Base.Demo

/-! # Properties of subscriptions: C19, C20, C21 and C53

Vocabulary of the statements (defined in `Verif/Model/Subscription.lean`): `exec z p (init p L) ls = some s`
says that the schedule `ls`, any list of actions of savers, broadcaster and subscriber, leads from a store
holding `L` to state `s`; `s.out` is what the subscriber's consumer received, oldest first; `s.saved` every
record ever stored; `s.log.recs` the records live in the store; `p.wants r` whether the subscription is
for records like `r`; `Quiescent s` that all queues have drained and the subscription is alive.
-/

namespace RangeDB.Sub

open Demo

variable {z : Serializer} {p : Params}

theorem inc_ext {a b : List Record} (ha : Inc a) (hb : Inc b) (h : ∀ r, r ∈ a ↔ r ∈ b) : a = b := by
  have hnd : ∀ {l : List Record}, Inc l → l.Nodup := by
    intro l hl
    rw [List.nodup_iff_pairwise_ne]
    exact hl.imp (by intro x y hxy he; subst he; omega)
  refine List.Perm.eq_of_pairwise (le := fun (x y : Record) => x.gsn < y.gsn) ?_ ha hb
    ((List.perm_ext_iff_of_nodup (hnd ha) (hnd hb)).mpr h)
  intro x y _ _ h1 h2
  omega

/-- Without deletions everything stored is live. -/
theorem saved_live (ls : List Label) : ∀ {s s' : State}, (∀ st, Label.delete st ∉ ls) →
    s.log.recs = s.saved → exec z p s ls = some s' → s'.log.recs = s'.saved := by
  induction ls with
  | nil => intro s s' _ h hs; simp only [exec] at hs; obtain rfl := Option.some.inj hs; exact h
  | cons l ls ih =>
    intro s s' hd h hs
    simp only [exec] at hs
    split at hs
    · simp at hs
    · rename_i s1 h1
      refine ih (fun st hst => hd st (by simp [hst])) ?_ hs
      cases l with
      | commit st ers =>
        simp only [step] at h1
        split at h1
        · simp at h1
        split at h1
        · simp at h1
        obtain rfl := Option.some.inj h1
        simp only [Log.append, h]
      | orphan st ers =>
        simp only [step] at h1
        split at h1
        · simp at h1
        obtain rfl := Option.some.inj h1
        simp only [Log.append, h]
      | delete st => exact absurd (by simp) (hd st)
      | fail =>
        simp only [step] at h1
        split at h1
        · rename_i s2 h2
          split at h1
          · simp at h1
          · obtain rfl := Option.some.inj h1
            simp only [subStep] at h2
            repeat' split at h2
            all_goals first
              | (obtain rfl := Option.some.inj h2; exact h)
              | simp at h2
        · simp at h1
      | _ =>
        simp only [step, subStep] at h1
        repeat' split at h1
        all_goals first
          | (obtain rfl := Option.some.inj h1; exact h)
          | simp at h1

/-! ## Order (part of C19, and of C20 and C21) -/

/-- **C19/C20/C21, order.** On either store, in every schedule, for every kind of subscription and every
starting point, whatever times out or is cancelled, deleted or fails: the consumer receives records in
strictly increasing global order (so none twice), each of them was really saved, and each is of a
requested type. -/
theorem C19_order (hz : z.Lawful) (hv : p.Valid) {L : Log} (hL : L.WF) (ls : List Label) (s : State)
    (hx : exec z p (init p L) ls = some s) :
    s.out.Pairwise (fun a b => a.gsn < b.gsn) ∧ ∀ r ∈ s.out, r ∈ s.saved ∧ p.wants r = true := by
  have h := safe_exec hz hv ls (safe_init (p := p) hL) hx
  exact ⟨h.outInc, h.outSaved⟩

/-- Completeness for both stores: the common core of C19, C20 and C21. -/
theorem complete (hz : z.Lawful) (hv : p.Valid) (h1 : p.topics.length = 1) {L : Log} (hL : L.WF)
    (ls : List Label) (s : State) (hser : Serial z p (init p L) ls)
    (hx : exec z p (init p L) ls = some s) (hq : Quiescent s) :
    ∀ r ∈ s.log.recs, p.wants r = true → s.floor < r.gsn → r ∈ s.out := by
  intro r hr hw hf
  obtain ⟨q1, q2, q3, q4, q5⟩ := hq
  have h := comp_exec hz hv h1 ls (safe_init (p := p) hL) comp_init hser hx q5
  have hpc := h.pc
  rw [q4] at hpc
  rcases hpc.2 r ⟨hr, hw, hf⟩ with g | g
  · exact g
  · simp [flow, q1, q2, q3] at g

theorem exactly_once (hz : z.Lawful) (hv : p.Valid) (h1 : p.topics.length = 1)
    (hn : p.startFrom = some 0) {L : Log} (hL : L.WF)
    (ls : List Label) (s : State) (hser : Serial z p (init p L) ls)
    (hx : exec z p (init p L) ls = some s) (hq : Quiescent s) (hd : ∀ st, Label.delete st ∉ ls) :
    s.out = s.saved.filter (fun r => p.wants r) := by
  have hS := safe_exec hz hv ls (safe_init (p := p) hL) hx
  have hl : s.log.recs = s.saved := saved_live ls hd (by rfl) hx
  have hf : s.floor = 0 := floor_exec hn ls (by simp [init, hn]) hx
  apply inc_ext hS.outInc (hS.savedInc.filter _)
  intro r
  rw [List.mem_filter]
  constructor
  · exact fun h => hS.outSaved r h
  · intro h
    have hr : r ∈ s.log.recs := hl ▸ h.1
    refine complete hz hv h1 hL ls s hser hx hq r hr h.2 ?_
    have := (hS.wf.bounded r hr).1
    omega

/-! ## C19 -/

/-- **C19.** LevelDB store, subscription to all events or to one aggregate type, started with
`StartFrom(0)`: in every schedule, once everything has come to rest, the consumer has received every live
event; and if no stream was deleted, exactly the list of all events ever saved (of that type), each once
and in order. -/
theorem C19_exactly_once (hz : z.Lawful) (hh : p.holds = true)
    (ht : p.topics = [none] ∨ ∃ t, p.topics = [some t]) (hn : p.startFrom = some 0)
    {L : Log} (hL : L.WF) (ls : List Label) (s : State) (hx : exec z p (init p L) ls = some s)
    (hq : Quiescent s) :
    (∀ r ∈ s.log.recs, p.wants r = true → r ∈ s.out) ∧
    ((∀ st, Label.delete st ∉ ls) → s.out = s.saved.filter (fun r => p.wants r)) := by
  have hv : p.Valid := by
    rcases ht with h | ⟨t, h⟩
    · exact Or.inl h
    · exact Or.inr ⟨[t], by simp, by simp [h]⟩
  have h1 : p.topics.length = 1 := by
    rcases ht with h | ⟨t, h⟩ <;> simp [h]
  have hser := serial_of_holds hh _ ls s hx
  refine ⟨fun r hr hw => ?_, exactly_once hz hv h1 hn hL ls s hser hx hq⟩
  have hf : s.floor = 0 := floor_exec hn ls (by simp [init, hn]) hx
  have hS := safe_exec hz hv ls (safe_init (p := p) hL) hx
  refine complete hz hv h1 hL ls s hser hx hq r hr hw ?_
  have := (hS.wf.bounded r hr).1
  omega

/-- Parameters: LevelDB, all events, from 0. -/
def ldAll : Params := ⟨true, [none], some 0⟩

/-- A schedule in which a save commits between the first read and the registration, and another one
between the registration and the second read. -/
def ls19 : List Label :=
  [.commit sA [evA [1]], .accept 0, .broadcast false, .sub, .sub, .sub, .sub,
   .commit sA [evA [2], evA [3]], .accept 0, .broadcast false, .accept 0, .sub, .broadcast false, .sub,
   .sub, .sub, .commit sB [evB [4]], .accept 0, .sub, .broadcast false, .sub, .sub, .sub]

example : (exec demo ldAll (init ldAll Log.empty) ls19).map
    (fun s => (s.out.map (·.gsn), s.queue.length, s.buf.length, s.savers.length, s.pc, s.cancelled))
    = some ([1, 2, 3, 4], 0, 0, 0, .working, false) := by decide

/-- **C19 fails for several types**, even on the LevelDB store: the types are read one after the other,
an event of the first type saved in between is skipped for good. -/
def ld2 : Params := ⟨true, [some [65], some [66]], some 0⟩

theorem C19_false_two_types :
    ∃ ls s, exec demo ld2 (init ld2 Log.empty) ls = some s ∧ Quiescent s ∧
      (∀ st, Label.delete st ∉ ls) ∧
      ∃ r ∈ s.log.recs, ld2.wants r = true ∧ r ∉ s.out := by
  refine ⟨[.sub, .sub, .commit sA [evA [1]], .accept 0, .broadcast false, .commit sB [evB [2]],
    .accept 0, .broadcast false, .sub, .sub, .sub, .sub, .sub, .sub, .sub, .sub, .sub, .sub, .sub],
    (exec demo ld2 (init ld2 Log.empty) [.sub, .sub, .commit sA [evA [1]], .accept 0, .broadcast false,
      .commit sB [evB [2]], .accept 0, .broadcast false, .sub, .sub, .sub, .sub, .sub, .sub, .sub, .sub,
      .sub, .sub, .sub]).get (by decide), by simp, ?_, by simp, mkRecord sA 1 1 (evA [1]),
    by decide, by decide, by decide⟩
  unfold Quiescent
  decide

/-! ## C20 -/

/-- The full claim of **C20**: `StartFrom(n)` on the LevelDB store delivers every live event numbered `n`
or more. -/
def C20_full : Prop :=
  ∀ (n : Nat) (ls : List Label) (s : State),
    exec demo ⟨true, [none], some n⟩ (init ⟨true, [none], some n⟩ Log.empty) ls = some s →
    Quiescent s → ∀ r ∈ s.log.recs, n ≤ r.gsn → r ∈ s.out

/-- **C20 is false**: subscribe from 1 to an empty store, then save the first event. -/
theorem C20_false : ¬ C20_full := by
  intro h
  have hs := h 1 [.sub, .sub, .sub, .sub, .sub, .sub, .sub, .commit sA [evA [1]], .accept 0,
      .broadcast false, .sub]
    ((exec demo ⟨true, [none], some 1⟩ (init ⟨true, [none], some 1⟩ Log.empty)
      [.sub, .sub, .sub, .sub, .sub, .sub, .sub, .commit sA [evA [1]], .accept 0,
      .broadcast false, .sub]).get (by decide)) (by simp) (by unfold Quiescent; decide)
    (mkRecord sA 1 1 (evA [1])) (by decide) (by decide)
  exact absurd hs (by decide)

/-- **C20**, what holds (LevelDB, one topic): every live event numbered above `n` is delivered, and so is
the live event `n` if it existed before the call. Missing: an event numbered `n` saved after the call. -/
theorem C20_partial (hz : z.Lawful) (hh : p.holds = true)
    (ht : p.topics = [none] ∨ ∃ t, p.topics = [some t]) (n : Nat) (hn : p.startFrom = some n)
    {L : Log} (hL : L.WF) (ls : List Label) (s : State) (hx : exec z p (init p L) ls = some s)
    (hq : Quiescent s) :
    (∀ r ∈ s.log.recs, p.wants r = true → n < r.gsn → r ∈ s.out) ∧
    (∀ r ∈ L.recs, r ∈ s.log.recs → p.wants r = true → r.gsn = n → r ∈ s.out) := by
  have hv : p.Valid := by
    rcases ht with h | ⟨t, h⟩
    · exact Or.inl h
    · exact Or.inr ⟨[t], by simp, by simp [h]⟩
  have h1 : p.topics.length = 1 := by
    rcases ht with h | ⟨t, h⟩ <;> simp [h]
  have hser := serial_of_holds hh _ ls s hx
  refine ⟨fun r hr hw hl => ?_, fun r hr hr2 hw hg => ?_⟩
  · have hf : s.floor = n := floor_exec hn ls (by simp [init, hn]) hx
    exact complete hz hv h1 hL ls s hser hx hq r hr hw (by omega)
  · have hF : First p L (init p L) := ⟨Nat.le_refl _, fun _ _ _ _ _ => trivial⟩
    have h := (first_exec hz h1 hL ls hF hx hq.2.2.2.2).pc r hr hr2 hw (by rw [hn, hg])
    rw [hq.2.2.2.1] at h
    exact h

/-! ## C21 -/

/-- Parameters: in-memory store, all events, from 0. -/
def imAll : Params := ⟨false, [none], some 0⟩

/-- The full claim of **C21**. -/
def C21_full : Prop :=
  ∀ (ls : List Label) (s : State), exec demo imAll (init imAll Log.empty) ls = some s →
    Quiescent s → ∀ r ∈ s.log.recs, r ∈ s.out

/-- **C21 is false**: two saves commit as 1 and 2 but broadcast as 2 and 1; event 1 is dropped as
already sent. -/
theorem C21_false : ¬ C21_full := by
  intro h
  have hs := h [.sub, .sub, .sub, .sub, .sub, .sub, .sub, .commit sA [evA [1]], .commit sB [evB [2]],
      .accept 1, .accept 0, .broadcast false, .broadcast false, .sub, .sub]
    ((exec demo imAll (init imAll Log.empty)
      [.sub, .sub, .sub, .sub, .sub, .sub, .sub, .commit sA [evA [1]], .commit sB [evB [2]],
      .accept 1, .accept 0, .broadcast false, .broadcast false, .sub, .sub]).get (by decide))
    (by simp) (by unfold Quiescent; decide) (mkRecord sA 1 1 (evA [1])) (by decide)
  exact absurd hs (by decide)

/-- A second way in which C21 fails: the events a failed batch leaves behind (C06) are live in the store
but no running subscription ever receives them. -/
theorem C21_false_failed_batch : ∃ ls s, exec demo imAll (init imAll Log.empty) ls = some s ∧
    Quiescent s ∧ ∃ r ∈ s.log.recs, r ∉ s.out := by
  refine ⟨[.sub, .sub, .sub, .sub, .sub, .sub, .sub, .orphan sA [evA [1]]],
    (exec demo imAll (init imAll Log.empty)
      [.sub, .sub, .sub, .sub, .sub, .sub, .sub, .orphan sA [evA [1]]]).get (by decide), by simp,
    by unfold Quiescent; decide, mkRecord sA 1 1 (evA [1]), by decide, by decide⟩

/-- **C21**, what holds: if saves do not overlap and none fails part-way, the in-memory store's
subscriptions behave like C19. Missing: overlapping saves and failed batches, for which it is false. -/
theorem C21_partial (hz : z.Lawful) (ht : p.topics = [none] ∨ ∃ t, p.topics = [some t])
    (hn : p.startFrom = some 0) {L : Log} (hL : L.WF) (ls : List Label) (s : State)
    (hx : exec z p (init p L) ls = some s) (hser : Serial z p (init p L) ls) (hq : Quiescent s)
    (hd : ∀ st, Label.delete st ∉ ls) :
    s.out = s.saved.filter (fun r => p.wants r) := by
  have hv : p.Valid := by
    rcases ht with h | ⟨t, h⟩
    · exact Or.inl h
    · exact Or.inr ⟨[t], by simp, by simp [h]⟩
  have h1 : p.topics.length = 1 := by
    rcases ht with h | ⟨t, h⟩ <;> simp [h]
  exact exactly_once hz hv h1 hn hL ls s hser hx hq hd

/-- Two saves that do not overlap. -/
example : (exec demo imAll (init imAll Log.empty)
    [.sub, .commit sA [evA [1]], .accept 0, .sub, .commit sB [evB [2]], .sub, .sub, .accept 0, .sub,
     .broadcast false, .broadcast false, .sub, .sub, .sub, .sub]).map
      (fun s => (s.out.map (·.gsn), s.pc)) = some ([1, 2], .working) := by decide

/-! ## C53 -/

theorem finished_floor (ls : List Label) : ∀ {s s' : State}, s.pc = .finished → exec z p s ls = some s' →
    s'.floor = s.floor := by
  induction ls with
  | nil => intro s s' _ hs; simp only [exec] at hs; obtain rfl := Option.some.inj hs; rfl
  | cons l ls ih =>
    intro s s' h hs
    simp only [exec] at hs
    split at hs
    · simp at hs
    · rename_i s1 h1
      have : s1.floor = s.floor ∧ s1.pc = .finished := by
        have hf : subStep p s = none := by simp [subStep, h]
        cases l <;> simp only [step, subStep, h] at h1
        all_goals repeat' split at h1
        all_goals first
          | (obtain rfl := Option.some.inj h1; exact ⟨rfl, h⟩)
          | (obtain rfl := Option.some.inj h1; exact ⟨rfl, rfl⟩)
          | (rename_i hx; simp at hx; done)
          | (simp at h1; done)
      rw [ih this.2 hs, this.1]

theorem floor_le (ls : List Label) : ∀ {s s' : State},
    s.floor ≤ s.log.last → exec z p s ls = some s' →
    s'.floor ≤ s'.log.last ∧ s.log.last ≤ s'.log.last ∧
    (s.pc = .working → s'.floor = s.floor) := by
  induction ls with
  | nil =>
    intro s s' h hs; simp only [exec] at hs; obtain rfl := Option.some.inj hs
    exact ⟨h, Nat.le_refl _, fun _ => rfl⟩
  | cons l ls ih =>
    intro s s' h hs
    simp only [exec] at hs
    split at hs
    · simp at hs
    · rename_i s1 h1
      have h2 : s1.floor ≤ s1.log.last ∧ s.log.last ≤ s1.log.last ∧
          (s.pc = .working → s1.floor = s.floor ∧ (s1.pc = .working ∨ s1.pc = .finished)) := by
        cases l with
        | commit st ers =>
          simp only [step] at h1
          split at h1
          · simp at h1
          split at h1
          · simp at h1
          obtain rfl := Option.some.inj h1
          simp only [Log.append]
          exact ⟨by omega, by omega, fun h => ⟨trivial, Or.inl h⟩⟩
        | orphan st ers =>
          simp only [step] at h1
          split at h1
          · simp at h1
          obtain rfl := Option.some.inj h1
          simp only [Log.append]
          exact ⟨by omega, by omega, fun h => ⟨trivial, Or.inl h⟩⟩
        | fail =>
          simp only [step] at h1
          split at h1
          · rename_i s2 h2
            split at h1
            · simp at h1
            · obtain rfl := Option.some.inj h1
              simp only [subStep] at h2
              repeat' split at h2
              all_goals first
                | (obtain rfl := Option.some.inj h2
                   exact ⟨h, Nat.le_refl _, fun hp => ⟨rfl, Or.inr rfl⟩⟩)
                | (obtain rfl := Option.some.inj h2
                   refine ⟨Nat.le_refl _, Nat.le_refl _, fun hp => ?_⟩
                   simp [*] at hp)
                | simp at h2
          · simp at h1
        | _ =>
          simp only [step, subStep] at h1
          repeat' split at h1
          all_goals first
            | (obtain rfl := Option.some.inj h1
               exact ⟨h, Nat.le_refl _, fun hp => ⟨rfl, Or.inl hp⟩⟩)
            | (obtain rfl := Option.some.inj h1
               exact ⟨h, Nat.le_refl _, fun hp => ⟨rfl, Or.inr rfl⟩⟩)
            | (obtain rfl := Option.some.inj h1
               refine ⟨h, Nat.le_refl _, fun hp => ?_⟩
               simp [*] at hp)
            | (obtain rfl := Option.some.inj h1
               refine ⟨Nat.le_refl _, Nat.le_refl _, fun hp => ?_⟩
               simp [*] at hp)
            | simp at h1
      obtain ⟨g1, g2, g3⟩ := h2
      obtain ⟨k1, k2, k3⟩ := ih g1 hs
      refine ⟨k1, Nat.le_trans g2 k2, fun hp => ?_⟩
      obtain ⟨e1, e2 | e2⟩ := g3 hp
      · rw [k3 e2, e1]
      · rw [← e1]
        exact finished_floor ls e2 hs

/-- **C53.** `Start()` on the LevelDB store (no catch-up): take any schedule and any point of it at which
`Start` has returned (state `s1`). Once everything has come to rest, every live event saved after that
point has been delivered; in order and without repetition by `C19_order`. -/
theorem C53_live (hz : z.Lawful) (hh : p.holds = true)
    (ht : p.topics = [none] ∨ ∃ t, p.topics = [some t]) (hn : p.startFrom = none)
    {L : Log} (hL : L.WF) (pre post : List Label) (s1 s : State)
    (hx1 : exec z p (init p L) pre = some s1) (hw1 : s1.pc = .working)
    (hx : exec z p s1 post = some s) (hq : Quiescent s) :
    ∀ r ∈ s.log.recs, p.wants r = true → s1.log.last < r.gsn → r ∈ s.out := by
  have hv : p.Valid := by
    rcases ht with h | ⟨t, h⟩
    · exact Or.inl h
    · exact Or.inr ⟨[t], by simp, by simp [h]⟩
  have h1 : p.topics.length = 1 := by
    rcases ht with h | ⟨t, h⟩ <;> simp [h]
  have happ : ∀ (a b : List Label) (s0 : State), exec z p s0 a = some s1 → exec z p s1 b = some s →
      exec z p s0 (a ++ b) = some s := by
    intro a
    induction a with
    | nil => intro b s0 h1 h2; simp only [exec] at h1; obtain rfl := Option.some.inj h1; exact h2
    | cons l a ih =>
      intro b s0 h1 h2
      simp only [List.cons_append, exec] at h1 ⊢
      split at h1
      · simp at h1
      · exact ih b _ h1 h2
  have hxx := happ pre post _ hx1 hx
  intro r hr hw hl
  obtain ⟨f1, _, _⟩ := floor_le pre (s := init p L) (by simp [init, hn]) hx1
  obtain ⟨_, _, f2⟩ := floor_le post f1 hx
  exact complete hz hv h1 hL (pre ++ post) s (serial_of_holds hh _ _ s hxx) hxx hq r hr hw
    (by rw [f2 hw1]; omega)

/-- One event before `Start`, two after it. -/
example : (exec demo ⟨true, [none], none⟩ (init ⟨true, [none], none⟩ Log.empty)
    [.commit sA [evA [1]], .accept 0, .broadcast false, .sub, .sub, .sub, .commit sA [evA [2], evA [3]],
     .accept 0, .broadcast false, .accept 0, .sub, .broadcast false, .sub]).map
      (fun s => (s.out.map (·.gsn), s.pc)) = some ([2, 3], .working) := by decide

end RangeDB.Sub

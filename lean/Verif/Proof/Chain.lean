import Verif.Spec.Chain
import Verif.Thm.Subscription

/-! # Chains of hops: invariants, and the simulation by a single broadcaster -/

namespace RangeDB.Chain

open Sub (Inc Safe)

variable {z : Serializer} {p : Sub.Params}

/-- The records in a chain, the one that leaves it first in front. -/
def pend : List Hop → List Record
  | [] => []
  | h :: hs => pend hs ++ (h.buf ++ h.queue)

theorem pend_feed (r : Record) (hs : List Hop) :
    (feed r hs).2 ++ pend (feed r hs).1 = pend hs ++ [r] := by
  cases hs with
  | nil => rfl
  | cons h hs => simp [feed, pend]

theorem mem_feed {r x : Record} {hs : List Hop} (h : x ∈ (feed r hs).2 ++ pend (feed r hs).1) :
    x = r ∨ x ∈ pend hs := by
  rw [pend_feed] at h
  simpa [or_comm] using h

/-- Nothing comes into being in a chain. -/
theorem mem_hopStep {op : HopOp} : ∀ {k : Nat} {hs hs' : List Hop} {o : List Record},
    hopStep op k hs = some (hs', o) → ∀ x ∈ o ++ pend hs', x ∈ pend hs := by
  intro k
  induction k with
  | zero =>
    intro hs hs' o h x hx
    cases hs with
    | nil => simp [hopStep] at h
    | cons a hs =>
      simp only [hopStep] at h
      have key : ∀ {a' : Hop} {e : Option Record}, act op a = some (a', e) →
          (∀ y ∈ a'.buf ++ a'.queue, y ∈ a.buf ++ a.queue) ∧ (∀ y, e = some y → y ∈ a.buf ++ a.queue) := by
        intro a' e ha
        cases op with
        | register =>
          simp only [act] at ha
          split at ha
          · cases ha; exact ⟨fun y hy => hy, fun y hy => by cases hy⟩
          · cases ha
        | take cut =>
          simp only [act] at ha
          split at ha
          · cases ha
          · rename_i r q hq
            repeat' split at ha
            all_goals first
              | cases ha
              | skip
            all_goals
              refine ⟨fun y hy => ?_, fun y hy => by cases hy⟩
              simp only [List.mem_append, hq, List.mem_cons, List.not_mem_nil, or_false] at hy ⊢
              grind
        | work =>
          simp only [act] at ha
          split at ha
          · cases ha
          · rename_i r q hq
            repeat' split at ha
            all_goals
              cases ha
              refine ⟨fun y hy => ?_, fun y hy => ?_⟩
              · simp only [List.mem_append, hq, List.mem_cons] at hy ⊢
                grind
              · simp only [List.mem_append, hq, List.mem_cons]
                grind
        | die =>
          simp only [act, Option.some.injEq, Prod.mk.injEq] at ha
          obtain ⟨rfl, rfl⟩ := ha
          refine ⟨fun y hy => ?_, fun y hy => by cases hy⟩
          simp only [List.nil_append] at hy
          exact List.mem_append_right _ hy
      split at h
      · cases h
      · rename_i a' ha
        cases h
        have := key ha
        simp only [pend, List.nil_append, List.mem_append] at hx ⊢ this
        rcases hx with hx | hx
        · exact Or.inl hx
        · exact Or.inr (this.1 x hx)
      · rename_i a' r ha
        cases h
        have := key ha
        simp only [pend] at hx ⊢
        rw [← List.append_assoc] at hx
        rcases List.mem_append.mp hx with hx | hx
        · rcases mem_feed hx with rfl | hx
          · exact List.mem_append_right _ (this.2 _ rfl)
          · exact List.mem_append_left _ hx
        · exact List.mem_append_right _ (this.1 x hx)
  | succ k ih =>
    intro hs hs' o h x hx
    cases hs with
    | nil => simp [hopStep] at h
    | cons a hs =>
      simp only [hopStep] at h
      split at h
      · cases h
      · rename_i hs1 o1 h1
        cases h
        simp only [pend] at hx ⊢
        rw [← List.append_assoc] at hx
        rcases List.mem_append.mp hx with hx | hx
        · exact List.mem_append_left _ (ih h1 x hx)
        · exact List.mem_append_right _ hx

/-! ## Safety in every schedule -/

/-- The subscriber's invariant, and what is in the chain was saved. -/
structure CSafe (p : Sub.Params) (c : State) : Prop where
  sub : Safe p c.sub
  pend : ∀ r ∈ pend c.hops, r ∈ c.sub.saved

theorem step_saved {s s' : Sub.State} {l : Sub.Label} (h : Sub.step z p s l = some s') :
    ∀ r ∈ s.saved, r ∈ s'.saved := by
  have hsub : ∀ {s s' : Sub.State}, Sub.subStep p s = some s' → s'.saved = s.saved := by
    intro s s' h
    simp only [Sub.subStep] at h
    repeat' split at h
    all_goals first
      | (obtain rfl := Option.some.inj h; rfl)
      | cases h
  intro r hr
  cases l with
  | sub => simp only [Sub.step] at h; rw [hsub h]; exact hr
  | fail =>
    simp only [Sub.step] at h
    split at h
    · rename_i s2 h2
      split at h
      · cases h
      · obtain rfl := Option.some.inj h
        rw [show _ = s.saved from hsub h2]; exact hr
    · cases h
  | _ =>
    simp only [Sub.step] at h
    repeat' split at h
    all_goals first
      | (obtain rfl := Option.some.inj h; first | exact hr | exact List.mem_append_left _ hr)
      | cases h

theorem safe_enqueue {s : Sub.State} (h : Safe p s) {o : List Record} (ho : ∀ r ∈ o, r ∈ s.saved)
    {sv : List (List Record)} (hsv : ∀ r ∈ sv.flatten, r ∈ s.savers.flatten) :
    Safe p { s with queue := s.queue ++ o, savers := sv } :=
  { h with
    savers := fun r hr => h.savers r (hsv r hr)
    queue := by
      intro r hr
      rcases List.mem_append.mp hr with hr | hr
      · exact h.queue r hr
      · exact ho r hr
    pc := Sub.SafePC.grow (s := s) (fun _ hr => hr) rfl rfl _ h.pc }

theorem csafe_step (hz : z.Lawful) (hv : p.Valid) {c c' : State} (h : CSafe p c) (l : Label)
    (hs : step z p c l = some c') : CSafe p c' := by
  cases l with
  | hop k op =>
    simp only [step] at hs
    split at hs
    · cases hs
    · rename_i hs1 o h1
      obtain rfl := Option.some.inj hs
      have hm := mem_hopStep h1
      refine ⟨?_, fun r hr => h.pend r (hm r (List.mem_append_right _ hr))⟩
      exact safe_enqueue h.sub (fun r hr => h.pend r (hm r (List.mem_append_left _ hr))) (fun r hr => hr)
  | base l =>
    by_cases hl : ∃ i, l = .accept i
    · obtain ⟨i, rfl⟩ := hl
      simp only [step] at hs
      split at hs
      · rename_i r rest hi
        obtain rfl := Option.some.inj hs
        have hr : r ∈ c.sub.saved :=
          h.sub.savers r (List.mem_flatten.mpr ⟨_, List.mem_of_getElem? hi, List.mem_cons_self⟩)
        have hm : ∀ x ∈ (feed r c.hops).2 ++ pend (feed r c.hops).1, x ∈ c.sub.saved := by
          intro x hx
          rcases mem_feed hx with rfl | hx
          · exact hr
          · exact h.pend x hx
        refine ⟨?_, fun x hx => hm x (List.mem_append_right _ hx)⟩
        refine safe_enqueue h.sub (fun x hx => hm x (List.mem_append_left _ hx)) ?_
        intro x hx
        split at hx
        · exact Sub.mem_erase_flatten x hx
        · exact Sub.mem_set_flatten hi (fun y hy => List.mem_cons_of_mem _ hy) x hx
      · cases hs
    · have : step z p c (.base l) = match Sub.step z p c.sub l with
          | none => none
          | some s => some { c with sub := s, gone := c.gone || leaves l } := by
        cases l <;> first | rfl | exact absurd ⟨_, rfl⟩ hl
      rw [this] at hs
      split at hs
      · cases hs
      · rename_i s1 h1
        obtain rfl := Option.some.inj hs
        exact ⟨Sub.safe_step hz hv h.sub l h1, fun r hr => step_saved h1 r (h.pend r hr)⟩

theorem csafe_exec (hz : z.Lawful) (hv : p.Valid) (ls : List Label) : ∀ {c c' : State}, CSafe p c →
    exec z p c ls = some c' → CSafe p c' := by
  induction ls with
  | nil => intro c c' h hs; simp only [exec] at hs; obtain rfl := Option.some.inj hs; exact h
  | cons l ls ih =>
    intro c c' h hs
    simp only [exec] at hs
    split at hs
    · cases hs
    · rename_i c1 h1
      exact ih (csafe_step hz hv h l h1) hs

/-! ## The simulation -/

/-- Every hop has handed on only records numbered below those on their way to it. -/
def Ord : List Hop → List Record → Prop
  | [], up => Inc up
  | h :: hs, up => (∀ r ∈ h.buf ++ (h.queue ++ up), h.last < r.gsn) ∧ Ord hs (h.buf ++ (h.queue ++ up))

theorem Ord.inc : ∀ {hs : List Hop} {up : List Record}, Ord hs up → Inc up := by
  intro hs
  induction hs with
  | nil => intro up h; exact h
  | cons a hs ih =>
    intro up h
    have := ih h.2
    exact ((List.pairwise_append.mp ((List.pairwise_append.mp this).2.1)).2.1)

/-- Feeding the next record keeps the order. -/
theorem Ord.feed {r : Record} : ∀ {hs : List Hop} {up : List Record}, Ord hs (r :: up) → Ord (feed r hs).1 up := by
  intro hs up h
  cases hs with
  | nil => exact (List.pairwise_cons.mp h).2
  | cons a hs =>
    obtain ⟨h2, h3⟩ := h
    refine ⟨?_, ?_⟩
    · intro x hx
      apply h2 x
      simpa using hx
    · simpa using h3

/-- Records that vanish do not disturb the order. -/
theorem Ord.sub : ∀ {hs : List Hop} {up up' : List Record}, Ord hs up → up'.Sublist up → Ord hs up' := by
  intro hs
  induction hs with
  | nil => intro up up' h hs; exact List.Pairwise.sublist hs h
  | cons a hs ih =>
    intro up up' h hs
    have hsub : (a.buf ++ (a.queue ++ up')).Sublist (a.buf ++ (a.queue ++ up)) :=
      (List.Sublist.refl _).append ((List.Sublist.refl _).append hs)
    exact ⟨fun r hr => h.1 r (hsub.subset hr), ih h.2 hsub⟩

/-- One action of a hop keeps the order, and what it hands on is smaller than the rest. -/
theorem act_ord {op : HopOp} {a a' : Hop} {e : Option Record} {hs : List Hop} {up : List Record}
    (h : Ord (a :: hs) up) (ha : act op a = some (a', e)) :
    match e with
    | none => Ord (a' :: hs) up ∧ (a'.buf ++ a'.queue).Sublist (a.buf ++ a.queue)
    | some r => Ord (a' :: (feed r hs).1) up ∧ (r :: (a'.buf ++ a'.queue)).Sublist (a.buf ++ a.queue) := by
  obtain ⟨g2, g3⟩ := h
  -- removing records
  have shrink : ∀ (b q : List Record) (st : HopSt), (b ++ q).Sublist (a.buf ++ a.queue) →
      Ord (⟨a.filters, st, q, b, a.last⟩ :: hs) up ∧ (b ++ q).Sublist (a.buf ++ a.queue) := by
    intro b q st hs'
    have hsub : (b ++ (q ++ up)).Sublist (a.buf ++ (a.queue ++ up)) := by
      rw [← List.append_assoc, ← List.append_assoc]
      exact hs'.append (List.Sublist.refl _)
    exact ⟨⟨fun r hr => g2 r (hsub.subset hr), g3.sub hsub⟩, hs'⟩
  cases op with
  | register =>
    simp only [act] at ha
    split at ha
    · cases ha; exact shrink _ _ _ (List.Sublist.refl _)
    · cases ha
  | take cut =>
    cases hq : a.queue with
    | nil => simp [act, hq] at ha
    | cons r q =>
      simp only [act, hq] at ha
      repeat' split at ha
      all_goals first
        | cases ha
        | skip
      · have := shrink a.buf q .down (by rw [hq]; exact (List.Sublist.refl _).append (List.sublist_cons_self _ _))
        rw [hq] at this
        exact this
      · have := shrink (a.buf ++ [r]) q a.st (by rw [hq]; simp)
        rw [hq] at this
        exact this
      · have := shrink a.buf q a.st (by rw [hq]; exact (List.Sublist.refl _).append (List.sublist_cons_self _ _))
        rw [hq] at this
        exact this
  | work =>
    cases hb : a.buf with
    | nil => simp [act, hb] at ha
    | cons r b =>
      have hlast : ¬ r.gsn ≤ a.last := by
        have := g2 r (by simp [hb])
        omega
      have hinc := g3.inc
      rw [hb, List.cons_append, Inc, List.pairwise_cons] at hinc
      rw [hb, List.cons_append] at g3
      have gf := Ord.feed g3
      cases hf : a.filters with
      | true =>
        simp only [act, hb, hf, if_true, if_neg hlast, Option.some.injEq, Prod.mk.injEq] at ha
        obtain ⟨rfl, rfl⟩ := ha
        exact ⟨⟨fun x hx => hinc.1 x hx, gf⟩, List.Sublist.refl _⟩
      | false =>
        simp only [act, hb, hf, Bool.false_eq_true, if_false, Option.some.injEq, Prod.mk.injEq] at ha
        obtain ⟨rfl, rfl⟩ := ha
        exact ⟨⟨fun x hx => g2 x (by rw [hb]; exact List.mem_cons_of_mem _ hx), gf⟩, List.Sublist.refl _⟩
  | die =>
    simp only [act, Option.some.injEq, Prod.mk.injEq] at ha
    obtain ⟨rfl, rfl⟩ := ha
    exact shrink [] a.queue .down (List.sublist_append_right _ _)

/-- Every action of a hop keeps the order of the records; some may vanish. -/
theorem ord_hopStep {op : HopOp} : ∀ {k : Nat} {hs hs' : List Hop} {o up : List Record}, Ord hs up →
    hopStep op k hs = some (hs', o) → Ord hs' up ∧ (o ++ pend hs').Sublist (pend hs) := by
  intro k
  induction k with
  | zero =>
    intro hs hs' o up h hst
    cases hs with
    | nil => simp [hopStep] at hst
    | cons a hs =>
      simp only [hopStep] at hst
      split at hst
      · cases hst
      · rename_i a' ha
        cases hst
        obtain ⟨k1, k2⟩ := act_ord h ha
        exact ⟨k1, by simpa [pend] using k2⟩
      · rename_i a' r ha
        cases hst
        obtain ⟨k1, k2⟩ := act_ord h ha
        refine ⟨k1, ?_⟩
        simp only [pend]
        rw [← List.append_assoc, pend_feed, List.append_assoc]
        exact (List.Sublist.refl _).append k2
  | succ k ih =>
    intro hs hs' o up h hst
    cases hs with
    | nil => simp [hopStep] at hst
    | cons a hs =>
      simp only [hopStep] at hst
      split at hst
      · cases hst
      · rename_i hs1 o1 hk
        cases hst
        obtain ⟨i1, i2⟩ := ih h.2 hk
        refine ⟨⟨h.1, i1⟩, ?_⟩
        simp only [pend]
        rw [← List.append_assoc]
        exact i2.append (List.Sublist.refl _)

theorem up_feed {r : Record} {hs : List Hop} (h : Up hs) : Up (feed r hs).1 := by
  cases hs with
  | nil => exact h
  | cons a hs =>
    intro x hx
    simp only [feed, List.mem_cons] at hx
    rcases hx with rfl | hx
    · exact h a List.mem_cons_self
    · exact h x (List.mem_cons_of_mem _ hx)

/-- An action of a registered hop that is neither cut nor dies loses nothing. -/
theorem up_hopStep {op : HopOp} (h1 : op ≠ .take true) (h2 : op ≠ .die) : ∀ {k : Nat} {hs hs' : List Hop}
    {o up : List Record}, Up hs → Ord hs up → hopStep op k hs = some (hs', o) →
    Up hs' ∧ o ++ pend hs' = pend hs := by
  intro k
  induction k with
  | zero =>
    intro hs hs' o up hu h hst
    cases hs with
    | nil => simp [hopStep] at hst
    | cons a hs =>
      have g1 := hu a List.mem_cons_self
      have ht : Up hs := fun x hx => hu x (List.mem_cons_of_mem _ hx)
      have consUp : ∀ {x : Hop} {l : List Hop}, x.st = .up → Up l → Up (x :: l) := by
        intro x l hx hl y hy
        rcases List.mem_cons.mp hy with rfl | hy
        · exact hx
        · exact hl y hy
      obtain ⟨g2, g3⟩ := h
      simp only [hopStep] at hst
      cases op with
      | register => simp [act, g1] at hst
      | die => exact absurd rfl h2
      | take cut =>
        cases cut with
        | true => exact absurd rfl h1
        | false =>
          cases hq : a.queue with
          | nil => simp [act, hq] at hst
          | cons r q =>
            simp only [act, hq, g1, if_true, Bool.false_eq_true, if_false, Option.some.injEq, Prod.mk.injEq] at hst
            obtain ⟨rfl, rfl⟩ := hst
            exact ⟨consUp rfl ht, by simp [pend, hq]⟩
      | work =>
        cases hb : a.buf with
        | nil => simp [act, hb] at hst
        | cons r b =>
          have hlast : ¬ r.gsn ≤ a.last := by
            have := g2 r (by simp [hb])
            omega
          have pf := pend_feed r hs
          cases hf : a.filters with
          | true =>
            simp only [act, hb, hf, if_true, if_neg hlast, Option.some.injEq, Prod.mk.injEq] at hst
            obtain ⟨rfl, rfl⟩ := hst
            refine ⟨consUp g1 (up_feed ht), ?_⟩
            simp only [pend, hb]
            rw [← List.append_assoc, pf]
            simp
          | false =>
            simp only [act, hb, hf, Bool.false_eq_true, if_false, Option.some.injEq, Prod.mk.injEq] at hst
            obtain ⟨rfl, rfl⟩ := hst
            refine ⟨consUp g1 (up_feed ht), ?_⟩
            simp only [pend, hb]
            rw [← List.append_assoc, pf]
            simp
  | succ k ih =>
    intro hs hs' o up hu h hst
    cases hs with
    | nil => simp [hopStep] at hst
    | cons a hs =>
      simp only [hopStep] at hst
      split at hst
      · cases hst
      · rename_i hs1 o1 hk
        cases hst
        obtain ⟨i1, i2⟩ := ih (fun x hx => hu x (List.mem_cons_of_mem _ hx)) h.2 hk
        refine ⟨?_, ?_⟩
        · intro x hx
          rcases List.mem_cons.mp hx with rfl | hx
          · exact hu _ List.mem_cons_self
          · exact i1 x hx
        · simp only [pend]
          rw [← List.append_assoc, i2]

/-- A hop's `last` never exceeds the numbers that were in the chain. -/
theorem last_hopStep {op : HopOp} {n : Nat} : ∀ {k : Nat} {hs hs' : List Hop} {o : List Record},
    (∀ h ∈ hs, h.last ≤ n) → (∀ r ∈ pend hs, r.gsn ≤ n) → hopStep op k hs = some (hs', o) →
    ∀ h ∈ hs', h.last ≤ n := by
  intro k
  have hfeed : ∀ (r : Record) (hs : List Hop), (∀ h ∈ hs, h.last ≤ n) → ∀ h ∈ (feed r hs).1, h.last ≤ n := by
    intro r hs hl h hh
    cases hs with
    | nil => simp [feed] at hh
    | cons a hs =>
      simp only [feed, List.mem_cons] at hh
      rcases hh with rfl | hh
      · exact hl a List.mem_cons_self
      · exact hl h (List.mem_cons_of_mem _ hh)
  induction k with
  | zero =>
    intro hs hs' o hl hp hst
    cases hs with
    | nil => simp [hopStep] at hst
    | cons a hs =>
      have ha := hl a List.mem_cons_self
      have htl : ∀ h ∈ hs, h.last ≤ n := fun h hh => hl h (List.mem_cons_of_mem _ hh)
      have key : ∀ {a' : Hop} {e : Option Record}, act op a = some (a', e) → a'.last ≤ n := by
        intro a' e hac
        cases op with
        | work =>
          simp only [act] at hac
          split at hac
          · cases hac
          · rename_i r b hb
            have : r.gsn ≤ n := hp r (by simp [pend, hb])
            repeat' split at hac
            all_goals (cases hac; simp_all)
        | _ =>
          simp only [act] at hac
          repeat' split at hac
          all_goals first
            | (cases hac; exact ha)
            | cases hac
      simp only [hopStep] at hst
      split at hst
      · cases hst
      · rename_i a' hac
        cases hst
        intro h hh
        rcases List.mem_cons.mp hh with rfl | hh
        · exact key hac
        · exact htl h hh
      · rename_i a' r hac
        cases hst
        intro h hh
        rcases List.mem_cons.mp hh with rfl | hh
        · exact key hac
        · exact hfeed r hs htl h hh
  | succ k ih =>
    intro hs hs' o hl hp hst
    cases hs with
    | nil => simp [hopStep] at hst
    | cons a hs =>
      simp only [hopStep] at hst
      split at hst
      · cases hst
      · rename_i hs1 o1 hk
        cases hst
        intro h hh
        rcases List.mem_cons.mp hh with rfl | hh
        · exact hl _ List.mem_cons_self
        · exact ih (fun h hh => hl h (List.mem_cons_of_mem _ hh))
            (fun r hr => hp r (by simp only [pend]; exact List.mem_append_left _ hr)) hk h hh

/-- What a chain looks like to its subscriber: one broadcaster with a long queue. -/
def abs (c : State) : Sub.State := { c.sub with queue := c.sub.queue ++ pend c.hops }

/-- A subscriber's step does not look at the far end of the queue. -/
theorem subStep_queue {s s' : Sub.State} (h : Sub.subStep p s = some s') (q : List Record) :
    Sub.subStep p { s with queue := q } = some { s' with queue := q } ∧ s'.queue = s.queue := by
  simp only [Sub.subStep] at h ⊢
  cases hpc : s.pc <;> simp only [hpc] at h ⊢
  all_goals
    repeat' split at h
  all_goals first
    | (obtain rfl := Option.some.inj h; simp_all)
    | cases h
    | skip

theorem step_queue {s s' : Sub.State} {l : Sub.Label} (hl : ∀ i, l ≠ .accept i)
    (h : Sub.step z p s l = some s') (q : List Record) :
    Sub.step z p { s with queue := s.queue ++ q } l = some { s' with queue := s'.queue ++ q } := by
  cases l with
  | accept i => exact absurd rfl (hl i)
  | sub =>
    simp only [Sub.step] at h ⊢
    have := subStep_queue h (s.queue ++ q)
    rw [this.1, this.2]
  | fail =>
    simp only [Sub.step] at h ⊢
    split at h
    · rename_i s2 h2
      have := subStep_queue h2 (s.queue ++ q)
      rw [this.1]
      simp only
      split at h
      · cases h
      · rename_i ho
        rw [if_neg ho]
        obtain rfl := Option.some.inj h
        simp [this.2]
    · cases h
  | broadcast t =>
    simp only [Sub.step] at h ⊢
    cases hq : s.queue with
    | nil => simp [hq] at h
    | cons r rest =>
      simp only [hq, List.cons_append] at h ⊢
      repeat' split at h
      all_goals first
        | cases h
        | skip
      all_goals simp_all
  | _ =>
    simp only [Sub.step] at h ⊢
    repeat' split at h
    all_goals first
      | cases h
      | skip
    all_goals simp_all

/-- The invariant of schedules in which saves do not overlap. -/
structure Good (p : Sub.Params) (c : State) : Prop where
  safe : CSafe p c
  ord : Ord c.hops c.sub.savers.flatten
  flow : Inc (c.sub.queue ++ (pend c.hops ++ c.sub.savers.flatten))
  one : c.sub.savers.length ≤ 1
  last : ∀ h ∈ c.hops, h.last ≤ c.sub.log.last

theorem subStep_parts {s s' : Sub.State} (h : Sub.subStep p s = some s') :
    s'.savers = s.savers ∧ s'.log = s.log ∧ s'.queue = s.queue := by
  simp only [Sub.subStep] at h
  repeat' split at h
  all_goals first
    | (obtain rfl := Option.some.inj h; exact ⟨rfl, rfl, rfl⟩)
    | cases h

theorem step_parts {s s' : Sub.State} {l : Sub.Label} (h : Sub.step z p s l = some s')
    (h1 : ∀ i, l ≠ .accept i) (h2 : ∀ st ers, l ≠ .commit st ers) (h3 : ∀ st ers, l ≠ .orphan st ers) :
    s'.savers = s.savers ∧ s'.log.last = s.log.last ∧ s'.queue.Sublist s.queue := by
  cases l with
  | accept i => exact absurd rfl (h1 i)
  | commit st ers => exact absurd rfl (h2 st ers)
  | orphan st ers => exact absurd rfl (h3 st ers)
  | sub =>
    simp only [Sub.step] at h
    obtain ⟨a, b, c⟩ := subStep_parts h
    rw [a, b, c]
    exact ⟨rfl, rfl, List.Sublist.refl _⟩
  | fail =>
    simp only [Sub.step] at h
    split at h
    · rename_i s2 hs2
      split at h
      · cases h
      · obtain rfl := Option.some.inj h
        obtain ⟨a, b, c⟩ := subStep_parts hs2
        refine ⟨a, congrArg Log.last b, ?_⟩
        show s2.queue.Sublist s.queue
        rw [c]; exact List.Sublist.refl _
    · cases h
  | broadcast t =>
    simp only [Sub.step] at h
    cases hq : s.queue with
    | nil => simp [hq] at h
    | cons r q =>
      simp only [hq] at h
      repeat' split at h
      all_goals first
        | (obtain rfl := Option.some.inj h; exact ⟨rfl, rfl, List.sublist_cons_self _ _⟩)
        | cases h
  | _ =>
    simp only [Sub.step] at h
    repeat' split at h
    all_goals first
      | (obtain rfl := Option.some.inj h; exact ⟨rfl, rfl, List.Sublist.refl _⟩)
      | cases h

theorem ord_extend {n : Nat} : ∀ {hs : List Hop} {up rs : List Record}, Ord hs up → Inc rs →
    (∀ r ∈ rs, n < r.gsn) → (∀ r ∈ pend hs ++ up, r.gsn ≤ n) → (∀ h ∈ hs, h.last ≤ n) → Ord hs (up ++ rs) := by
  intro hs
  induction hs with
  | nil =>
    intro up rs h hi hr hu _
    exact Sub.inc_append h hi (fun x hx y hy => by have := hr y hy; have := hu x (by simpa [pend] using hx); omega)
  | cons a hs ih =>
    intro up rs h hi hr hu hl
    obtain ⟨g2, g3⟩ := h
    refine ⟨?_, ?_⟩
    · intro x hx
      rw [← List.append_assoc, ← List.append_assoc] at hx
      rcases List.mem_append.mp hx with hx | hx
      · exact g2 x (by simpa using hx)
      · have := hr x hx; have := hl a List.mem_cons_self; omega
    · have := ih (up := a.buf ++ (a.queue ++ up)) g3 hi hr (by
        intro x hx; apply hu x; simp only [pend, List.mem_append] at hx ⊢; grind)
        (fun h hh => hl h (List.mem_cons_of_mem _ hh))
      simpa using this

theorem feed_last {r : Record} {n : Nat} {hs : List Hop} (hl : ∀ h ∈ hs, h.last ≤ n) :
    ∀ h ∈ (feed r hs).1, h.last ≤ n := by
  intro h hh
  cases hs with
  | nil => simp [feed] at hh
  | cons a hs =>
    simp only [feed, List.mem_cons] at hh
    rcases hh with rfl | hh
    · exact hl a List.mem_cons_self
    · exact hl h (List.mem_cons_of_mem _ hh)

/-- One step: the invariant is kept; and if all hops are registered and the step cuts none, it is at most
one step of a single broadcaster. -/
theorem good_step (hz : z.Lawful) (hv : p.Valid) {c c' : State} (h : Good p c) (l : Label)
    (hser : SerialAt c l) (hs : step z p c l = some c') :
    Good p c' ∧ (Up c.hops → (∀ k op, l = .hop k op → op ≠ .take true ∧ op ≠ .die) → Up c'.hops ∧ match l with
      | .base b => Sub.step z p (abs c) b = some (abs c')
      | .hop _ _ => abs c' = abs c) := by
  have hsafe' := csafe_step hz hv h.safe l hs
  cases l with
  | hop k op =>
    simp only [step] at hs
    split at hs
    · cases hs
    · rename_i hs1 o h1
      obtain rfl := Option.some.inj hs
      obtain ⟨i1, i2⟩ := ord_hopStep h.ord h1
      refine ⟨⟨hsafe', i1, ?_, h.one, ?_⟩, ?_⟩
      · have : ((c.sub.queue ++ o) ++ (pend hs1 ++ c.sub.savers.flatten)).Sublist
            (c.sub.queue ++ (pend c.hops ++ c.sub.savers.flatten)) := by
          rw [List.append_assoc, ← List.append_assoc o]
          exact (List.Sublist.refl _).append (i2.append (List.Sublist.refl _))
        exact List.Pairwise.sublist this h.flow
      · exact last_hopStep h.last (fun r hr => h.safe.sub.savedBound r (h.safe.pend r hr)) h1
      · intro hu hcut
        obtain ⟨n1, n2⟩ := hcut k op rfl
        obtain ⟨j1, j2⟩ := up_hopStep n1 n2 hu h.ord h1
        refine ⟨j1, ?_⟩
        simp only [abs]
        rw [List.append_assoc, j2]
  | base l =>
    by_cases hl : ∃ i, l = .accept i
    · obtain ⟨i, rfl⟩ := hl
      simp only [step] at hs
      split at hs
      · rename_i r rest hi
        obtain rfl := Option.some.inj hs
        have hone := h.one
        have hsv : c.sub.savers = [r :: rest] ∧ i = 0 := by
          cases hsv : c.sub.savers with
          | nil => simp [hsv] at hi
          | cons x xs =>
            rw [hsv] at hone hi
            have hxs : xs = [] := by
              cases xs with
              | nil => rfl
              | cons _ _ => simp at hone
            subst hxs
            cases i with
            | zero => simp at hi; exact ⟨by rw [hi], rfl⟩
            | succ i => simp at hi
        obtain ⟨hsv, rfl⟩ := hsv
        have ho := h.ord
        have hfw := h.flow
        rw [hsv] at ho hfw
        simp only [List.flatten_cons, List.flatten_nil, List.append_nil] at ho hfw
        have hfl : (if rest = [] then c.sub.savers.eraseIdx 0 else c.sub.savers.set 0 rest).flatten = rest := by
          rw [hsv]
          split
          · rename_i hr; simp [hr]
          · simp
        have hle : (if rest = [] then c.sub.savers.eraseIdx 0 else c.sub.savers.set 0 rest).length ≤ 1 := by
          rw [hsv]
          split <;> simp
        refine ⟨⟨hsafe', ?_, ?_, hle, feed_last h.last⟩, fun hu _ => ⟨up_feed hu, ?_⟩⟩
        · show Ord (feed r c.hops).1 (if rest = [] then c.sub.savers.eraseIdx 0 else c.sub.savers.set 0 rest).flatten
          rw [hfl]
          exact ho.feed
        · show Inc ((c.sub.queue ++ (feed r c.hops).2) ++ (pend (feed r c.hops).1 ++
            (if rest = [] then c.sub.savers.eraseIdx 0 else c.sub.savers.set 0 rest).flatten))
          rw [hfl, List.append_assoc, ← List.append_assoc (feed r c.hops).2, pend_feed]
          simpa using hfw
        · simp only [Sub.step, abs, hi, Option.some.injEq]
          rw [List.append_assoc, List.append_assoc, pend_feed]
      · cases hs
    · have hl' : ∀ i, l ≠ .accept i := fun i hi => hl ⟨i, hi⟩
      have : step z p c (.base l) = match Sub.step z p c.sub l with
          | none => none
          | some s => some { c with sub := s, gone := c.gone || leaves l } := by
        cases l <;> first | rfl | exact absurd ⟨_, rfl⟩ hl
      rw [this] at hs
      split at hs
      · cases hs
      · rename_i s1 h1
        obtain rfl := Option.some.inj hs
        refine ⟨?_, fun hu _ => ⟨hu, step_queue hl' h1 _⟩⟩
        by_cases hcm : ∃ st ers, l = .commit st ers
        · obtain ⟨st, ers, rfl⟩ := hcm
          have hempty : c.sub.savers = [] := hser
          obtain ⟨b1, b2⟩ := Sub.batch_facts hz c.sub.log st ers
          have hpend : ∀ r ∈ pend c.hops, r.gsn ≤ c.sub.log.last := fun r hr =>
            h.safe.sub.savedBound r (h.safe.pend r hr)
          have hqueue : ∀ r ∈ c.sub.queue, r.gsn ≤ c.sub.log.last := fun r hr =>
            h.safe.sub.savedBound r (h.safe.sub.queue r hr)
          simp only [Sub.step] at h1
          split at h1
          · cases h1
          split at h1
          · cases h1
          obtain rfl := Option.some.inj h1
          refine ⟨hsafe', ?_, ?_, ?_, ?_⟩
          · have ho := h.ord
            rw [hempty] at ho
            have := ord_extend ho b1 (fun r hr => (b2 r hr).1) (by simpa using hpend) h.last
            simpa [hempty] using this
          · have hfw := h.flow
            rw [hempty] at hfw
            simp only [List.flatten_nil, List.append_nil] at hfw
            show Inc (c.sub.queue ++ (pend c.hops ++ (c.sub.savers ++ [_]).flatten))
            rw [hempty]
            simp only [List.nil_append, List.flatten_cons, List.flatten_nil, List.append_nil]
            rw [← List.append_assoc]
            refine Sub.inc_append hfw b1 (fun x hx y hy => ?_)
            have := (b2 y hy).1
            rcases List.mem_append.mp hx with hx | hx
            · have := hqueue x hx; omega
            · have := hpend x hx; omega
          · simp [hempty]
          · intro x hx
            have := h.last x hx
            simp only [Log.append]
            omega
        · by_cases hor : ∃ st ers, l = .orphan st ers
          · obtain ⟨st, ers, rfl⟩ := hor
            exact absurd hser (by simp [SerialAt])
          · obtain ⟨e1, e2, e3⟩ := step_parts h1 hl' (fun st ers he => hcm ⟨st, ers, he⟩) (fun st ers he => hor ⟨st, ers, he⟩)
            refine ⟨hsafe', ?_, ?_, ?_, ?_⟩
            · show Ord c.hops s1.savers.flatten
              rw [e1]; exact h.ord
            · show Inc (s1.queue ++ (pend c.hops ++ s1.savers.flatten))
              rw [e1]
              exact List.Pairwise.sublist (e3.append (List.Sublist.refl _)) h.flow
            · show s1.savers.length ≤ 1
              rw [e1]; exact h.one
            · intro x hx
              show x.last ≤ s1.log.last
              rw [e2]; exact h.last x hx

/-- The savers' and the subscriber's part of a schedule. -/
def baseOf : List Label → List Sub.Label
  | [] => []
  | .base l :: ls => l :: baseOf ls
  | .hop _ _ :: ls => baseOf ls

theorem Serial.head {c : State} {l : Label} {ls : List Label} (h : Serial z p c (l :: ls)) :
    SerialAt c l := h [] l ls c rfl rfl

theorem Serial.tail {c c1 : State} {l : Label} {ls : List Label} (h : Serial z p c (l :: ls))
    (h1 : step z p c l = some c1) : Serial z p c1 ls := by
  intro pre l' post c' he hx
  refine h (l :: pre) l' post c' (by rw [he]; rfl) ?_
  simp only [exec, h1]
  exact hx

theorem good_exec (hz : z.Lawful) (hv : p.Valid) (ls : List Label) : ∀ {c c' : State}, Good p c →
    Serial z p c ls → exec z p c ls = some c' → Good p c' := by
  induction ls with
  | nil => intro c c' h _ hs; simp only [exec] at hs; obtain rfl := Option.some.inj hs; exact h
  | cons l ls ih =>
    intro c c' h hser hs
    simp only [exec] at hs
    split at hs
    · cases hs
    · rename_i c1 h1
      exact ih (good_step hz hv h l hser.head h1).1 (hser.tail h1) hs

/-- **The simulation**: a schedule without cuts, in which saves do not overlap and all hops are registered,
looks to the subscriber like the same schedule with one broadcaster. -/
theorem up_exec (hz : z.Lawful) (hv : p.Valid) (ls : List Label) : ∀ {c c' : State}, Good p c → Up c.hops →
    NoCut ls → Serial z p c ls → exec z p c ls = some c' →
    Up c'.hops ∧ Sub.exec z p (abs c) (baseOf ls) = some (abs c') ∧ Sub.Serial z p (abs c) (baseOf ls) := by
  induction ls with
  | nil =>
    intro c c' _ h _ _ hs
    simp only [exec] at hs
    obtain rfl := Option.some.inj hs
    refine ⟨h, rfl, ?_⟩
    intro pre l post s' he
    simp [baseOf] at he
  | cons l ls ih =>
    intro c c' h hu hc hser hs
    simp only [exec] at hs
    split at hs
    · cases hs
    · rename_i c1 h1
      obtain ⟨g1, g2⟩ := good_step hz hv h l hser.head h1
      obtain ⟨g2, g3⟩ := g2 hu (fun k op he => hc k op (by rw [he]; exact List.mem_cons_self))
      obtain ⟨i1, i2, i3⟩ := ih g1 g2 (fun k op hm => hc k op (List.mem_cons_of_mem _ hm)) (hser.tail h1) hs
      cases l with
      | hop k op =>
        simp only at g3
        rw [g3] at i2 i3
        exact ⟨i1, i2, i3⟩
      | base b =>
        simp only at g3
        refine ⟨i1, ?_, ?_⟩
        · simp only [baseOf, Sub.exec, g3]; exact i2
        · intro pre l' post s' he hx
          cases pre with
          | nil =>
            simp only [baseOf, List.nil_append, List.cons.injEq] at he
            obtain ⟨rfl, rfl⟩ := he
            simp only [Sub.exec] at hx
            obtain rfl := Option.some.inj hx
            have := hser.head
            cases b <;> first | exact this | trivial
          | cons x pre =>
            simp only [baseOf, List.cons_append, List.cons.injEq] at he
            obtain ⟨rfl, he⟩ := he
            simp only [Sub.exec, g3] at hx
            exact i3 pre l' post s' he hx

theorem ord_fresh : ∀ {hs : List Hop}, Fresh hs → Ord hs [] ∧ pend hs = [] := by
  intro hs
  induction hs with
  | nil => intro _; exact ⟨List.Pairwise.nil, rfl⟩
  | cons a hs ih =>
    intro h
    obtain ⟨h2, h3, h4⟩ := h a List.mem_cons_self
    obtain ⟨i1, i2⟩ := ih (fun x hx => h x (List.mem_cons_of_mem _ hx))
    exact ⟨⟨by simp [h2, h3], by simpa [h2, h3] using i1⟩, by simp [pend, i2, h2, h3]⟩

theorem good_init {hs : List Hop} (h : Fresh hs) {L : Log} (hL : L.WF) (gone : Bool) :
    Good p ⟨hs, Sub.init p L, gone⟩ := by
  obtain ⟨h1, h2⟩ := ord_fresh h
  refine ⟨⟨Sub.safe_init hL, by simp [h2]⟩, h1, by simp [Sub.init, h2], by simp [Sub.init], ?_⟩
  intro x hx
  rw [(h x hx).2.2]
  exact Nat.zero_le _

/-- Until the subscriber starts, it has nothing. -/
def Idle (p : Sub.Params) (s : Sub.State) : Prop :=
  s.pc = .idle → s.floor = p.startFrom.getD 0 ∧ s.last = 0 ∧ s.regs = [] ∧ s.buf = [] ∧ s.out = []

theorem idle_step {s s' : Sub.State} (h : Idle p s) (l : Sub.Label) (hs : Sub.step z p s l = some s') :
    Idle p s' := by
  intro hi
  have hsub : ∀ {s s' : Sub.State}, Sub.subStep p s = some s' → s'.pc ≠ .idle := by
    intro s s' h
    simp only [Sub.subStep] at h
    repeat' split at h
    all_goals first
      | cases h
      | skip
    all_goals simp_all
  cases l with
  | sub => exact absurd hi (hsub hs)
  | fail =>
    simp only [Sub.step] at hs
    split at hs
    · split at hs
      · cases hs
      · obtain rfl := Option.some.inj hs; simp at hi
    · cases hs
  | broadcast t =>
    simp only [Sub.step] at hs
    cases hq : s.queue with
    | nil => simp [hq] at hs
    | cons r q =>
      simp only [hq] at hs
      have hpc : s.pc = .idle := by
        repeat' split at hs
        all_goals first
          | (obtain rfl := Option.some.inj hs; exact hi)
          | cases hs
      obtain ⟨a1, a2, a3, a4, a5⟩ := h hpc
      simp only [a3, List.filter_nil, List.map_nil, List.append_nil, if_true] at hs
      split at hs
      · cases hs
      · obtain rfl := Option.some.inj hs
        exact ⟨a1, a2, rfl, a4, a5⟩
  | _ =>
    simp only [Sub.step] at hs
    repeat' split at hs
    all_goals first
      | cases hs
      | skip
    all_goals first
      | exact h hi
      | simp_all

theorem idle_exec (ls : List Label) : ∀ {c c' : State}, Idle p c.sub → exec z p c ls = some c' →
    Idle p c'.sub := by
  induction ls with
  | nil => intro c c' h hs; simp only [exec] at hs; obtain rfl := Option.some.inj hs; exact h
  | cons l ls ih =>
    intro c c' h hs
    simp only [exec] at hs
    split at hs
    · cases hs
    · rename_i c1 h1
      refine ih ?_ hs
      cases l with
      | hop k op =>
        simp only [step] at h1
        split at h1
        · cases h1
        · obtain rfl := Option.some.inj h1; exact h
      | base l =>
        by_cases hl : ∃ i, l = .accept i
        · obtain ⟨i, rfl⟩ := hl
          simp only [step] at h1
          split at h1
          · obtain rfl := Option.some.inj h1; exact h
          · cases h1
        · have : step z p c (.base l) = match Sub.step z p c.sub l with
              | none => none
              | some s => some { c with sub := s, gone := c.gone || leaves l } := by
            cases l <;> first | rfl | exact absurd ⟨_, rfl⟩ hl
          rw [this] at h1
          split at h1
          · cases h1
          · rename_i s1 hs1
            obtain rfl := Option.some.inj h1
            exact idle_step h l hs1

/-- Without deletions everything stored is live. -/
theorem saved_live_exec (ls : List Label) : ∀ {c c' : State}, (∀ st, Label.base (.delete st) ∉ ls) →
    c.sub.log.recs = c.sub.saved → exec z p c ls = some c' → c'.sub.log.recs = c'.sub.saved := by
  induction ls with
  | nil => intro c c' _ h hs; simp only [exec] at hs; obtain rfl := Option.some.inj hs; exact h
  | cons l ls ih =>
    intro c c' hd h hs
    simp only [exec] at hs
    split at hs
    · cases hs
    · rename_i c1 h1
      refine ih (fun st hm => hd st (List.mem_cons_of_mem _ hm)) ?_ hs
      cases l with
      | hop k op =>
        simp only [step] at h1
        split at h1
        · cases h1
        · obtain rfl := Option.some.inj h1; exact h
      | base l =>
        by_cases hl : ∃ i, l = .accept i
        · obtain ⟨i, rfl⟩ := hl
          simp only [step] at h1
          split at h1
          · obtain rfl := Option.some.inj h1; exact h
          · cases h1
        · have : step z p c (.base l) = match Sub.step z p c.sub l with
              | none => none
              | some s => some { c with sub := s, gone := c.gone || leaves l } := by
            cases l <;> first | rfl | exact absurd ⟨_, rfl⟩ hl
          rw [this] at h1
          split at h1
          · cases h1
          · rename_i s1 hs1
            obtain rfl := Option.some.inj h1
            refine Sub.saved_live (z := z) (p := p) [l] (s := c.sub) ?_ h ?_
            · intro st hm
              simp only [List.mem_singleton] at hm
              exact hd st (by rw [hm]; exact List.mem_cons_self)
            · simp only [Sub.exec, hs1]

theorem exec_append (pre post : List Label) : ∀ {c c1 c' : State}, exec z p c pre = some c1 →
    exec z p c1 post = some c' → exec z p c (pre ++ post) = some c' := by
  induction pre with
  | nil => intro c c1 c' h1 h2; simp only [exec] at h1; obtain rfl := Option.some.inj h1; exact h2
  | cons l pre ih =>
    intro c c1 c' h1 h2
    simp only [List.cons_append, exec] at h1 ⊢
    split at h1
    · cases h1
    · exact ih h1 h2

theorem mem_baseOf {l : Sub.Label} : ∀ {ls : List Label}, l ∈ baseOf ls → Label.base l ∈ ls := by
  intro ls
  induction ls with
  | nil => intro h; simp [baseOf] at h
  | cons x ls ih =>
    intro h
    cases x with
    | base b =>
      simp only [baseOf, List.mem_cons] at h
      rcases h with rfl | h
      · exact List.mem_cons_self
      · exact List.mem_cons_of_mem _ (ih h)
    | hop k op => exact List.mem_cons_of_mem _ (ih h)

theorem pend_empty : ∀ {hs : List Hop}, (∀ h ∈ hs, h.queue = [] ∧ h.buf = []) → pend hs = [] := by
  intro hs
  induction hs with
  | nil => intro _; rfl
  | cons a hs ih =>
    intro h
    have := h a List.mem_cons_self
    simp [pend, ih (fun x hx => h x (List.mem_cons_of_mem _ hx)), this.1, this.2]

/-- On a store that holds its lock until it has broadcast, saves do not overlap. -/
theorem serial_of_holds (hh : p.holds = true) (ls : List Label) : ∀ {c c' : State}, exec z p c ls = some c' →
    Serial z p c ls := by
  intro c c' hx pre l post c1 he hp
  have hstep : ∃ c2, step z p c1 l = some c2 := by
    subst he
    clear hh
    induction pre generalizing c with
    | nil =>
      simp only [exec] at hp
      obtain rfl := Option.some.inj hp
      simp only [List.nil_append, exec] at hx
      split at hx
      · cases hx
      · rename_i c2 h2; exact ⟨c2, h2⟩
    | cons x pre ih =>
      simp only [List.cons_append, exec] at hx hp
      split at hx
      · cases hx
      · rename_i c2 h2
        rw [h2] at hp
        exact ih hp hx
  obtain ⟨c2, h2⟩ := hstep
  match l with
  | .base (.commit st ers) =>
    simp only [step, Sub.step, hh] at h2
    by_cases hsv : c1.sub.savers = []
    · exact hsv
    · simp [hsv] at h2
  | .base (.orphan st ers) =>
    simp [step, Sub.step, hh] at h2
  | .base (.delete _) => trivial
  | .base (.accept _) => trivial
  | .base (.broadcast _) => trivial
  | .base .sub => trivial
  | .base .cancel => trivial
  | .base .cut => trivial
  | .base .finish => trivial
  | .base .fail => trivial
  | .hop _ _ => trivial

/-! ## Dead chains -/

theorem dead_feed (r : Record) : ∀ {hs : List Hop}, Dead hs → Dead (feed r hs).1 ∧ (feed r hs).2 = [] := by
  intro hs h
  cases hs with
  | nil => exact absurd h (by simp [Dead])
  | cons a hs => exact ⟨h, rfl⟩

theorem dead_hopStep {op : HopOp} : ∀ {k : Nat} {hs hs' : List Hop} {o : List Record}, Dead hs →
    hopStep op k hs = some (hs', o) → Dead hs' ∧ o = [] := by
  intro k
  induction k with
  | zero =>
    intro hs hs' o h hst
    cases hs with
    | nil => exact absurd h (by simp [Dead])
    | cons a hs =>
      simp only [hopStep] at hst
      rcases h with ⟨h1, h2, h3⟩ | h
      · cases op with
        | register => simp [act, h1] at hst
        | take cut =>
          cases hq : a.queue with
          | nil => simp [act, hq] at hst
          | cons r q =>
            cases cut with
            | true => simp [act, hq, h1] at hst
            | false =>
              simp [act, hq, h1] at hst
              obtain ⟨rfl, rfl⟩ := hst
              exact ⟨Or.inl ⟨rfl, h2, h3⟩, rfl⟩
        | work => simp [act, h2] at hst
        | die =>
          simp only [act, Option.some.injEq, Prod.mk.injEq] at hst
          obtain ⟨rfl, rfl⟩ := hst
          exact ⟨Or.inl ⟨rfl, rfl, h3⟩, rfl⟩
      · split at hst
        · cases hst
        · cases hst; exact ⟨Or.inr h, rfl⟩
        · rename_i a' r _
          cases hst
          obtain ⟨f1, f2⟩ := dead_feed r h
          exact ⟨Or.inr f1, f2⟩
  | succ k ih =>
    intro hs hs' o h hst
    cases hs with
    | nil => exact absurd h (by simp [Dead])
    | cons a hs =>
      simp only [hopStep] at hst
      split at hst
      · cases hst
      · rename_i hs1 o1 hk
        cases hst
        rcases h with ⟨h1, h2, h3⟩ | h
        · -- nothing behind the dead hop: only status changes and deaths
          have key : ∀ {k : Nat} {hs hs1 : List Hop} {o1 : List Record}, (∀ x ∈ hs, x.queue = [] ∧ x.buf = []) →
              hopStep op k hs = some (hs1, o1) → (∀ x ∈ hs1, x.queue = [] ∧ x.buf = []) ∧ o1 = [] := by
            intro k
            induction k with
            | zero =>
              intro hs hs1 o1 he hk
              cases hs with
              | nil => simp [hopStep] at hk
              | cons b hs =>
                have hb := he b List.mem_cons_self
                have ht : ∀ x ∈ hs, x.queue = [] ∧ x.buf = [] := fun x hx => he x (List.mem_cons_of_mem _ hx)
                simp only [hopStep] at hk
                cases op with
                | register =>
                  simp only [act] at hk
                  by_cases hst : b.st = .starting
                  · simp only [hst, if_true, Option.some.injEq, Prod.mk.injEq] at hk
                    obtain ⟨rfl, rfl⟩ := hk
                    refine ⟨?_, rfl⟩
                    intro x hx
                    rcases List.mem_cons.mp hx with rfl | hx
                    · exact hb
                    · exact ht x hx
                  · simp [hst] at hk
                | take cut => simp [act, hb.1] at hk
                | work => simp [act, hb.2] at hk
                | die =>
                  simp only [act, Option.some.injEq, Prod.mk.injEq] at hk
                  obtain ⟨rfl, rfl⟩ := hk
                  refine ⟨?_, rfl⟩
                  intro x hx
                  rcases List.mem_cons.mp hx with rfl | hx
                  · exact ⟨hb.1, rfl⟩
                  · exact ht x hx
            | succ k ihk =>
              intro hs hs1 o1 he hk
              cases hs with
              | nil => simp [hopStep] at hk
              | cons b hs =>
                simp only [hopStep] at hk
                split at hk
                · cases hk
                · rename_i hs2 o2 hk2
                  cases hk
                  obtain ⟨j1, j2⟩ := ihk (fun x hx => he x (List.mem_cons_of_mem _ hx)) hk2
                  refine ⟨?_, j2⟩
                  intro x hx
                  rcases List.mem_cons.mp hx with rfl | hx
                  · exact he _ List.mem_cons_self
                  · exact j1 x hx
          obtain ⟨j1, j2⟩ := key h3 hk
          exact ⟨Or.inl ⟨h1, h2, j1⟩, j2⟩
        · obtain ⟨j1, j2⟩ := ih h hk
          exact ⟨Or.inr j1, j2⟩

/-- Without a departure and without a timeout the subscription goes on. -/
theorem stays_exec (ls : List Label) : ∀ {c c' : State}, (c.sub.cancelled = false ∧ c.sub.pc ≠ .finished) →
    Label.base (.broadcast true) ∉ ls → exec z p c ls = some c' → c'.gone = false →
    c'.sub.cancelled = false ∧ c'.sub.pc ≠ .finished := by
  have hgone : ∀ (ls : List Label) {c c' : State}, exec z p c ls = some c' → c'.gone = false → c.gone = false := by
    intro ls
    induction ls with
    | nil => intro c c' hs h; simp only [exec] at hs; obtain rfl := Option.some.inj hs; exact h
    | cons l ls ih =>
      intro c c' hs h
      simp only [exec] at hs
      split at hs
      · cases hs
      · rename_i c1 h1
        have hg := ih hs h
        simp only [step] at h1
        repeat' split at h1
        all_goals first
          | cases h1
          | skip
        all_goals simp_all
  induction ls with
  | nil => intro c c' h _ hs _; simp only [exec] at hs; obtain rfl := Option.some.inj hs; exact h
  | cons l ls ih =>
    intro c c' h hb hs hg
    simp only [exec] at hs
    split at hs
    · cases hs
    · rename_i c1 h1
      have hg1 := hgone ls hs hg
      refine ih ?_ (fun hm => hb (List.mem_cons_of_mem _ hm)) hs hg
      cases l with
      | hop k op =>
        simp only [step] at h1
        split at h1
        · cases h1
        · obtain rfl := Option.some.inj h1; exact h
      | base l =>
        cases l with
        | accept i =>
          simp only [step] at h1
          split at h1
          · obtain rfl := Option.some.inj h1; exact h
          · cases h1
        | cancel => simp only [step, Sub.step] at h1; obtain rfl := Option.some.inj h1; simp [leaves] at hg1
        | fail =>
          simp only [step] at h1
          split at h1
          · cases h1
          · obtain rfl := Option.some.inj h1; simp [leaves] at hg1
        | broadcast t =>
          have ht : t = false := by
            cases t with
            | false => rfl
            | true => exact absurd List.mem_cons_self hb
          subst ht
          simp only [step, Sub.step] at h1
          cases hq : c.sub.queue with
          | nil => simp [hq] at h1
          | cons r q =>
            simp only [hq, Bool.false_eq_true, if_false] at h1
            obtain rfl := Option.some.inj h1
            exact h
        | sub =>
          simp only [step, Sub.step] at h1
          split at h1
          · cases h1
          · rename_i s1 hs1
            obtain rfl := Option.some.inj h1
            obtain ⟨h1, h2⟩ := h
            simp only [Sub.subStep] at hs1
            repeat' split at hs1
            all_goals first
              | cases hs1
              | skip
            all_goals simp_all
        | cut => simp [step, Sub.step, h.1] at h1
        | finish => simp [step, Sub.step, h.1] at h1
        | commit st ers =>
          simp only [step, Sub.step] at h1
          repeat' split at h1
          all_goals first
            | cases h1
            | skip
          all_goals simp_all
          all_goals grind
        | orphan st ers =>
          simp only [step, Sub.step] at h1
          repeat' split at h1
          all_goals first
            | cases h1
            | skip
          all_goals simp_all
          all_goals grind
        | delete st =>
          simp only [step, Sub.step] at h1
          repeat' split at h1
          all_goals first
            | cases h1
            | skip
          all_goals simp_all
          all_goals grind

/-- What the subscriber has received when it sits behind a dead chain. -/
structure Silent (c : State) : Prop where
  dead : Dead c.hops
  queue : c.sub.queue = []
  pc : (c.sub.pc = .working ∧ c.sub.buf = []) ∨ c.sub.pc = .finished

theorem silent_step {c c' : State} (h : Silent c) (l : Label) (hs : step z p c l = some c') :
    Silent c' ∧ c'.sub.out = c.sub.out := by
  obtain ⟨d, q, pc⟩ := h
  cases l with
  | hop k op =>
    simp only [step] at hs
    split at hs
    · cases hs
    · rename_i hs1 o h1
      obtain rfl := Option.some.inj hs
      obtain ⟨d1, rfl⟩ := dead_hopStep d h1
      exact ⟨⟨d1, by simpa using q, pc⟩, rfl⟩
  | base l =>
    cases l with
    | accept i =>
      simp only [step] at hs
      split at hs
      · rename_i r rest hi
        obtain rfl := Option.some.inj hs
        obtain ⟨d1, d2⟩ := dead_feed r d
        exact ⟨⟨d1, by simp [q, d2], pc⟩, rfl⟩
      · cases hs
    | broadcast t => simp [step, Sub.step, q] at hs
    | sub =>
      rcases pc with ⟨pc, b⟩ | pc
      · simp [step, Sub.step, Sub.subStep, pc, b] at hs
      · simp [step, Sub.step, Sub.subStep, pc] at hs
    | fail =>
      rcases pc with ⟨pc, b⟩ | pc
      · simp [step, Sub.step, Sub.subStep, pc, b] at hs
      · simp [step, Sub.step, Sub.subStep, pc] at hs
    | cancel =>
      simp only [step, Sub.step] at hs
      obtain rfl := Option.some.inj hs
      exact ⟨⟨d, q, pc⟩, rfl⟩
    | cut =>
      rcases pc with ⟨pc, _⟩ | pc <;> simp [step, Sub.step, pc] at hs
    | finish =>
      rcases pc with ⟨pc, b⟩ | pc
      · cases hc : c.sub.cancelled with
        | false => simp [step, Sub.step, pc, hc] at hs
        | true =>
          simp only [step, Sub.step, pc, hc] at hs
          obtain rfl := Option.some.inj hs
          exact ⟨⟨d, q, Or.inr rfl⟩, rfl⟩
      · simp [step, Sub.step, pc] at hs
    | commit st ers =>
      simp only [step, Sub.step] at hs
      by_cases h1 : p.holds = true ∧ c.sub.savers ≠ []
      · rw [if_pos h1] at hs; cases hs
      · rw [if_neg h1] at hs
        by_cases h2 : ers = []
        · rw [if_pos h2] at hs; cases hs
        · rw [if_neg h2] at hs
          obtain rfl := Option.some.inj hs
          exact ⟨⟨d, q, pc⟩, rfl⟩
    | orphan st ers =>
      simp only [step, Sub.step] at hs
      by_cases h1 : p.holds = true
      · rw [if_pos h1] at hs; cases hs
      · rw [if_neg h1] at hs
        obtain rfl := Option.some.inj hs
        exact ⟨⟨d, q, pc⟩, rfl⟩
    | delete st =>
      simp only [step, Sub.step] at hs
      by_cases h1 : p.holds = true ∧ c.sub.savers ≠ []
      · rw [if_pos h1] at hs; cases hs
      · rw [if_neg h1] at hs
        obtain rfl := Option.some.inj hs
        exact ⟨⟨d, q, pc⟩, rfl⟩

theorem silent_exec (ls : List Label) : ∀ {c c' : State}, Silent c → exec z p c ls = some c' →
    c'.sub.out = c.sub.out := by
  induction ls with
  | nil => intro c c' _ hs; simp only [exec] at hs; obtain rfl := Option.some.inj hs; rfl
  | cons l ls ih =>
    intro c c' h hs
    simp only [exec] at hs
    split at hs
    · cases hs
    · rename_i c1 h1
      obtain ⟨g1, g2⟩ := silent_step h l h1
      rw [ih g1 hs, g2]

theorem dead_of_down : ∀ {hs : List Hop}, (∀ h ∈ hs, h.queue = [] ∧ h.buf = []) → (∃ h ∈ hs, h.st = .down) →
    Dead hs := by
  intro hs
  induction hs with
  | nil => intro _ h; simp at h
  | cons a hs ih =>
    intro h ⟨x, hx, hd⟩
    rcases List.mem_cons.mp hx with rfl | hx
    · exact Or.inl ⟨hd, (h _ List.mem_cons_self).2, fun y hy => h y (List.mem_cons_of_mem _ hy)⟩
    · exact Or.inr (ih (fun y hy => h y (List.mem_cons_of_mem _ hy)) ⟨x, hx, hd⟩)

/-- A subscriber that has not started when every hop is registered misses nothing. -/
theorem complete (hz : z.Lawful) (hv : p.Valid) (h1 : p.topics.length = 1) {c1 c : State} (hg : Good p c1)
    (hi : Idle p c1.sub) (hidle : c1.sub.pc = .idle) (hu : Up c1.hops) (post : List Label) (hc : NoCut post)
    (hser : Serial z p c1 post) (hx : exec z p c1 post = some c) (hr : AtRest c)
    (hfin : c.sub.pc ≠ .finished) (n : Nat) (hn : p.startFrom = some n) :
    (∀ r ∈ c.sub.log.recs, p.wants r = true → n < r.gsn → r ∈ c.sub.out) ∧
    (∀ r ∈ c1.sub.log.recs, r ∈ c.sub.log.recs → p.wants r = true → r.gsn = n → r ∈ c.sub.out) := by
  obtain ⟨i1, i2, i3, i4, i5⟩ := hi hidle
  obtain ⟨_, hx', hser'⟩ := up_exec hz hv post hg hu hc hser hx
  obtain ⟨r1, r2, r3, r4⟩ := hr
  obtain ⟨r4, r5, r6⟩ : c.sub.pc = .working ∧ c.sub.buf = [] ∧ c.sub.cancelled = false :=
    r4.resolve_right hfin
  have hp := pend_empty r2
  have hsafe : Sub.Safe p (abs c1) := safe_enqueue hg.safe.sub hg.safe.pend (fun _ hr => hr)
  have hwf : c1.sub.log.WF := hg.safe.sub.wf
  have hcomp : Sub.Comp p (abs c1) := by
    refine ⟨?_, ?_, ?_, ?_, hg.one⟩
    · show Inc (c1.sub.buf ++ ((c1.sub.queue ++ pend c1.hops) ++ c1.sub.savers.flatten))
      rw [i4, List.nil_append, List.append_assoc]
      exact hg.flow
    · show c1.sub.last ≤ _
      rw [i2]; exact Nat.zero_le _
    · intro r hr hle
      have : r.gsn ≤ c1.sub.last := hle
      have := (hwf.bounded r hr.1).1
      omega
    · show Sub.CompPC p (abs c1) c1.sub.pc
      rw [hidle]
      exact ⟨i1, i2, i3⟩
  have hfinal := Sub.comp_exec hz hv h1 _ hsafe hcomp hser' hx' r6
  have hpc := hfinal.pc
  have hpc4 : (abs c).pc = .working := r4
  rw [hpc4] at hpc
  have hfl : (abs c).floor = n := Sub.floor_exec hn _ (by show c1.sub.floor = n; rw [i1, hn]; rfl) hx'
  refine ⟨fun r hr hw hlt => ?_, fun r hr0 hr hw he => ?_⟩
  · rcases hpc.2 r ⟨hr, hw, by rw [hfl]; exact hlt⟩ with g | g
    · exact g
    · simp [Sub.flow, abs, r1, r3, r5, hp] at g
  · have hF : Sub.First p c1.sub.log (abs c1) :=
      ⟨Nat.le_refl _, fun _ _ _ _ _ => by rw [show (abs c1).pc = .idle from hidle]; trivial⟩
    have h := (Sub.first_exec hz h1 hwf _ hF hx' r6).pc r hr0 hr hw (by rw [hn, he])
    rw [hpc4] at h
    exact h

end RangeDB.Chain

import Verif.Model.Subscription
import Verif.Proof.Log
import Verif.Proof.Merge

/-! # Invariants of the subscription machine -/

namespace RangeDB.Sub

variable {z : Serializer} {p : Params}

/-- Strictly increasing global numbers. -/
abbrev Inc (l : List Record) : Prop := l.Pairwise (fun a b => a.gsn < b.gsn)

/-- The records the iterator being read still holds. -/
def restOf : PC → List Record
  | .reading _ rest => rest
  | _ => []

theorem Inc.inj {l : List Record} (h : Inc l) {a b : Record} (ha : a ∈ l) (hb : b ∈ l)
    (hg : a.gsn = b.gsn) : a = b := by
  induction l with
  | nil => simp at ha
  | cons x xs ih =>
    rw [Inc, List.pairwise_cons] at h
    simp only [List.mem_cons] at ha hb
    rcases ha with rfl | ha <;> rcases hb with rfl | hb
    · rfl
    · have := h.1 b hb; omega
    · have := h.1 a ha; omega
    · exact ih h.2 ha hb

/-- The part of the invariant that depends on the position of the subscriber. -/
def SafePC (p : Params) (s : State) : PC → Prop
  | .idle => s.out = []
  | .fetch second todo got =>
    (second = false → s.out = []) ∧ (∃ done, p.topics = done ++ todo) ∧
    (∀ l ∈ got, Inc l ∧ ∀ r ∈ l, r ∈ s.saved ∧ p.wants r = true ∧ (second = true → s.last < r.gsn)) ∧
    (got.flatten.map (·.gsn)).Nodup ∧
    (p.topics.length ≠ 1 → ∀ r ∈ got.flatten, ∀ t ∈ todo, Topic.matches t r = false)
  | .reading _ rest =>
    Inc rest ∧ (∀ r ∈ rest, r ∈ s.saved ∧ p.wants r = true) ∧
    (∀ o ∈ s.out, ∀ r ∈ rest, o.gsn < r.gsn)
  | .registering todo => ∃ done, p.topics = done ++ todo
  | _ => True

/-- The invariant of all executions. -/
structure Safe (p : Params) (s : State) : Prop where
  wf : s.log.WF
  savedInc : Inc s.saved
  savedBound : ∀ r ∈ s.saved, r.gsn ≤ s.log.last
  live : ∀ r ∈ s.log.recs, r ∈ s.saved
  savers : ∀ r ∈ s.savers.flatten, r ∈ s.saved
  queue : ∀ r ∈ s.queue, r ∈ s.saved
  buf : ∀ r ∈ s.buf, r ∈ s.saved ∧ p.wants r = true
  regs : ∀ t ∈ s.regs, t ∈ p.topics
  outInc : Inc s.out
  outLast : ∀ r ∈ s.out, r.gsn ≤ s.last
  outSaved : ∀ r ∈ s.out, r ∈ s.saved ∧ p.wants r = true
  pc : SafePC p s s.pc

theorem safe_init {L : Log} (hL : L.WF) : Safe p (init p L) where
  wf := hL
  savedInc := hL.sorted
  savedBound := fun r hr => (hL.bounded r hr).2
  live := fun _ h => h
  savers := by simp [init]
  queue := by simp [init]
  buf := by simp [init]
  regs := by simp [init]
  outInc := List.Pairwise.nil
  outLast := by simp [init]
  outSaved := by simp [init]
  pc := rfl

/-- The stored batch: strictly increasing, above everything before, within the new bound. -/
theorem batch_facts (hz : z.Lawful) (L : Log) (st : Str) (ers : List EventRecord) :
    Inc ((numbered st L.last (L.streamLen st) ers).map z.view) ∧
    ∀ r ∈ (numbered st L.last (L.streamLen st) ers).map z.view,
      L.last < r.gsn ∧ r.gsn ≤ (L.append z.view st ers).last := by
  refine ⟨?_, ?_⟩
  · rw [Inc, List.pairwise_map]
    exact (numbered_sorted _ _ _ _).imp (by intro a b h; simpa [hz.gsn] using h)
  · intro r hr
    rw [List.mem_map] at hr
    obtain ⟨x, hx, rfl⟩ := hr
    have := numbered_gsn_bounds hx
    rw [hz.gsn]
    simp only [Log.append]
    omega

theorem inc_append {a b : List Record} (ha : Inc a) (hb : Inc b)
    (h : ∀ x ∈ a, ∀ y ∈ b, x.gsn < y.gsn) : Inc (a ++ b) := List.pairwise_append.mpr ⟨ha, hb, h⟩

theorem SafePC.grow {s s' : State} (hs : ∀ r ∈ s.saved, r ∈ s'.saved) (ho : s'.out = s.out)
    (hl : s'.last = s.last) : ∀ pc, SafePC p s pc → SafePC p s' pc := by
  intro pc h
  cases pc with
  | idle => exact ho.trans h
  | fetch second todo got =>
    obtain ⟨h1, h2, h3, h4, h5⟩ := h
    refine ⟨fun h => ho.trans (h1 h), h2, ?_, h4, h5⟩
    intro l hl'
    refine ⟨(h3 l hl').1, fun r hr => ?_⟩
    obtain ⟨g1, g2, g3⟩ := (h3 l hl').2 r hr
    exact ⟨hs r g1, g2, fun h => by rw [hl]; exact g3 h⟩
  | reading second rest =>
    obtain ⟨h1, h2, h3⟩ := h
    refine ⟨h1, fun r hr => ⟨hs r (h2 r hr).1, (h2 r hr).2⟩, ?_⟩
    rw [ho]; exact h3
  | registering todo => exact h
  | working => trivial
  | finished => trivial

theorem safe_append (hz : z.Lawful) {s : State} (h : Safe p s) (st : Str) (ers : List EventRecord)
    (savers : List (List Record))
    (hsv : ∀ r ∈ savers.flatten, r ∈ s.saved ++ (numbered st s.log.last (s.log.streamLen st) ers).map z.view) :
    Safe p { s with log := s.log.append z.view st ers, savers := savers,
                    saved := s.saved ++ (numbered st s.log.last (s.log.streamLen st) ers).map z.view } := by
  obtain ⟨hb1, hb2⟩ := batch_facts hz s.log st ers
  exact {
    wf := h.wf.append hz st ers
    savedInc := inc_append h.savedInc hb1 (fun a ha b hb => by
      have := h.savedBound a ha; have := hb2 b hb; omega)
    savedBound := by
      intro r hr
      rcases List.mem_append.mp hr with hr | hr
      · have := h.savedBound r hr
        simp only [Log.append]; omega
      · exact (hb2 r hr).2
    live := by
      intro r hr
      simp only [Log.append] at hr
      rcases List.mem_append.mp hr with hr | hr
      · exact List.mem_append_left _ (h.live r hr)
      · exact List.mem_append_right _ hr
    savers := hsv
    queue := fun r hr => List.mem_append_left _ (h.queue r hr)
    buf := fun r hr => ⟨List.mem_append_left _ (h.buf r hr).1, (h.buf r hr).2⟩
    regs := h.regs
    outInc := h.outInc
    outLast := h.outLast
    outSaved := fun r hr => ⟨List.mem_append_left _ (h.outSaved r hr).1, (h.outSaved r hr).2⟩
    pc := SafePC.grow (s := s) (s' := { s with
        log := s.log.append z.view st ers, savers := savers,
        saved := s.saved ++ (numbered st s.log.last (s.log.streamLen st) ers).map z.view })
      (fun r hr => List.mem_append_left _ hr) rfl rfl _ h.pc }

theorem mem_readTopic {L : Log} {t : Topic} {g : Nat} {r : Record} :
    r ∈ readTopic L t g ↔ r ∈ L.recs ∧ t.matches r = true ∧ g ≤ r.gsn := by
  simp [readTopic]

theorem wants_of {t : Topic} {r : Record} (ht : t ∈ p.topics) (hm : t.matches r = true) :
    p.wants r = true := by
  simp only [Params.wants, List.any_eq_true]
  exact ⟨t, ht, hm⟩

theorem mem_set_flatten {ss : List (List Record)} {i : Nat} {x rest : List Record}
    (hi : ss[i]? = some x) (hsub : ∀ r ∈ rest, r ∈ x) :
    ∀ r ∈ (ss.set i rest).flatten, r ∈ ss.flatten := by
  intro r hr
  rw [List.mem_flatten] at hr ⊢
  obtain ⟨l, hl, hr⟩ := hr
  rcases List.mem_or_eq_of_mem_set hl with h | h
  · exact ⟨l, h, hr⟩
  · subst h; exact ⟨x, List.mem_of_getElem? hi, hsub r hr⟩

theorem mem_erase_flatten {ss : List (List Record)} {i : Nat} :
    ∀ r ∈ (ss.eraseIdx i).flatten, r ∈ ss.flatten := by
  intro r hr
  rw [List.mem_flatten] at hr ⊢
  obtain ⟨l, hl, hr⟩ := hr
  exact ⟨l, List.mem_of_mem_eraseIdx hl, hr⟩

theorem safe_sub (hv : p.Valid) {s s' : State} (h : Safe p s) (hs : subStep p s = some s') :
    Safe p s' := by
  have hpc := h.pc
  unfold subStep at hs
  split at hs
  · -- idle
    rename_i hp
    rw [hp] at hpc
    have hpc : s.out = [] := hpc
    split at hs
    · obtain rfl := Option.some.inj hs
      exact { h with
        outLast := by rw [hpc]; simp
        pc := ⟨fun _ => hpc, ⟨[], rfl⟩, by simp, by simp, by simp⟩ }
    · split at hs
      · obtain rfl := Option.some.inj hs
        exact { h with pc := trivial }
      · obtain rfl := Option.some.inj hs
        exact { h with pc := ⟨[], rfl⟩ }
  · -- fetch, a topic left
    rename_i second t todo got hp
    rw [hp] at hpc
    obtain ⟨h1, ⟨done, h2⟩, h3, h4, h5⟩ := hpc
    split at hs
    · simp at hs
    simp only at hs
    have ht : t ∈ p.topics := by rw [h2]; simp
    have hsub : ∀ r ∈ readTopic s.log t (if second = true then s.last + 1 else s.last),
        r ∈ s.saved ∧ p.wants r = true ∧ (second = true → s.last < r.gsn) := by
      intro r hr
      obtain ⟨g1, g2, g3⟩ := mem_readTopic.mp hr
      refine ⟨h.live r g1, wants_of ht g2, ?_⟩
      intro hx; rw [if_pos hx] at g3; omega
    have hinc : Inc (readTopic s.log t (if second = true then s.last + 1 else s.last)) :=
      h.wf.sorted.filter _
    split at hs
    · obtain rfl := Option.some.inj hs
      refine { h with pc := ⟨hinc, fun r hr => ⟨(hsub r hr).1, (hsub r hr).2.1⟩, ?_⟩ }
      intro o ho r hr
      cases hb : second with
      | false => rw [h1 hb] at ho; simp at ho
      | true =>
        have := (hsub r hr).2.2 hb
        have := h.outLast o ho
        omega
    · rename_i hlen
      obtain rfl := Option.some.inj hs
      refine { h with pc := ⟨h1, ⟨done ++ [t], by simp [h2]⟩, ?_, ?_, ?_⟩ }
      · intro l hl
        rcases List.mem_append.mp hl with hl | hl
        · exact h3 l hl
        · simp only [List.mem_singleton] at hl; subst hl; exact ⟨hinc, hsub⟩
      · simp only [List.flatten_append, List.flatten_cons, List.flatten_nil, List.append_nil,
          List.map_append]
        rw [List.nodup_append]
        refine ⟨h4, ?_, ?_⟩
        · rw [List.nodup_iff_pairwise_ne, List.pairwise_map]
          exact hinc.imp (by intro a b h; omega)
        · intro a ha b hb hab
          rw [List.mem_map] at ha hb
          obtain ⟨x, hx, rfl⟩ := ha
          obtain ⟨y, hy, rfl⟩ := hb
          have hxs : x ∈ s.saved := by
            rw [List.mem_flatten] at hx
            obtain ⟨l, hl, hx⟩ := hx
            exact ((h3 l hl).2 x hx).1
          have := h.savedInc.inj hxs (hsub y hy).1 hab
          subst this
          have hf := h5 hlen x hx t (by simp)
          rw [(mem_readTopic.mp hy).2.1] at hf
          simp at hf
      · intro _ r hr t' ht'
        simp only [List.flatten_append, List.flatten_cons, List.flatten_nil, List.append_nil] at hr
        rcases List.mem_append.mp hr with hr | hr
        · exact h5 hlen r hr t' (by simp [ht'])
        · rcases hv with hv | ⟨ts, hn, hv⟩
          · rw [hv] at hlen; simp at hlen
          · have hm := (mem_readTopic.mp hr).2.1
            have htm : t ∈ ts.map some := hv ▸ ht
            have ht'm : t' ∈ ts.map some := by rw [← hv, h2]; simp [ht']
            have hnd : (ts.map (some : Str → Topic)).Nodup := by
              rw [List.nodup_iff_pairwise_ne, List.pairwise_map]
              exact (List.nodup_iff_pairwise_ne.mp hn).imp (by intro a b h; simpa using h)
            rw [← hv, h2, List.nodup_append] at hnd
            have hne : t ∉ todo := by
              have := hnd.2.1
              rw [List.nodup_cons] at this
              exact this.1
            rw [List.mem_map] at htm ht'm
            obtain ⟨a, _, rfl⟩ := htm
            obtain ⟨b, _, rfl⟩ := ht'm
            simp only [Topic.matches, decide_eq_true_eq] at hm
            simp only [Topic.matches, decide_eq_false_iff_not]
            intro hb
            rw [hm] at hb
            subst hb
            exact hne ht'
  · -- fetch, merge
    rename_i second got hp
    rw [hp] at hpc
    obtain ⟨h1, _, h3, h4, _⟩ := hpc
    obtain rfl := Option.some.inj hs
    have hfl : (got.map (fun l => (⟨l, none⟩ : Iter))).flatMap (·.recs) = got.flatten := by
      rw [List.flatMap_map]; simp [List.flatMap_id']
    have hperm := mergeIters_perm (got.map (fun l => (⟨l, none⟩ : Iter)))
    rw [hfl] at hperm
    have hmem : ∀ r ∈ (mergeIters (got.map (fun l => (⟨l, none⟩ : Iter)))).recs,
        r ∈ s.saved ∧ p.wants r = true ∧ (second = true → s.last < r.gsn) := by
      intro r hr
      have hr := hperm.mem_iff.mp hr
      rw [List.mem_flatten] at hr
      obtain ⟨l, hl, hr⟩ := hr
      exact (h3 l hl).2 r hr
    refine { h with pc := ⟨?_, fun r hr => ⟨(hmem r hr).1, (hmem r hr).2.1⟩, ?_⟩ }
    · apply mergeIters_sorted
      · intro it hit
        rw [List.mem_map] at hit
        obtain ⟨l, hl, rfl⟩ := hit
        exact (h3 l hl).1
      · rw [hfl]; exact h4
    · intro o ho r hr
      cases hb : second with
      | false => rw [h1 hb] at ho; simp at ho
      | true =>
        have := (hmem r hr).2.2 hb
        have := h.outLast o ho
        omega
  · -- consume
    rename_i second r rest hp
    rw [hp] at hpc
    obtain ⟨h1, h2, h3⟩ := hpc
    obtain rfl := Option.some.inj hs
    rw [Inc, List.pairwise_cons] at h1
    refine { h with
      outInc := inc_append h.outInc (List.pairwise_singleton _ _) (by
        intro a ha b hb
        simp only [List.mem_singleton] at hb; subst hb
        exact h3 a ha b (by simp))
      outLast := by
        intro o ho
        rcases List.mem_append.mp ho with ho | ho
        · exact Nat.le_of_lt (h3 o ho r (by simp))
        · simp only [List.mem_singleton] at ho; subst ho; exact Nat.le_refl _
      outSaved := by
        intro o ho
        rcases List.mem_append.mp ho with ho | ho
        · exact h.outSaved o ho
        · simp only [List.mem_singleton] at ho; subst ho; exact h2 o (by simp)
      pc := ⟨h1.2, fun x hx => h2 x (by simp [hx]), ?_⟩ }
    intro o ho x hx
    rcases List.mem_append.mp ho with ho | ho
    · exact h3 o ho x (by simp [hx])
    · simp only [List.mem_singleton] at ho; subst ho; exact h1.1 x hx
  · -- end of the first read
    obtain rfl := Option.some.inj hs
    exact { h with pc := ⟨[], rfl⟩ }
  · obtain rfl := Option.some.inj hs
    exact { h with pc := trivial }
  · -- register
    rename_i t todo hp
    rw [hp] at hpc
    obtain ⟨done, hd⟩ := hpc
    obtain rfl := Option.some.inj hs
    refine { h with regs := ?_, pc := ⟨done ++ [t], by simp [hd]⟩ }
    intro x hx
    have ht : t ∈ p.topics := by rw [hd]; simp
    simp only [addReg] at hx
    split at hx
    · exact h.regs x hx
    · rcases List.mem_append.mp hx with hx | hx
      · exact h.regs x hx
      · simp only [List.mem_singleton] at hx; subst hx; exact ht
  · rename_i hp
    split at hs
    · obtain rfl := Option.some.inj hs
      refine { h with pc := ⟨by simp, ⟨[], rfl⟩, by simp, by simp, by simp⟩ }
    · obtain rfl := Option.some.inj hs
      exact { h with pc := trivial }
  · -- work
    rename_i hp
    split at hs
    · simp at hs
    · rename_i r buf hb
      have hr := h.buf r (by rw [hb]; simp)
      split at hs
      · obtain rfl := Option.some.inj hs
        exact { h with buf := fun x hx => h.buf x (by rw [hb]; simp [hx])
                       pc := by rw [hp]; trivial }
      · rename_i hlt
        obtain rfl := Option.some.inj hs
        exact { h with
          buf := fun x hx => h.buf x (by rw [hb]; simp [hx])
          outInc := inc_append h.outInc (List.pairwise_singleton _ _) (by
            intro a ha b hb
            simp only [List.mem_singleton] at hb; subst hb
            have := h.outLast a ha; omega)
          outLast := by
            intro o ho
            rcases List.mem_append.mp ho with ho | ho
            · have := h.outLast o ho
              show o.gsn ≤ r.gsn
              omega
            · simp only [List.mem_singleton] at ho; subst ho; exact Nat.le_refl _
          outSaved := by
            intro o ho
            rcases List.mem_append.mp ho with ho | ho
            · exact h.outSaved o ho
            · simp only [List.mem_singleton] at ho; subst ho; exact hr
          pc := by rw [hp]; trivial }
  · simp at hs

theorem safe_step (hz : z.Lawful) (hv : p.Valid) {s s' : State} (h : Safe p s) (l : Label)
    (hs : step z p s l = some s') : Safe p s' := by
  cases l with
  | commit st ers =>
    simp only [step] at hs
    split at hs
    · simp at hs
    split at hs
    · simp at hs
    obtain rfl := Option.some.inj hs
    apply safe_append hz h
    intro r hr
    rw [List.flatten_append] at hr
    rcases List.mem_append.mp hr with hr | hr
    · exact List.mem_append_left _ (h.savers r hr)
    · exact List.mem_append_right _ (by simpa using hr)
  | orphan st ers =>
    simp only [step] at hs
    split at hs
    · simp at hs
    obtain rfl := Option.some.inj hs
    exact safe_append hz h st ers s.savers (fun r hr => List.mem_append_left _ (h.savers r hr))
  | delete st =>
    simp only [step] at hs
    split at hs
    · simp at hs
    obtain rfl := Option.some.inj hs
    exact { h with
      wf := h.wf.delete st
      live := by
        intro r hr
        simp only [Log.delete] at hr
        exact h.live r (List.mem_filter.mp hr).1
      pc := SafePC.grow (s := s) (fun _ hr => hr) rfl rfl _ h.pc }
  | accept i =>
    simp only [step] at hs
    split at hs
    · rename_i r rest hi
      obtain rfl := Option.some.inj hs
      exact { h with
        queue := by
          intro x hx
          rcases List.mem_append.mp hx with hx | hx
          · exact h.queue x hx
          · simp only [List.mem_singleton] at hx; subst hx
            exact h.savers x (List.mem_flatten.mpr ⟨_, List.mem_of_getElem? hi, by simp⟩)
        savers := by
          intro x hx
          simp only at hx
          split at hx
          · exact h.savers x (mem_erase_flatten x hx)
          · exact h.savers x (mem_set_flatten hi (by intro y hy; simp [hy]) x hx)
        pc := SafePC.grow (s := s) (fun _ hr => hr) rfl rfl _ h.pc }
    · simp at hs
  | broadcast timedOut =>
    simp only [step] at hs
    split at hs
    · simp at hs
    · rename_i r queue hq
      split at hs
      · split at hs
        · simp at hs
        obtain rfl := Option.some.inj hs
        exact { h with
          queue := fun x hx => h.queue x (by rw [hq]; simp [hx])
          regs := fun t ht => h.regs t (List.mem_filter.mp ht).1
          pc := SafePC.grow (s := s) (fun _ hr => hr) rfl rfl _ h.pc }
      · obtain rfl := Option.some.inj hs
        exact { h with
          queue := fun x hx => h.queue x (by rw [hq]; simp [hx])
          buf := by
            intro x hx
            rcases List.mem_append.mp hx with hx | hx
            · exact h.buf x hx
            · rw [List.mem_map] at hx
              obtain ⟨t, ht, rfl⟩ := hx
              exact ⟨h.queue _ (by rw [hq]; simp),
                wants_of (h.regs t (List.mem_filter.mp ht).1) (List.mem_filter.mp ht).2⟩
          pc := SafePC.grow (s := s) (fun _ hr => hr) rfl rfl _ h.pc }
  | sub => exact safe_sub hv h hs
  | cancel =>
    simp only [step] at hs
    obtain rfl := Option.some.inj hs
    exact { h with pc := SafePC.grow (s := s) (fun _ hr => hr) rfl rfl _ h.pc }
  | cut =>
    simp only [step] at hs
    split at hs
    · obtain rfl := Option.some.inj hs
      exact { h with pc := ⟨List.Pairwise.nil, by simp, by simp⟩ }
    · simp at hs
  | fail =>
    simp only [step] at hs
    split at hs
    · rename_i s1 h1
      split at hs
      · simp at hs
      · obtain rfl := Option.some.inj hs
        have h2 := safe_sub hv h h1
        exact { h2 with regs := by simp, pc := trivial }
    · simp at hs
  | finish =>
    simp only [step] at hs
    split at hs
    · obtain rfl := Option.some.inj hs
      exact { h with regs := by simp, pc := trivial }
    · simp at hs

theorem safe_exec (hz : z.Lawful) (hv : p.Valid) (ls : List Label) : ∀ {s s' : State}, Safe p s →
    exec z p s ls = some s' → Safe p s' := by
  induction ls with
  | nil => intro s s' h hs; simp only [exec] at hs; obtain rfl := Option.some.inj hs; exact h
  | cons l ls ih =>
    intro s s' h hs
    simp only [exec] at hs
    split at hs
    · simp at hs
    · rename_i s1 h1
      exact ih (safe_step hz hv h l h1) hs

/-! ## Completeness, for one topic -/

/-- The records on their way to the subscriber. -/
def flow (s : State) : List Record := s.buf ++ (s.queue ++ s.savers.flatten)

/-- Live records this subscription promises to deliver. -/
def Due (p : Params) (s : State) (r : Record) : Prop :=
  r ∈ s.log.recs ∧ p.wants r = true ∧ s.floor < r.gsn

/-- Position-dependent part, while the context is not done. -/
def CompPC (p : Params) (s : State) : PC → Prop
  | .idle => s.floor = p.startFrom.getD 0 ∧ s.last = 0 ∧ s.regs = []
  | .fetch second todo got => p.startFrom ≠ none ∧ todo = p.topics ∧ got = [] ∧
      (second = true → s.regs = p.topics) ∧ (second = false → s.regs = [])
  | .reading second rest => p.startFrom ≠ none ∧
      (∀ r, Due p s r → (∃ x ∈ rest, r.gsn ≤ x.gsn) → r ∈ s.out ∨ r ∈ rest) ∧
      (second = false → s.regs = []) ∧
      (second = true → s.regs = p.topics ∧ ∀ r, Due p s r → r ∈ s.out ∨ r ∈ rest ∨ r ∈ flow s)
  | .registering todo => (p.startFrom = none → s.last = 0) ∧
      ((todo = p.topics ∧ s.regs = []) ∨ (todo = [] ∧ s.regs = p.topics))
  | .working => s.regs = p.topics ∧ ∀ r, Due p s r → r ∈ s.out ∨ r ∈ flow s
  | .finished => False

/-- The invariant of executions in which saves do not overlap, until the context is done. -/
structure Comp (p : Params) (s : State) : Prop where
  flowInc : Inc (flow s)
  lastBound : s.last ≤ max s.floor s.log.last
  done : ∀ r, Due p s r → r.gsn ≤ s.last → r ∈ s.out
  pc : CompPC p s s.pc
  one : s.savers.length ≤ 1

theorem comp_init {L : Log} : Comp p (init p L) where
  flowInc := by simp [flow, init]
  lastBound := by simp [init]
  done := by
    intro r hr hl
    simp only [init] at hl
    have := hr.2.2
    omega
  pc := ⟨rfl, rfl, rfl⟩
  one := by simp [init]

theorem subStep_savers {s s' : State} (hs : subStep p s = some s') : s'.savers = s.savers := by
  unfold subStep at hs
  repeat' split at hs
  all_goals first
    | (obtain rfl := Option.some.inj hs; rfl)
    | simp at hs

theorem comp_sub (h1 : p.topics.length = 1) {s s' : State} (hS : Safe p s) (h : Comp p s)
    (hc : s'.cancelled = false) (hs : subStep p s = some s') : Comp p s' := by
  suffices H : Inc (flow s') ∧ s'.last ≤ max s'.floor s'.log.last ∧
      (∀ r, Due p s' r → r.gsn ≤ s'.last → r ∈ s'.out) ∧ CompPC p s' s'.pc by
    refine ⟨H.1, H.2.1, H.2.2.1, H.2.2.2, ?_⟩
    rw [subStep_savers hs]; exact h.one
  obtain ⟨t, htop⟩ : ∃ t, p.topics = [t] := List.length_eq_one_iff.mp h1
  have hpc := h.pc
  have hSpc := hS.pc
  unfold subStep at hs
  split at hs
  · -- idle
    rename_i hp
    rw [hp] at hpc hSpc
    obtain ⟨c1, c2, c3⟩ := hpc
    split at hs
    · rename_i n hn
      obtain rfl := Option.some.inj hs
      rw [hn, Option.getD_some] at c1
      refine ⟨h.flowInc, ?_, ?_, by simp [hn], rfl, rfl, by simp, fun _ => c3⟩
      · show n ≤ max s.floor s.log.last
        omega
      · intro r hr hl
        have h3 : s.floor < r.gsn := hr.2.2
        have hl : r.gsn ≤ n := hl
        omega
    · split at hs
      · rename_i hcc
        obtain rfl := Option.some.inj hs
        rw [show s.cancelled = false from hc] at hcc
        simp at hcc
      · obtain rfl := Option.some.inj hs
        exact ⟨h.flowInc, h.lastBound, h.done, fun _ => c2, Or.inl ⟨rfl, c3⟩⟩
  · -- fetch
    rename_i second t' todo got hp
    rw [hp] at hpc hSpc
    obtain ⟨c0, c1, c2, c3, c4⟩ := hpc
    split at hs
    · simp at hs
    simp only at hs
    obtain rfl := Option.some.inj hs
    have ht' : t' = t := by rw [htop] at c1; simp at c1; exact c1.1
    subst ht'
    have hw : ∀ r, p.wants r = true → t'.matches r = true := by
      intro r hr
      simpa [Params.wants, htop] using hr
    have hread : ∀ r, Due p s r → r ∈ s.out ∨
        r ∈ readTopic s.log t' (if second = true then s.last + 1 else s.last) := by
      intro r hr
      by_cases hl : r.gsn ≤ s.last
      · exact Or.inl (h.done r hr hl)
      · right
        refine mem_readTopic.mpr ⟨hr.1, hw r hr.2.1, ?_⟩
        split <;> omega
    refine ⟨h.flowInc, h.lastBound, h.done, c0, ?_, c4, fun hx => ⟨c3 hx, ?_⟩⟩
    · intro r hr _
      exact hread r hr
    · intro r hr
      rcases hread r hr with h | h
      · exact Or.inl h
      · exact Or.inr (Or.inl h)
  · rename_i second got hp
    rw [hp] at hpc
    have := hpc.2.1
    rw [htop] at this
    simp at this
  · -- consume
    rename_i second r rest hp
    rw [hp] at hpc hSpc
    obtain ⟨c0, c1, c2, c3⟩ := hpc
    obtain ⟨d1, d2, d3⟩ := hSpc
    obtain rfl := Option.some.inj hs
    rw [Inc, List.pairwise_cons] at d1
    refine ⟨h.flowInc, ?_, ?_, c0, ?_, c2, ?_⟩
    · have := hS.savedBound r (d2 r (by simp)).1
      show r.gsn ≤ max s.floor s.log.last
      omega
    · intro x hx hl
      have hl : x.gsn ≤ r.gsn := hl
      rcases c1 x hx ⟨r, by simp, hl⟩ with g | g
      · exact List.mem_append_left _ g
      · simp only [List.mem_cons] at g
        rcases g with rfl | g
        · exact List.mem_append_right _ (by simp)
        · have := d1.1 x g; omega
    · intro x hx hl
      obtain ⟨y, hy, hl⟩ := hl
      rcases c1 x hx ⟨y, by simp [hy], hl⟩ with g | g
      · exact Or.inl (List.mem_append_left _ g)
      · simp only [List.mem_cons] at g
        rcases g with rfl | g
        · exact Or.inl (List.mem_append_right _ (by simp))
        · exact Or.inr g
    · intro hx
      refine ⟨(c3 hx).1, fun x hx' => ?_⟩
      rcases (c3 hx).2 x hx' with g | g | g
      · exact Or.inl (List.mem_append_left _ g)
      · simp only [List.mem_cons] at g
        rcases g with rfl | g
        · exact Or.inl (List.mem_append_right _ (by simp))
        · exact Or.inr (Or.inl g)
      · exact Or.inr (Or.inr g)
  · -- end of the first read
    rename_i hp
    rw [hp] at hpc
    obtain ⟨c0, c1, c2, c3⟩ := hpc
    obtain rfl := Option.some.inj hs
    refine ⟨h.flowInc, h.lastBound, h.done, fun hn => absurd hn c0, Or.inl ⟨rfl, c2 rfl⟩⟩
  · -- end of the second read
    rename_i hp
    rw [hp] at hpc
    obtain ⟨c0, c1, c2, c3⟩ := hpc
    obtain rfl := Option.some.inj hs
    refine ⟨h.flowInc, h.lastBound, h.done, (c3 rfl).1, fun r hr => ?_⟩
    rcases (c3 rfl).2 r hr with g | g | g
    · exact Or.inl g
    · simp at g
    · exact Or.inr g
  · -- register
    rename_i t' todo hp
    rw [hp] at hpc
    obtain ⟨c0, c1⟩ := hpc
    obtain rfl := Option.some.inj hs
    rcases c1 with ⟨c1, c2⟩ | ⟨c1, _⟩
    · refine ⟨h.flowInc, h.lastBound, h.done, c0, Or.inr ?_⟩
      rw [htop] at c1
      simp only [List.cons.injEq] at c1
      obtain ⟨rfl, rfl⟩ := c1
      refine ⟨rfl, ?_⟩
      simp [addReg, c2, htop]
    · simp at c1
  · rename_i hp
    rw [hp] at hpc
    obtain ⟨c0, c1⟩ := hpc
    have hreg : s.regs = p.topics := by
      rcases c1 with ⟨c1, _⟩ | ⟨_, c2⟩
      · rw [htop] at c1; simp at c1
      · exact c2
    split at hs
    · obtain rfl := Option.some.inj hs
      exact ⟨h.flowInc, h.lastBound, h.done, by simp [*], rfl, rfl, fun _ => hreg, by simp⟩
    · rename_i hn
      obtain rfl := Option.some.inj hs
      have hdue : ∀ r, ¬ Due p { s with pc := .working, floor := s.log.last } r := by
        intro r hr
        have h1 := (hS.wf.bounded r hr.1).2
        have h2 : s.log.last < r.gsn := hr.2.2
        omega
      refine ⟨h.flowInc, ?_, fun r hr => absurd hr (hdue r), hreg, fun r hr => absurd hr (hdue r)⟩
      show s.last ≤ _
      rw [c0 hn]
      exact Nat.zero_le _
  · -- work
    rename_i hp
    rw [hp] at hpc
    obtain ⟨c1, c2⟩ := hpc
    split at hs
    · simp at hs
    · rename_i r buf hb
      have hfl : flow s = r :: (buf ++ (s.queue ++ s.savers.flatten)) := by
        simp [flow, hb]
      have hinc := h.flowInc
      rw [hfl, Inc, List.pairwise_cons] at hinc
      split at hs
      · rename_i hle
        obtain rfl := Option.some.inj hs
        refine ⟨hinc.2, h.lastBound, h.done, ?_⟩
        rw [hp]
        refine ⟨c1, fun x hx => ?_⟩
        rcases c2 x hx with g | g
        · exact Or.inl g
        · rw [hfl] at g
          simp only [List.mem_cons] at g
          rcases g with rfl | g
          · exact Or.inl (h.done x hx hle)
          · exact Or.inr g
      · rename_i hlt
        obtain rfl := Option.some.inj hs
        refine ⟨hinc.2, ?_, ?_, ?_⟩
        · have := hS.savedBound r (hS.buf r (by rw [hb]; simp)).1
          show r.gsn ≤ max s.floor s.log.last
          omega
        · intro x hx hl
          have hl : x.gsn ≤ r.gsn := hl
          rcases c2 x hx with g | g
          · exact List.mem_append_left _ g
          · rw [hfl] at g
            simp only [List.mem_cons] at g
            rcases g with rfl | g
            · exact List.mem_append_right _ (by simp)
            · have := hinc.1 x g; omega
        · rw [hp]
          refine ⟨c1, fun x hx => ?_⟩
          rcases c2 x hx with g | g
          · exact Or.inl (List.mem_append_left _ g)
          · rw [hfl] at g
            simp only [List.mem_cons] at g
            rcases g with rfl | g
            · exact Or.inl (List.mem_append_right _ (by simp))
            · exact Or.inr g
  · simp at hs

/-- Changes that touch neither the subscriber nor the store, and keep the flow. -/
theorem CompPC.congr {s s' : State} (hl : s'.last = s.last) (ho : s'.out = s.out)
    (hr : s'.regs = s.regs) (hf : s'.floor = s.floor) (hd : ∀ r, Due p s' r → Due p s r)
    (hflow : s.regs = p.topics → ∀ r, Due p s' r → r ∈ flow s → r ∈ flow s') :
    ∀ pc, CompPC p s pc → CompPC p s' pc := by
  intro pc h
  cases pc with
  | idle => exact ⟨hf.trans h.1, hl.trans h.2.1, hr.trans h.2.2⟩
  | fetch second todo got =>
    obtain ⟨c0, c1, c2, c3, c4⟩ := h
    exact ⟨c0, c1, c2, fun x => hr.trans (c3 x), fun x => hr.trans (c4 x)⟩
  | reading second rest =>
    obtain ⟨c0, c1, c2, c3⟩ := h
    refine ⟨c0, ?_, fun x => hr.trans (c2 x), fun x => ⟨hr.trans (c3 x).1, ?_⟩⟩
    · intro r hdr hx; rw [ho]; exact c1 r (hd r hdr) hx
    · intro r hdr
      rw [ho]
      rcases (c3 x).2 r (hd r hdr) with g | g | g
      · exact Or.inl g
      · exact Or.inr (Or.inl g)
      · exact Or.inr (Or.inr (hflow (c3 x).1 r hdr g))
  | registering todo =>
    obtain ⟨c0, c1⟩ := h
    refine ⟨fun x => hl.trans (c0 x), ?_⟩
    rcases c1 with ⟨c1, c2⟩ | ⟨c1, c2⟩
    · exact Or.inl ⟨c1, hr.trans c2⟩
    · exact Or.inr ⟨c1, hr.trans c2⟩
  | working =>
    refine ⟨hr.trans h.1, fun r hdr => ?_⟩
    rw [ho]
    rcases h.2 r (hd r hdr) with g | g
    · exact Or.inl g
    · exact Or.inr (hflow h.1 r hdr g)
  | finished => exact h.elim

theorem comp_step (hz : z.Lawful) (h1 : p.topics.length = 1) {s s' : State}
    (hS : Safe p s) (h : Comp p s) (l : Label)
    (hser : match l with
      | .commit _ _ => s.savers = []
      | .orphan _ _ => False
      | _ => True)
    (hc : s'.cancelled = false) (hs : step z p s l = some s') : Comp p s' := by
  obtain ⟨t, htop⟩ : ∃ t, p.topics = [t] := List.length_eq_one_iff.mp h1
  cases l with
  | commit st ers =>
    simp only [step] at hs
    split at hs
    · simp at hs
    split at hs
    · simp at hs
    obtain rfl := Option.some.inj hs
    have hsv : s.savers = [] := hser
    obtain ⟨hb1, hb2⟩ := batch_facts hz s.log st ers
    have hold : ∀ r, r ∈ (s.log.append z.view st ers).recs →
        r ∈ s.log.recs ∨ r ∈ (numbered st s.log.last (s.log.streamLen st) ers).map z.view := by
      intro r hr; simpa only [Log.append, List.mem_append] using hr
    refine ⟨?_, ?_, ?_, ?_, by simp [hsv]⟩
    · simp only [flow, hsv, List.nil_append, List.flatten_cons, List.flatten_nil, List.append_nil]
      have h0 := h.flowInc
      simp only [flow, hsv, List.flatten_nil, List.append_nil] at h0
      rw [← List.append_assoc]
      apply inc_append h0 hb1
      intro a ha b hb
      have ha : a ∈ s.saved := by
        rcases List.mem_append.mp ha with ha | ha
        · exact (hS.buf a ha).1
        · exact hS.queue a ha
      have := hS.savedBound a ha
      have := (hb2 b hb).1
      omega
    · have := h.lastBound
      show s.last ≤ max s.floor (s.log.last + ers.length)
      omega
    · intro r hr hl
      rcases hold r hr.1 with g | g
      · exact h.done r ⟨g, hr.2⟩ hl
      · have h3 := (hb2 r g).1
        have h4 : s.floor < r.gsn := hr.2.2
        have h5 := h.lastBound
        have hl : r.gsn ≤ s.last := hl
        omega
    · -- position
      have hpc := h.pc
      have hSpc := hS.pc
      show CompPC p _ s.pc
      generalize hrs : (numbered st s.log.last (s.log.streamLen st) ers).map z.view = rs at *
      have hnew : ∀ s2 : State, s2.buf = s.buf → s2.queue = s.queue → s2.savers = s.savers ++ [rs] →
          ∀ r ∈ rs, r ∈ flow s2 := by
        intro s2 e1 e2 e3 r hr
        simp only [flow, e1, e2, e3, List.flatten_append, List.flatten_cons, List.flatten_nil,
          List.append_nil, List.mem_append]
        exact Or.inr (Or.inr (Or.inr hr))
      have hfl : ∀ s2 : State, s2.buf = s.buf → s2.queue = s.queue → ∀ r ∈ flow s, r ∈ flow s2 := by
        intro s2 e1 e2 r hr
        simp only [flow, hsv, List.flatten_nil, List.append_nil, List.mem_append] at hr
        simp only [flow, e1, e2, List.mem_append]
        rcases hr with hr | hr
        · exact Or.inl hr
        · exact Or.inr (Or.inl hr)
      cases hp : s.pc with
      | idle => rw [hp] at hpc; exact hpc
      | fetch second todo got => rw [hp] at hpc; exact hpc
      | reading second rest =>
        rw [hp] at hpc hSpc
        obtain ⟨c0, c1, c2, c3⟩ := hpc
        refine ⟨c0, ?_, c2, fun x => ⟨(c3 x).1, ?_⟩⟩
        · intro r hr hx
          rcases hold r hr.1 with g | g
          · exact c1 r ⟨g, hr.2⟩ hx
          · obtain ⟨y, hy, hx⟩ := hx
            have := hS.savedBound y (hSpc.2.1 y hy).1
            have := (hb2 r g).1
            omega
        · intro r hr
          rcases hold r hr.1 with g | g
          · rcases (c3 x).2 r ⟨g, hr.2⟩ with k | k | k
            · exact Or.inl k
            · exact Or.inr (Or.inl k)
            · exact Or.inr (Or.inr (hfl _ (by rfl) (by rfl) r k))
          · exact Or.inr (Or.inr (hnew _ (by rfl) (by rfl) (by rfl) r g))
      | registering todo => rw [hp] at hpc; exact hpc
      | working =>
        rw [hp] at hpc
        refine ⟨hpc.1, fun r hr => ?_⟩
        rcases hold r hr.1 with g | g
        · rcases hpc.2 r ⟨g, hr.2⟩ with k | k
          · exact Or.inl k
          · exact Or.inr (hfl _ (by rfl) (by rfl) r k)
        · exact Or.inr (hnew _ (by rfl) (by rfl) (by rfl) r g)
      | finished => rw [hp] at hpc; exact hpc.elim
  | orphan st ers => exact hser.elim
  | delete st =>
    simp only [step] at hs
    split at hs
    · simp at hs
    obtain rfl := Option.some.inj hs
    have hd : ∀ r, Due p { s with log := s.log.delete st } r → Due p s r := by
      intro r hr
      exact ⟨(List.mem_filter.mp hr.1).1, hr.2⟩
    exact ⟨h.flowInc, h.lastBound, fun r hr => h.done r (hd r hr),
      CompPC.congr (s := s) (by rfl) (by rfl) (by rfl) (by rfl) hd (fun _ _ _ g => g) _ h.pc, h.one⟩
  | accept i =>
    simp only [step] at hs
    split at hs
    · rename_i r rest hi
      obtain rfl := Option.some.inj hs
      -- with one saver the flow does not change
      have hsv : s.savers = [r :: rest] := by
        have h1 := h.one
        match hss : s.savers with
        | [] => rw [hss] at hi; simp at hi
        | [x] =>
          rw [hss] at hi
          cases i with
          | zero => simpa using hi
          | succ i => simp at hi
        | _ :: _ :: _ => rw [hss] at h1; simp at h1
      have hi0 : i = 0 := by
        rw [hsv] at hi
        cases i with
        | zero => rfl
        | succ i => simp at hi
      subst hi0
      have hfl : ∀ s2 : State, s2.buf = s.buf → s2.queue = s.queue ++ [r] →
          s2.savers = (if rest = [] then s.savers.eraseIdx 0 else s.savers.set 0 rest) →
          flow s2 = flow s := by
        intro s2 e1 e2 e3
        simp only [flow, e1, e2, e3, hsv]
        by_cases hr : rest = []
        · simp [hr]
        · simp [hr]
      have hfl' := hfl { s with
        queue := s.queue ++ [r],
        savers := if rest = [] then s.savers.eraseIdx 0 else s.savers.set 0 rest } rfl rfl rfl
      refine ⟨by rw [hfl']; exact h.flowInc, h.lastBound, h.done, ?_, ?_⟩
      · refine CompPC.congr (s := s) (by rfl) (by rfl) (by rfl) (by rfl) ?_ ?_ _ h.pc
        · exact fun _ hr => hr
        · intro _ x _ g
          rw [hfl']; exact g
      simp only [hsv]
      split <;> simp
    · simp at hs
  | broadcast timedOut =>
    simp only [step] at hs
    split at hs
    · simp at hs
    · rename_i r queue hq
      split at hs
      · split at hs
        · simp at hs
        · obtain rfl := Option.some.inj hs
          simp at hc
      · obtain rfl := Option.some.inj hs
        have hfl : flow s = s.buf ++ (r :: (queue ++ s.savers.flatten)) := by simp [flow, hq]
        have hinc := h.flowInc
        rw [hfl] at hinc
        have hreg : s.regs = p.topics → p.wants r = true →
            (s.regs.filter (fun t => Topic.matches t r)).map (fun _ => r) = [r] := by
          intro h1 h2
          rw [h1, htop]
          have : t.matches r = true := by simpa [Params.wants, htop] using h2
          simp [this]
        have hle : ∃ k, k ≤ 1 ∧ (s.regs.filter (fun t => Topic.matches t r)).map (fun _ => r)
            = List.replicate k r := by
          have hcase : s.regs = [] ∨ s.regs = p.topics := by
            have hpc := h.pc
            cases hp : s.pc with
            | idle => rw [hp] at hpc; exact Or.inl hpc.2.2
            | fetch second todo got =>
              rw [hp] at hpc
              cases hb : second with
              | false => exact Or.inl (hpc.2.2.2.2 hb)
              | true => exact Or.inr (hpc.2.2.2.1 hb)
            | reading second rest =>
              rw [hp] at hpc
              cases hb : second with
              | false => exact Or.inl (hpc.2.2.1 hb)
              | true => exact Or.inr (hpc.2.2.2 hb).1
            | registering todo =>
              rw [hp] at hpc
              rcases hpc.2 with ⟨_, g⟩ | ⟨_, g⟩
              · exact Or.inl g
              · exact Or.inr g
            | working => rw [hp] at hpc; exact Or.inr hpc.1
            | finished => rw [hp] at hpc; exact hpc.elim
          rcases hcase with g | g
          · exact ⟨0, by omega, by simp [g]⟩
          · rw [g, htop]
            by_cases hm : t.matches r = true
            · exact ⟨1, by omega, by simp [hm]⟩
            · exact ⟨0, by omega, by simp [hm]⟩
        refine ⟨?_, h.lastBound, h.done, ?_, h.one⟩
        · obtain ⟨k, hk, he⟩ := hle
          simp only [flow]
          rw [he]
          rw [show s.buf ++ List.replicate k r ++ (queue ++ s.savers.flatten)
            = s.buf ++ (List.replicate k r ++ (queue ++ s.savers.flatten)) by simp]
          refine hinc.sublist ?_
          apply List.Sublist.append_left
          rw [show r :: (queue ++ s.savers.flatten) = [r] ++ (queue ++ s.savers.flatten) by simp]
          apply List.Sublist.append_right
          match k, hk with
          | 0, _ => simp
          | 1, _ => simp
        · refine CompPC.congr (s := s) (by rfl) (by rfl) (by rfl) (by rfl) ?_ ?_ _ h.pc
          · exact fun _ hr => hr
          intro hrt x hx g
          rw [hfl] at g
          simp only [flow, List.mem_append, List.mem_cons] at g ⊢
          rcases g with g | rfl | g | g
          · exact Or.inl (Or.inl g)
          · rw [hreg hrt hx.2.1]; exact Or.inl (Or.inr (by simp))
          · exact Or.inr (Or.inl g)
          · exact Or.inr (Or.inr g)
  | sub => exact comp_sub h1 hS h hc hs
  | fail =>
    simp only [step] at hs
    split at hs
    · split at hs
      · simp at hs
      · obtain rfl := Option.some.inj hs
        simp at hc
    · simp at hs
  | cancel =>
    simp only [step] at hs
    obtain rfl := Option.some.inj hs
    simp at hc
  | cut =>
    simp only [step] at hs
    split at hs
    · rename_i hcc _
      obtain rfl := Option.some.inj hs
      simp only [hcc] at hc
      simp at hc
    · simp at hs
  | finish =>
    simp only [step] at hs
    split at hs
    · rename_i hcc _
      obtain rfl := Option.some.inj hs
      simp only [hcc] at hc
      simp at hc
    · simp at hs

/-- A done context stays done. -/
theorem step_cancelled {s s' : State} (l : Label) (hs : step z p s l = some s')
    (hc : s'.cancelled = false) : s.cancelled = false := by
  cases hcc : s.cancelled with
  | false => rfl
  | true =>
    exfalso
    have : s'.cancelled = true := by
      cases l <;> simp only [step, subStep] at hs
      all_goals repeat' split at hs
      all_goals first
        | (obtain rfl := Option.some.inj hs; exact hcc)
        | (obtain rfl := Option.some.inj hs; rfl)
        | simp at hs
    rw [this] at hc
    simp at hc

theorem exec_cancelled (ls : List Label) : ∀ {s s' : State}, exec z p s ls = some s' →
    s'.cancelled = false → s.cancelled = false := by
  induction ls with
  | nil => intro s s' h hc; simp only [exec] at h; obtain rfl := Option.some.inj h; exact hc
  | cons l ls ih =>
    intro s s' h hc
    simp only [exec] at h
    split at h
    · simp at h
    · rename_i s1 h1
      exact step_cancelled l h1 (ih h hc)

theorem Serial.tail {s s1 : State} {l : Label} {ls : List Label} (h : Serial z p s (l :: ls))
    (h1 : step z p s l = some s1) : Serial z p s1 ls := by
  intro pre l' post s' he hx
  apply h (l :: pre) l' post s' (by rw [he]; rfl)
  simp only [exec, h1]
  exact hx

theorem comp_exec (hz : z.Lawful) (hv : p.Valid) (h1 : p.topics.length = 1) (ls : List Label) :
    ∀ {s s' : State}, Safe p s → Comp p s → Serial z p s ls → exec z p s ls = some s' →
      s'.cancelled = false → Comp p s' := by
  induction ls with
  | nil => intro s s' _ h _ hs _; simp only [exec] at hs; obtain rfl := Option.some.inj hs; exact h
  | cons l ls ih =>
    intro s s' hS h hser hs hc
    simp only [exec] at hs
    split at hs
    · simp at hs
    · rename_i s1 hs1
      have hc1 := exec_cancelled ls hs hc
      exact ih (safe_step hz hv hS l hs1)
        (comp_step hz h1 hS h l (hser [] l ls s rfl rfl) hc1 hs1) (hser.tail hs1) hs hc

/-- With a store that broadcasts under the lock, saves never overlap. -/
theorem serial_of_holds (hh : p.holds = true) (s : State) (ls : List Label) (s' : State)
    (hx : exec z p s ls = some s') : Serial z p s ls := by
  intro pre l post s1 he hpre
  have hstep : ∃ s2, step z p s1 l = some s2 := by
    have : ∀ (pre : List Label) (s : State), exec z p s pre = some s1 →
        exec z p s (pre ++ l :: post) = some s' → ∃ s2, step z p s1 l = some s2 := by
      intro pre
      induction pre with
      | nil =>
        intro s h1 h2
        simp only [exec] at h1
        obtain rfl := Option.some.inj h1
        simp only [List.nil_append, exec] at h2
        split at h2
        · simp at h2
        · rename_i s2 h; exact ⟨s2, h⟩
      | cons a pre ih =>
        intro s h1 h2
        simp only [List.cons_append, exec] at h1 h2
        split at h1
        · simp at h1
        · rename_i s2 h
          rw [h] at h2
          exact ih s2 h1 h2
    exact this pre s hpre (he ▸ hx)
  obtain ⟨s2, h2⟩ := hstep
  cases l with
  | commit st ers =>
    simp only [step] at h2
    split at h2
    · simp at h2
    · rename_i hn
      show s1.savers = []
      apply Classical.byContradiction
      intro hne
      exact hn ⟨hh, hne⟩
  | orphan st ers =>
    simp only [step] at h2
    rw [if_pos hh] at h2
    simp at h2
  | _ => trivial

/-! ## The event a subscription starts at -/

/-- The live event number `n` that was there before the subscription started is not forgotten. -/
structure First (p : Params) (L0 : Log) (s : State) : Prop where
  grows : L0.last ≤ s.log.last
  pc : ∀ r ∈ L0.recs, r ∈ s.log.recs → p.wants r = true → p.startFrom = some r.gsn →
    match s.pc with
    | .idle => True
    | .fetch false todo _ => s.last = r.gsn ∧ todo = p.topics
    | .fetch true _ _ => r ∈ s.out
    | .reading _ rest => r ∈ s.out ∨ r ∈ rest
    | _ => r ∈ s.out

theorem first_step (hz : z.Lawful) (h1 : p.topics.length = 1) {L0 : Log} (h0 : L0.WF) {s s' : State}
    (h : First p L0 s) (l : Label) (hs : step z p s l = some s') (hc : s'.cancelled = false) :
    First p L0 s' := by
  obtain ⟨t, htop⟩ : ∃ t, p.topics = [t] := List.length_eq_one_iff.mp h1
  have happ : ∀ st ers r, r ∈ L0.recs → r ∈ (s.log.append z.view st ers).recs → r ∈ s.log.recs := by
    intro st ers r hr hr2
    simp only [Log.append] at hr2
    rcases List.mem_append.mp hr2 with g | g
    · exact g
    · have := ((batch_facts hz s.log st ers).2 r g).1
      have := (h0.bounded r hr).2
      have := h.grows
      omega
  cases l with
  | commit st ers =>
    simp only [step] at hs
    split at hs
    · simp at hs
    split at hs
    · simp at hs
    obtain rfl := Option.some.inj hs
    refine ⟨?_, fun r hr hr2 hw he => h.pc r hr (happ st ers r hr hr2) hw he⟩
    have := h.grows
    simp only [Log.append]; omega
  | orphan st ers =>
    simp only [step] at hs
    split at hs
    · simp at hs
    obtain rfl := Option.some.inj hs
    refine ⟨?_, fun r hr hr2 hw he => h.pc r hr (happ st ers r hr hr2) hw he⟩
    have := h.grows
    simp only [Log.append]; omega
  | delete st =>
    simp only [step] at hs
    split at hs
    · simp at hs
    obtain rfl := Option.some.inj hs
    exact ⟨h.grows, fun r hr hr2 hw he => h.pc r hr (List.mem_filter.mp hr2).1 hw he⟩
  | accept i =>
    simp only [step] at hs
    split at hs
    · obtain rfl := Option.some.inj hs
      exact ⟨h.grows, h.pc⟩
    · simp at hs
  | broadcast timedOut =>
    simp only [step] at hs
    split at hs
    · simp at hs
    · split at hs
      · split at hs
        · simp at hs
        · obtain rfl := Option.some.inj hs
          exact ⟨h.grows, h.pc⟩
      · obtain rfl := Option.some.inj hs
        exact ⟨h.grows, h.pc⟩
  | cancel =>
    simp only [step] at hs
    obtain rfl := Option.some.inj hs
    exact ⟨h.grows, h.pc⟩
  | cut =>
    simp only [step] at hs
    split at hs
    · rename_i hcc _
      obtain rfl := Option.some.inj hs
      simp only [hcc] at hc
      simp at hc
    · simp at hs
  | finish =>
    simp only [step] at hs
    split at hs
    · rename_i hcc _
      obtain rfl := Option.some.inj hs
      simp only [hcc] at hc
      simp at hc
    · simp at hs
  | fail =>
    simp only [step] at hs
    split at hs
    · split at hs
      · simp at hs
      · obtain rfl := Option.some.inj hs
        simp at hc
    · simp at hs
  | sub =>
    have hpc := h.pc
    simp only [step] at hs
    unfold subStep at hs
    split at hs
    · split at hs
      · rename_i n hn
        obtain rfl := Option.some.inj hs
        refine ⟨h.grows, fun r hr hr2 hw he => ?_⟩
        rw [hn] at he
        exact ⟨Option.some.inj he, rfl⟩
      · rename_i hn
        split at hs
        · obtain rfl := Option.some.inj hs
          refine ⟨h.grows, fun r hr hr2 hw he => ?_⟩
          rw [hn] at he; simp at he
        · obtain rfl := Option.some.inj hs
          refine ⟨h.grows, fun r hr hr2 hw he => ?_⟩
          rw [hn] at he; simp at he
    · rename_i second t' todo got hp
      rw [hp] at hpc
      split at hs
      · simp at hs
      simp only at hs
      obtain rfl := Option.some.inj hs
      refine ⟨h.grows, fun r hr hr2 hw he => ?_⟩
      have := hpc r hr hr2 hw he
      cases second with
      | true => exact Or.inl this
      | false =>
        obtain ⟨g1, g2⟩ := this
        rw [htop] at g2
        simp only [List.cons.injEq] at g2
        obtain ⟨rfl, _⟩ := g2
        right
        simp only [Bool.false_eq_true, if_false]
        exact mem_readTopic.mpr ⟨hr2, by simpa [Params.wants, htop] using hw, by omega⟩
    · rename_i second got hp
      rw [hp] at hpc
      obtain rfl := Option.some.inj hs
      refine ⟨h.grows, fun r hr hr2 hw he => ?_⟩
      have := hpc r hr hr2 hw he
      cases second with
      | true => exact Or.inl this
      | false =>
        obtain ⟨g1, g2⟩ := this
        rw [htop] at g2
        simp at g2
    · rename_i second x rest hp
      rw [hp] at hpc
      obtain rfl := Option.some.inj hs
      refine ⟨h.grows, fun r hr hr2 hw he => ?_⟩
      rcases hpc r hr hr2 hw he with g | g
      · exact Or.inl (List.mem_append_left _ g)
      · simp only [List.mem_cons] at g
        rcases g with rfl | g
        · exact Or.inl (List.mem_append_right _ (by simp))
        · exact Or.inr g
    · rename_i hp
      rw [hp] at hpc
      obtain rfl := Option.some.inj hs
      refine ⟨h.grows, fun r hr hr2 hw he => ?_⟩
      rcases hpc r hr hr2 hw he with g | g
      · exact g
      · simp at g
    · rename_i hp
      rw [hp] at hpc
      obtain rfl := Option.some.inj hs
      refine ⟨h.grows, fun r hr hr2 hw he => ?_⟩
      rcases hpc r hr hr2 hw he with g | g
      · exact g
      · simp at g
    · rename_i hp
      rw [hp] at hpc
      obtain rfl := Option.some.inj hs
      exact ⟨h.grows, fun r hr hr2 hw he => hpc r hr hr2 hw he⟩
    · rename_i hp
      rw [hp] at hpc
      split at hs
      · obtain rfl := Option.some.inj hs
        exact ⟨h.grows, fun r hr hr2 hw he => hpc r hr hr2 hw he⟩
      · obtain rfl := Option.some.inj hs
        exact ⟨h.grows, fun r hr hr2 hw he => hpc r hr hr2 hw he⟩
    · rename_i hp
      rw [hp] at hpc
      split at hs
      · simp at hs
      · split at hs
        · obtain rfl := Option.some.inj hs
          refine ⟨h.grows, fun r hr hr2 hw he => ?_⟩
          have := hpc r hr hr2 hw he
          simp only [hp]
          exact this
        · obtain rfl := Option.some.inj hs
          refine ⟨h.grows, fun r hr hr2 hw he => ?_⟩
          have := hpc r hr hr2 hw he
          simp only [hp]
          exact List.mem_append_left _ this
    · simp at hs

theorem first_exec (hz : z.Lawful) (h1 : p.topics.length = 1) {L0 : Log} (h0 : L0.WF)
    (ls : List Label) : ∀ {s s' : State}, First p L0 s → exec z p s ls = some s' →
      s'.cancelled = false → First p L0 s' := by
  induction ls with
  | nil => intro s s' h hs _; simp only [exec] at hs; obtain rfl := Option.some.inj hs; exact h
  | cons l ls ih =>
    intro s s' h hs hc
    simp only [exec] at hs
    split at hs
    · simp at hs
    · rename_i s1 hs1
      exact ih (first_step hz h1 h0 h l hs1 (exec_cancelled ls hs hc)) hs hc

theorem floor_sub {n : Nat} (hn : p.startFrom = some n) {s s' : State}
    (hs : subStep p s = some s') (h : s.floor = n) : s'.floor = n := by
  simp only [subStep, hn] at hs
  repeat' split at hs
  all_goals first
    | (obtain rfl := Option.some.inj hs; exact h)
    | simp at hs

/-- The floor of a `StartFrom(n)` subscription is `n`. -/
theorem floor_step {n : Nat} (hn : p.startFrom = some n) {s s' : State} (l : Label)
    (hs : step z p s l = some s') (h : s.floor = n) : s'.floor = n := by
  cases l <;> simp only [step] at hs
  all_goals repeat' split at hs
  all_goals first
    | exact floor_sub hn hs h
    | (obtain rfl := Option.some.inj hs; exact h)
    | (obtain rfl := Option.some.inj hs; exact (floor_sub hn ‹subStep p s = some _› h :))
    | simp at hs

theorem floor_exec {n : Nat} (hn : p.startFrom = some n) (ls : List Label) :
    ∀ {s s' : State}, s.floor = n → exec z p s ls = some s' → s'.floor = n := by
  induction ls with
  | nil => intro s s' h hs; simp only [exec] at hs; obtain rfl := Option.some.inj hs; exact h
  | cons l ls ih =>
    intro s s' h hs
    simp only [exec] at hs
    split at hs
    · simp at hs
    · rename_i s1 hs1
      exact ih (floor_step hn l hs1 h) hs

end RangeDB.Sub

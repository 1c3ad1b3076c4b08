import Verif.Model.Reconnect
import Verif.Proof.Chain

/-! # Lemmas about repeated connections -/

namespace RangeDB.Recon

open Sub (Inc)

variable {z : Serializer}

theorem receive_eq (c : Client) (rs : List Record) :
    c.receive rs = ⟨(rs.getLast?.map (·.gsn)).getD c.last, c.printed ++ rs⟩ := by
  induction rs generalizing c with
  | nil => simp [Client.receive]
  | cons r rs ih =>
    rw [Client.receive, ih]
    cases rs with
    | nil => simp
    | cons r' rs => simp [List.getLast?_cons_cons, List.getLast?_cons]

/-! ## Everything sent is numbered from the requested number on -/

/-- The invariant of a subscription from `n`. -/
def Low (n : Nat) (s : Sub.State) : Prop :=
  (s.pc ≠ .idle → n ≤ s.last) ∧ (∀ r ∈ s.out, n ≤ r.gsn) ∧
  match s.pc with
  | .fetch _ _ got => ∀ l ∈ got, ∀ r ∈ l, n ≤ r.gsn
  | .reading _ rest => ∀ r ∈ rest, n ≤ r.gsn
  | _ => True

theorem low_sub {p : Sub.Params} {n : Nat} (hn : p.startFrom = some n) {s s' : Sub.State} (h : Low n s)
    (hs : Sub.subStep p s = some s') : Low n s' := by
  obtain ⟨h1, h2, h3⟩ := h
  unfold Sub.subStep at hs
  split at hs
  · simp only [hn] at hs
    obtain rfl := Option.some.inj hs
    exact ⟨fun _ => Nat.le_refl _, h2, by simp⟩
  · rename_i second t todo got hp
    have hl : n ≤ s.last := h1 (by simp [hp])
    rw [hp] at h3
    split at hs
    · cases hs
    have hr : ∀ r ∈ Sub.readTopic s.log t (if second = true then s.last + 1 else s.last), n ≤ r.gsn := by
      intro r hr
      have := (Sub.mem_readTopic.mp hr).2.2
      split at this <;> omega
    simp only at hs
    split at hs
    · obtain rfl := Option.some.inj hs
      exact ⟨fun _ => hl, h2, hr⟩
    · obtain rfl := Option.some.inj hs
      refine ⟨fun _ => hl, h2, ?_⟩
      intro l hm
      rcases List.mem_append.mp hm with hm | hm
      · exact h3 l hm
      · simp only [List.mem_singleton] at hm; subst hm; exact hr
  · rename_i second got hp
    have hl : n ≤ s.last := h1 (by simp [hp])
    rw [hp] at h3
    obtain rfl := Option.some.inj hs
    refine ⟨fun _ => hl, h2, ?_⟩
    intro r hr
    have hfl : (got.map (fun l => (⟨l, none⟩ : Iter))).flatMap (·.recs) = got.flatten := by
      rw [List.flatMap_map]; simp [List.flatMap_id']
    have hperm := mergeIters_perm (got.map (fun l => (⟨l, none⟩ : Iter)))
    rw [hfl] at hperm
    have hr := hperm.mem_iff.mp hr
    rw [List.mem_flatten] at hr
    obtain ⟨l, hl, hr⟩ := hr
    exact h3 l hl r hr
  · rename_i second r rest hp
    rw [hp] at h3
    have h3 : ∀ x ∈ r :: rest, n ≤ x.gsn := h3
    obtain rfl := Option.some.inj hs
    refine ⟨fun _ => h3 r (by simp), ?_, fun x hx => h3 x (by simp [hx])⟩
    intro x hx
    rcases List.mem_append.mp hx with hx | hx
    · exact h2 x hx
    · simp only [List.mem_singleton] at hx; subst hx; exact h3 x (by simp)
  · rename_i hp
    obtain rfl := Option.some.inj hs
    exact ⟨fun _ => h1 (by simp [hp]), h2, trivial⟩
  · rename_i hp
    obtain rfl := Option.some.inj hs
    exact ⟨fun _ => h1 (by simp [hp]), h2, trivial⟩
  · rename_i hp
    obtain rfl := Option.some.inj hs
    exact ⟨fun _ => h1 (by simp [hp]), h2, trivial⟩
  · rename_i hp
    simp only [hn] at hs
    obtain rfl := Option.some.inj hs
    exact ⟨fun _ => h1 (by simp [hp]), h2, by simp⟩
  · rename_i hp
    have hl : n ≤ s.last := h1 (by simp [hp])
    split at hs
    · cases hs
    · split at hs
      · obtain rfl := Option.some.inj hs
        exact ⟨fun _ => hl, h2, by rw [hp]; trivial⟩
      · rename_i hlt
        obtain rfl := Option.some.inj hs
        refine ⟨fun _ => Nat.le_of_lt (Nat.lt_of_le_of_lt hl (Nat.lt_of_not_le hlt)), ?_, by rw [hp]; trivial⟩
        intro x hx
        rcases List.mem_append.mp hx with hx | hx
        · exact h2 x hx
        · simp only [List.mem_singleton] at hx; subst hx; omega
  · cases hs

theorem low_step {p : Sub.Params} {n : Nat} (hn : p.startFrom = some n) {s s' : Sub.State} (h : Low n s)
    (l : Sub.Label) (hs : Sub.step z p s l = some s') : Low n s' := by
  cases l with
  | sub => exact low_sub hn h hs
  | fail =>
    simp only [Sub.step] at hs
    split at hs
    · rename_i s1 h1
      have hl := low_sub hn h h1
      split at hs
      · cases hs
      · rename_i hne
        obtain rfl := Option.some.inj hs
        refine ⟨fun _ => ?_, hl.2.1, trivial⟩
        apply hl.1
        intro hp
        have : ∀ {s s' : Sub.State}, Sub.subStep p s = some s' → s'.pc ≠ .idle := by
          intro s s' h
          simp only [Sub.subStep] at h
          repeat' split at h
          all_goals first
            | (obtain rfl := Option.some.inj h; simp_all)
            | cases h
        exact this h1 hp
    · cases hs
  | cut =>
    simp only [Sub.step] at hs
    split at hs
    · rename_i hp
      obtain rfl := Option.some.inj hs
      exact ⟨fun _ => h.1 (by simp [hp]), h.2.1, by simp⟩
    · cases hs
  | finish =>
    simp only [Sub.step] at hs
    split at hs
    · rename_i hp
      obtain rfl := Option.some.inj hs
      exact ⟨fun _ => h.1 (by simp [hp]), h.2.1, trivial⟩
    · cases hs
  | _ =>
    simp only [Sub.step] at hs
    repeat' split at hs
    all_goals first
      | (obtain rfl := Option.some.inj hs; exact h)
      | cases hs

theorem low_chain {p : Sub.Params} {n : Nat} (hn : p.startFrom = some n) (ls : List Chain.Label) :
    ∀ {c c' : Chain.State}, Low n c.sub → Chain.exec z p c ls = some c' → Low n c'.sub := by
  induction ls with
  | nil => intro c c' h hs; simp only [Chain.exec] at hs; obtain rfl := Option.some.inj hs; exact h
  | cons l ls ih =>
    intro c c' h hs
    simp only [Chain.exec] at hs
    split at hs
    · cases hs
    · rename_i c1 h1
      refine ih ?_ hs
      simp only [Chain.step] at h1
      split at h1
      · split at h1
        · obtain rfl := Option.some.inj h1; exact h
        · cases h1
      · split at h1
        · cases h1
        · rename_i s1 h2
          obtain rfl := Option.some.inj h1
          exact low_step hn h _ h2
      · split at h1
        · cases h1
        · obtain rfl := Option.some.inj h1; exact h

theorem low_init {n : Nat} {p : Sub.Params} (L : Log) : Low n (Sub.init p L) :=
  ⟨fun h => absurd rfl h, by simp [Sub.init], trivial⟩

/-! ## The store between and during connections -/

theorem Evolves.trans {L L' L'' : Log} (h : Evolves z L L') (h' : Evolves z L' L'') : Evolves z L L'' := by
  induction h' with
  | refl => exact h
  | append st ers _ ih => exact ih.append st ers
  | delete st _ ih => exact ih.delete st

theorem Evolves.facts (hz : z.Lawful) {L L' : Log} (h : Evolves z L L') :
    L.last ≤ L'.last ∧ ∀ r ∈ L'.recs, r.gsn ≤ L.last → r ∈ L.recs := by
  induction h with
  | refl => exact ⟨Nat.le_refl _, fun r hr _ => hr⟩
  | @append L' st ers _ ih =>
    refine ⟨Nat.le_trans ih.1 (Nat.le_add_right _ _), fun r hr hle => ?_⟩
    rcases List.mem_append.mp hr with hr | hr
    · exact ih.2 r hr hle
    · have := ((Sub.batch_facts hz L' st ers).2 r hr).1
      have := ih.1
      omega
  | @delete L' st _ ih => exact ⟨ih.1, fun r hr hle => ih.2 r (List.mem_filter.mp hr).1 hle⟩

theorem evolves_chain {p : Sub.Params} (ls : List Chain.Label) : ∀ {c c' : Chain.State},
    Chain.exec z p c ls = some c' → Evolves z c.sub.log c'.sub.log := by
  have hsub : ∀ {s s' : Sub.State} (l : Sub.Label), Sub.step z p s l = some s' → Evolves z s.log s'.log := by
    intro s s' l hs
    cases l with
    | sub => rw [(Chain.subStep_parts hs).2.1]; exact .refl _
    | fail =>
      simp only [Sub.step] at hs
      split at hs
      · rename_i s1 h1
        split at hs
        · cases hs
        · obtain rfl := Option.some.inj hs
          show Evolves z s.log s1.log
          rw [(Chain.subStep_parts h1).2.1]; exact .refl _
      · cases hs
    | _ =>
      simp only [Sub.step] at hs
      repeat' split at hs
      all_goals first
        | (obtain rfl := Option.some.inj hs; first | exact .refl _ | exact (Evolves.refl _).append _ _ | exact (Evolves.refl _).delete _)
        | cases hs
  induction ls with
  | nil => intro c c' hs; simp only [Chain.exec] at hs; obtain rfl := Option.some.inj hs; exact .refl _
  | cons l ls ih =>
    intro c c' hs
    simp only [Chain.exec] at hs
    split at hs
    · cases hs
    · rename_i c1 h1
      refine Evolves.trans ?_ (ih hs)
      simp only [Chain.step] at h1
      split at h1
      · split at h1
        · obtain rfl := Option.some.inj h1; exact .refl _
        · cases h1
      · split at h1
        · cases h1
        · rename_i s1 h2
          obtain rfl := Option.some.inj h1
          exact hsub _ h2
      · split at h1
        · cases h1
        · obtain rfl := Option.some.inj h1; exact .refl _

/-! ## Nothing is left out on the way -/

/-- At every moment of a connection, if the subscription is alive and no hop was cut: what is behind was sent. -/
theorem sent_so_far {p : Sub.Params} (hz : z.Lawful) (hv : p.Valid) (h1 : p.topics.length = 1) {c1 c : Chain.State}
    (hg : Chain.Good p c1) (hi : Chain.Idle p c1.sub) (hidle : c1.sub.pc = .idle) (hu : Chain.Up c1.hops)
    (post : List Chain.Label) (hc : Chain.NoCut post) (hser : Chain.Serial z p c1 post)
    (hx : Chain.exec z p c1 post = some c) (hnc : c.sub.cancelled = false) (n : Nat) (hn : p.startFrom = some n) :
    (∀ r ∈ c.sub.log.recs, p.wants r = true → n < r.gsn → r.gsn ≤ c.sub.last → r ∈ c.sub.out) ∧
    (∀ r ∈ c1.sub.log.recs, r ∈ c.sub.log.recs → p.wants r = true → r.gsn = n → c.sub.out ≠ [] →
      ∃ rest, c.sub.out = r :: rest) := by
  obtain ⟨i1, i2, i3, i4, i5⟩ := hi hidle
  obtain ⟨_, hx', hser'⟩ := Chain.up_exec hz hv post hg hu hc hser hx
  have hsafe : Sub.Safe p (Chain.abs c1) := Chain.safe_enqueue hg.safe.sub hg.safe.pend (fun _ hr => hr)
  have hwf : c1.sub.log.WF := hg.safe.sub.wf
  have hcomp : Sub.Comp p (Chain.abs c1) := by
    refine ⟨?_, ?_, ?_, ?_, hg.one⟩
    · show Inc (c1.sub.buf ++ ((c1.sub.queue ++ Chain.pend c1.hops) ++ c1.sub.savers.flatten))
      rw [i4, List.nil_append, List.append_assoc]
      exact hg.flow
    · show c1.sub.last ≤ _
      rw [i2]; exact Nat.zero_le _
    · intro r hr hle
      have : r.gsn ≤ c1.sub.last := hle
      have := (hwf.bounded r hr.1).1
      omega
    · show Sub.CompPC p (Chain.abs c1) c1.sub.pc
      rw [hidle]
      exact ⟨i1, i2, i3⟩
  have hfinal := Sub.comp_exec hz hv h1 _ hsafe hcomp hser' hx' hnc
  have hsf : Sub.Safe p (Chain.abs c) := Sub.safe_exec hz hv _ hsafe hx'
  have hfl : (Chain.abs c).floor = n := Sub.floor_exec hn _ (by show c1.sub.floor = n; rw [i1, hn]; rfl) hx'
  have hlow : Low n c.sub := by
    refine low_chain hn post ?_ hx
    refine ⟨fun h => absurd hidle h, by simp [i5], by rw [hidle]; trivial⟩
  refine ⟨fun r hr hw hlt hle => hfinal.done r ⟨hr, hw, by rw [hfl]; exact hlt⟩ hle, fun r hr0 hr hw he hne => ?_⟩
  have hF : Sub.First p c1.sub.log (Chain.abs c1) :=
    ⟨Nat.le_refl _, fun _ _ _ _ _ => by rw [show (Chain.abs c1).pc = .idle from hidle]; trivial⟩
  have h := (Sub.first_exec hz h1 hwf _ hF hx' hnc).pc r hr0 hr hw (by rw [hn, he])
  have hout : (Chain.abs c).out = c.sub.out := rfl
  have hpc := hsf.pc
  have hmem : r ∈ c.sub.out := by
    obtain ⟨x, hx0⟩ := List.exists_mem_of_ne_nil _ hne
    have hxn := hlow.2.1 x hx0
    have hcpc : (Chain.abs c).pc = c.sub.pc := rfl
    rw [hcpc] at h hpc
    cases hp : c.sub.pc with
    | idle =>
      rw [hp] at hpc
      exact absurd hpc hne
    | fetch second todo got =>
      rw [hp] at h hpc
      cases second with
      | false => exact absurd (hpc.1 rfl) hne
      | true => exact h
    | reading second rest =>
      rw [hp] at h hpc
      rcases h with h | h
      · exact h
      · have := hpc.2.2 x hx0 r h
        omega
    | registering todo => rw [hp] at h; exact h
    | working => rw [hp] at h; exact h
    | finished => rw [hp] at h; exact h
  obtain ⟨y, ys, hy⟩ := List.exists_cons_of_ne_nil hne
  have hinc := hsf.outInc
  rw [hout, hy, Inc, List.pairwise_cons] at hinc
  rw [hy] at hmem
  rcases List.mem_cons.mp hmem with rfl | hm
  · exact ⟨ys, hy⟩
  · have h2 := hinc.1 r hm
    have h3 := hlow.2.1 y (by rw [hy]; simp)
    omega

/-- In an increasing list, what is at most the last element of a beginning lies in that beginning. -/
theorem mem_take_of_le {l : List Record} (hl : Inc l) {k : Nat} {x r : Record} (hx : (l.take k).getLast? = some x)
    (hr : r ∈ l) (hle : r.gsn ≤ x.gsn) : r ∈ l.take k := by
  have hxm : x ∈ l.take k := List.mem_of_getLast? hx
  rw [← List.take_append_drop k l] at hr hl
  rcases List.mem_append.mp hr with h | h
  · exact h
  · have := (List.pairwise_append.mp hl).2.2 x hxm r h
    omega

end RangeDB.Recon

import Verif.Spec.ReadOrder

/-! # Lemmas for `Thm/ReadOrder.lean` -/

namespace RangeDB.Left

theorem ofType_append (l a b : List Nat) : ofType l (a ++ b) = ofType l a ++ ofType l b := by simp [ofType]

theorem smallest_spec : ∀ (ps pre : List Pipe) (best min : Nat),
    (∃ p, (pre ++ ps)[best]? = some p ∧ p.2 = min) → (∀ q ∈ pre, min ≤ q.2) →
    ∃ p, (pre ++ ps)[smallest best min pre.length ps]? = some p ∧ ∀ q ∈ pre ++ ps, p.2 ≤ q.2 := by
  intro ps
  induction ps with
  | nil =>
    intro pre best min h1 h2
    obtain ⟨p, h3, h4⟩ := h1
    exact ⟨p, by simpa [smallest] using h3, by simpa [h4] using h2⟩
  | cons x xs ih =>
    intro pre best min h1 h2
    have key := ih (pre ++ [x])
    simp only [List.append_assoc, List.cons_append, List.nil_append, List.length_append,
      List.length_cons, List.length_nil, Nat.zero_add] at key
    simp only [smallest]
    split
    · rename_i hlt
      apply key
      · exact ⟨x, by simp, rfl⟩
      · intro q hq
        simp only [List.mem_append, List.mem_singleton] at hq
        rcases hq with hq | rfl
        · have := h2 q hq; omega
        · exact Nat.le_refl _
    · rename_i hge
      apply key _ _ h1
      intro q hq
      simp only [List.mem_append, List.mem_singleton] at hq
      rcases hq with hq | rfl
      · exact h2 q hq
      · omega

theorem choose_spec (ps : List Pipe) :
    (choose ps = .over ∧ ps = []) ∨ ∃ i p, choose ps = .send i ∧ ps[i]? = some p ∧ ∀ q ∈ ps, p.2 ≤ q.2 := by
  cases ps with
  | nil => exact .inl ⟨rfl, rfl⟩
  | cons p0 ps =>
    obtain ⟨p, h1, h2⟩ := smallest_spec (p0 :: ps) [] 0 p0.2 ⟨p0, by simp, rfl⟩ (by simp)
    exact .inr ⟨_, p, rfl, by simpa using h1, by simpa using h2⟩

theorem remove_perm (a b : List Pipe) (p : Pipe) : (remove (a ++ p :: b) a.length).Perm (a ++ b) := by
  rcases List.eq_nil_or_concat b with rfl | ⟨b', l, rfl⟩
  · simp [remove]
  · rw [List.concat_eq_append]
    have h1 : (a ++ p :: (b' ++ [l])).getLast? = some l := by
      rw [show a ++ p :: (b' ++ [l]) = (a ++ p :: b') ++ [l] by simp, List.getLast?_concat]
    simp only [remove, h1]
    have h2 : (a ++ p :: (b' ++ [l])).set a.length l = (a ++ l :: b') ++ [l] := by simp
    rw [h2, List.dropLast_concat]
    apply List.Perm.append_left
    exact (List.perm_append_singleton l b').symm

theorem split_at {pipes : List Pipe} {i : Nat} {p : Pipe} (h : pipes[i]? = some p) :
    ∃ a b, pipes = a ++ p :: b ∧ a.length = i := by
  rw [List.getElem?_eq_some_iff] at h
  obtain ⟨hi, hp⟩ := h
  refine ⟨pipes.take i, pipes.drop (i + 1), ?_, by simp; omega⟩
  rw [← hp, ← List.drop_eq_getElem_cons hi, List.take_append_drop]

/-- Without the pipe `i`. -/
theorem remove_spec {pipes : List Pipe} {i : Nat} {p : Pipe} (h : pipes[i]? = some p) (hn : (pipes.map (·.1)).Nodup) :
    ((remove pipes i).map (·.1)).Nodup ∧ ∀ q, q ∈ remove pipes i ↔ q ∈ pipes ∧ q ≠ p := by
  obtain ⟨a, b, rfl, rfl⟩ := split_at h
  have hp := remove_perm a b p
  simp only [List.map_append, List.map_cons, List.nodup_append, List.nodup_cons, List.mem_map, List.mem_cons] at hn
  obtain ⟨ha, ⟨hb1, hb⟩, hab⟩ := hn
  refine ⟨(hp.map (·.1)).nodup_iff.2 ?_, fun q => ?_⟩
  · simp only [List.map_append, List.nodup_append, List.mem_map]
    exact ⟨ha, hb, fun x hx y hy => hab x hx y (.inr hy)⟩
  · rw [hp.mem_iff]
    simp only [List.mem_append, List.mem_cons]
    constructor
    · rintro (hq | hq)
      · refine ⟨.inl hq, ?_⟩
        rintro rfl
        exact hab _ ⟨q, hq, rfl⟩ _ (.inl rfl) rfl
      · refine ⟨.inr (.inr hq), ?_⟩
        rintro rfl
        exact hb1 ⟨q, hq, rfl⟩
    · rintro ⟨hq | rfl | hq, hne⟩
      · exact .inl hq
      · exact absurd rfl hne
      · exact .inr hq

/-- With another record in the pipe `i`. -/
theorem set_spec {pipes : List Pipe} {i : Nat} {p : Pipe} (h : pipes[i]? = some p) (hn : (pipes.map (·.1)).Nodup) (r : Nat) :
    ((pipes.set i (p.1, r)).map (·.1)).Nodup ∧ ∀ q, q ∈ pipes.set i (p.1, r) ↔ q = (p.1, r) ∨ (q ∈ pipes ∧ q ≠ p) := by
  obtain ⟨a, b, rfl, rfl⟩ := split_at h
  have e : (a ++ p :: b).set a.length (p.1, r) = a ++ (p.1, r) :: b := by simp
  rw [e]
  refine ⟨by simpa using hn, fun q => ?_⟩
  simp only [List.map_append, List.map_cons, List.nodup_append, List.nodup_cons, List.mem_map, List.mem_cons] at hn
  obtain ⟨ha, ⟨hb1, hb⟩, hab⟩ := hn
  simp only [List.mem_append, List.mem_cons]
  constructor
  · rintro (hq | rfl | hq)
    · refine .inr ⟨.inl hq, ?_⟩
      rintro rfl
      exact hab _ ⟨q, hq, rfl⟩ _ (.inl rfl) rfl
    · exact .inl rfl
    · refine .inr ⟨.inr (.inr hq), ?_⟩
      rintro rfl
      exact hb1 ⟨q, hq, rfl⟩
  · rintro (rfl | ⟨hq | rfl | hq, hne⟩)
    · exact .inr (.inl rfl)
    · exact .inl hq
    · exact absurd rfl hne
    · exact .inr (.inr hq)

theorem pipe_unique {pipes : List Pipe} (hn : (pipes.map (·.1)).Nodup) {p q : Pipe} (hp : p ∈ pipes) (hq : q ∈ pipes)
    (h : p.1 = q.1) : p = q := by
  induction pipes with
  | nil => simp at hp
  | cons a ps ih =>
    simp only [List.map_cons, List.nodup_cons, List.mem_map, not_exists, not_and] at hn
    simp only [List.mem_cons] at hp hq
    rcases hp with rfl | hp <;> rcases hq with rfl | hq
    · rfl
    · exact absurd h.symm (hn.1 q hq)
    · exact absurd h (hn.1 p hp)
    · exact ih hn.2 hp hq

/-- The record of the pipe is still to be sent. -/
def Waits (s : State) (p : Pipe) : Prop := p ∈ s.pipes ∧ ∀ i, s.merge = .read i → s.pipes[i]? ≠ some p

/-- The part of the records of a type that is neither given out nor in a pipe. -/
structure Part (s : State) (k : Nat) (o : List Nat) (x : Src) (rest : List Nat) : Prop where
  held : ∀ c, Waits s (k, c) → o = ofType o s.out ++ c :: rest
  free : (∀ c, ¬ Waits s (k, c)) → o = ofType o s.out ++ rest
  todo : ∀ l f, x = .at l f → rest = l
  done : s.cancelled = false → (∀ l f, x ≠ .at l f) → rest = []

/-- What holds after all actions. -/
structure Inv (orig : List (List Nat)) (s : State) : Prop where
  len : s.srcs.length = orig.length
  nodup : (s.pipes.map (·.1)).Nodup
  inc : s.out.Pairwise (· < ·)
  known : ∀ x ∈ s.out, ∃ o ∈ orig, x ∈ o
  ofPipe : ∀ p ∈ s.pipes, ∃ o, orig[p.1]? = some o ∧ p.2 ∈ o
  each : ∀ (k : Nat) (o : List Nat) (x : Src), orig[k]? = some o → s.srcs[k]? = some x → ∃ rest, Part s k o x rest
  after : ∀ (k : Nat) (x : Src), s.srcs[k]? = some x → (∃ c, (k, c) ∈ s.pipes) ∨ x = .over ∨ ∃ j, s.merge = .fill j ∧ j ≤ k
  above : ∀ p, Waits s p → ∀ x ∈ s.out, x < p.2
  fill : ∀ j, s.merge = .fill j → s.out = [] ∧ ∀ p ∈ s.pipes, p.1 < j
  send : ∀ i, s.merge = .send i → ∃ p, s.pipes[i]? = some p ∧ ∀ q ∈ s.pipes, p.2 ≤ q.2
  read : ∀ i, s.merge = .read i → ∃ p, s.pipes[i]? = some p ∧ p.2 = s.pos ∧ s.pos ∈ s.out ∧ ∀ x ∈ s.out, x ≤ s.pos
  stop : s.merge = .over → s.pipes = []

theorem inv_init (srcs : List (List Nat × Bool)) : Inv (srcs.map (·.1)) (init srcs) where
  len := by simp [init]
  nodup := by simp [init]
  inc := by simp [init]
  known := by simp [init]
  ofPipe := by simp [init]
  each := by
    intro k o x ho hx
    simp only [init, List.getElem?_map, Option.map_eq_some_iff] at ho hx
    obtain ⟨p, hp, rfl⟩ := ho
    obtain ⟨q, hq, rfl⟩ := hx
    rw [hp] at hq
    obtain rfl := Option.some.inj hq
    refine ⟨p.1, ⟨fun c hc => ?_, fun _ => by simp [init, ofType], fun l f h => ?_, fun _ h => ?_⟩⟩
    · have := hc.1; simp [init] at this
    · cases h; rfl
    · exact absurd rfl (h _ _)
  after := fun k x _ => .inr (.inr ⟨0, rfl, Nat.zero_le _⟩)
  above := by intro p hp; have := hp.1; simp [init] at this
  fill := by intro j _; simp [init]
  send := by intro i h; simp [init] at h
  read := by intro i h; simp [init] at h
  stop := by intro h; simp [init] at h

theorem get_set {l : List Src} {j k : Nat} {v y : Src} (h : (l.set j v)[k]? = some y) :
    (k = j ∧ y = v) ∨ (k ≠ j ∧ l[k]? = some y) := by
  by_cases hj : j = k
  · subst hj
    rw [List.getElem?_set_self'] at h
    cases hl : l[j]? with
    | none => rw [hl] at h; cases h
    | some z => rw [hl] at h; exact .inl ⟨rfl, (Option.some.inj h).symm⟩
  · rw [List.getElem?_set_ne hj] at h
    exact .inr ⟨fun e => hj e.symm, h⟩

/-- A goroutine goes on without sending. -/
theorem inv_turn {orig : List (List Nat)} {s : State} (h : Inv orig s) (k : Nat) : Inv orig (step s (.turn k)) := by
  simp only [step]
  split
  · rename_i x hx
    refine ⟨by simp [h.len], h.nodup, h.inc, h.known, h.ofPipe, fun j o y ho hy => ?_, fun j y hy => ?_, h.above, h.fill, h.send, h.read,
      h.stop⟩
    · rcases get_set hy with ⟨rfl, rfl⟩ | ⟨_, hy⟩
      · obtain ⟨rest, hp⟩ := h.each j o x ho hx
        refine ⟨rest, ⟨hp.held, hp.free, fun l f e => ?_, fun hc hne => ?_⟩⟩
        · apply hp.todo l f
          rcases x with ⟨_ | ⟨r, rs⟩, _ | _⟩ | _ | _ | _ <;> simp only [Src.turn] at e <;> try (cases e)
          all_goals (split at e <;> first | exact e | cases e)
        · have hc' : s.cancelled = false := hc
          rcases x with ⟨_ | ⟨r, rs⟩, f⟩ | _ | _ | _
          · exact hp.todo [] _ rfl
          · refine absurd ?_ (hne (r :: rs) f)
            simp [Src.turn, hc']
          all_goals exact hp.done hc (by simp)
      · obtain ⟨rest, hp⟩ := h.each j o y ho hy
        exact ⟨rest, ⟨hp.held, hp.free, hp.todo, hp.done⟩⟩
    · rcases get_set hy with ⟨rfl, rfl⟩ | ⟨_, hy⟩
      · rcases h.after j x hx with hc | rfl | hf
        · exact .inl hc
        · exact .inr (.inl rfl)
        · exact .inr (.inr hf)
      · exact h.after j y hy
  · exact h

theorem inv_cancel {orig : List (List Nat)} {s : State} (h : Inv orig s) : Inv orig (step s .cancel) := by
  refine ⟨h.len, h.nodup, h.inc, h.known, h.ofPipe, fun j o y ho hy => ?_, h.after, h.above, h.fill, h.send, h.read, h.stop⟩
  obtain ⟨rest, hp⟩ := h.each j o y ho hy
  exact ⟨rest, ⟨hp.held, hp.free, hp.todo, fun hc => by simp [step] at hc⟩⟩

/-- What the records start with. -/
structure Orig (orig : List (List Nat)) : Prop where
  inc : ∀ o ∈ orig, o.Pairwise (· < ·)
  apart : ∀ (j k : Nat) (a b : List Nat), orig[j]? = some a → orig[k]? = some b → j ≠ k → ∀ x ∈ a, x ∉ b

/-- The consumer takes a record. -/
theorem inv_next {orig : List (List Nat)} (ho : Orig orig) {s : State} (h : Inv orig s) : Inv orig (step s .next) := by
  simp only [step]
  split
  · rename_i i hm
    split
    · rename_i p hp
      obtain ⟨p', hp', hleast⟩ := h.send i hm
      rw [hp] at hp'
      obtain rfl := Option.some.inj hp'
      have hmem : p ∈ s.pipes := List.mem_of_getElem? hp
      obtain ⟨o, hoo, hpo⟩ := h.ofPipe p hmem
      have hwait : Waits s p := ⟨hmem, fun j e => by rw [hm] at e; cases e⟩
      have habove := h.above p hwait
      have hw : ∀ q, Waits { s with merge := .read i, pos := p.2, out := s.out ++ [p.2] } q ↔ q ∈ s.pipes ∧ q ≠ p := by
        intro q
        constructor
        · rintro ⟨h1, h2⟩
          refine ⟨h1, ?_⟩
          rintro rfl
          exact h2 i rfl hp
        · rintro ⟨h1, h2⟩
          refine ⟨h1, fun j e => ?_⟩
          cases e
          rw [hp]
          exact fun e => h2 (Option.some.inj e).symm
      have hall : ∀ q ∈ s.pipes, Waits s q := fun q hq => ⟨hq, fun j e => by rw [hm] at e; cases e⟩
      refine ⟨h.len, h.nodup, ?_, ?_, h.ofPipe, ?_, ?_, ?_, ?_, ?_, ?_, ?_⟩
      · rw [List.pairwise_append]
        exact ⟨h.inc, by simp, fun x hx y hy => by simp only [List.mem_singleton] at hy; subst hy; exact habove x hx⟩
      · intro x hx
        simp only [List.mem_append, List.mem_singleton] at hx
        rcases hx with hx | rfl
        · exact h.known x hx
        · exact ⟨o, List.mem_of_getElem? hoo, hpo⟩
      · intro k o' x ho' hx
        obtain ⟨rest, hpart⟩ := h.each k o' x ho' hx
        refine ⟨rest, ⟨fun c hc => ?_, fun hno => ?_, hpart.todo, hpart.done⟩⟩
        · obtain ⟨h1, h2⟩ := (hw _).1 hc
          have hk : p.1 ≠ k := fun e => h2 (pipe_unique h.nodup h1 hmem e.symm)
          have hn : p.2 ∉ o' := ho.apart p.1 k o o' hoo ho' hk p.2 hpo
          have e := hpart.held c (hall _ h1)
          simpa [ofType, List.filter_append, hn] using e
        · by_cases hk : p.1 = k
          · subst hk
            rw [hoo] at ho'
            obtain rfl := Option.some.inj ho'
            have e := hpart.held p.2 hwait
            have e2 : ofType o (s.out ++ [p.2]) = ofType o s.out ++ [p.2] := by simp [ofType, List.filter_append, hpo]
            show o = ofType o (s.out ++ [p.2]) ++ rest
            rw [e2]
            simpa using e
          · have hn : p.2 ∉ o' := ho.apart p.1 k o o' hoo ho' hk p.2 hpo
            have e := hpart.free (fun c hc => hno c ((hw _).2 ⟨hc.1, fun e => hk (by rw [← e])⟩))
            have e2 : ofType o' (s.out ++ [p.2]) = ofType o' s.out := by simp [ofType, List.filter_append, hn]
            show o' = ofType o' (s.out ++ [p.2]) ++ rest
            rw [e2]
            exact e
      · intro k x hx
        rcases h.after k x hx with hc | rfl | ⟨j, hf, _⟩
        · exact .inl hc
        · exact .inr (.inl rfl)
        · rw [hm] at hf; cases hf
      · intro q hq x hx
        obtain ⟨h1, h2⟩ := (hw q).1 hq
        simp only [List.mem_append, List.mem_singleton] at hx
        rcases hx with hx | rfl
        · exact h.above q (hall q h1) x hx
        · have hle := hleast q h1
          obtain ⟨o', ho', hqo⟩ := h.ofPipe q h1
          have hk : p.1 ≠ q.1 := fun e => h2 (pipe_unique h.nodup h1 hmem e.symm)
          have hn : p.2 ∉ o' := ho.apart p.1 q.1 o o' hoo ho' hk p.2 hpo
          have hne : p.2 ≠ q.2 := fun e => hn (e ▸ hqo)
          omega
      · intro j e; cases e
      · intro j e; cases e
      · intro j e
        cases e
        refine ⟨p, hp, rfl, by simp, fun x hx => ?_⟩
        simp only [List.mem_append, List.mem_singleton] at hx
        rcases hx with hx | rfl
        · exact Nat.le_of_lt (habove x hx)
        · exact Nat.le_refl _
      · intro e; cases e
    · exact h
  · exact h

/-- The merging goroutine is where it chooses a pipe or stops, and all pipes wait. -/
theorem merge_chosen {s : State} (h : s.merge = choose s.pipes) :
    (∀ q, Waits s q ↔ q ∈ s.pipes) ∧ (∀ j, s.merge ≠ .fill j) ∧ (∀ j, s.merge ≠ .read j) ∧
    (∀ i, s.merge = .send i → ∃ p, s.pipes[i]? = some p ∧ ∀ q ∈ s.pipes, p.2 ≤ q.2) ∧ (s.merge = .over → s.pipes = []) := by
  rcases choose_spec s.pipes with ⟨h1, h2⟩ | ⟨i, p, h1, h2, h3⟩
  · rw [h1] at h
    refine ⟨fun q => ⟨fun hq => hq.1, fun hq => ⟨hq, fun j e => by rw [h] at e; cases e⟩⟩, ?_, ?_, ?_, fun _ => h2⟩ <;>
      · intro j; rw [h]; intro e; cases e
  · rw [h1] at h
    refine ⟨fun q => ⟨fun hq => hq.1, fun hq => ⟨hq, fun j e => by rw [h] at e; cases e⟩⟩, ?_, ?_, ?_, ?_⟩
    · intro j; rw [h]; intro e; cases e
    · intro j; rw [h]; intro e; cases e
    · intro j e
      rw [h] at e
      cases e
      exact ⟨p, h2, h3⟩
    · rw [h]; intro e; cases e

theorem give_some {x y : Src} {r : Nat} (h : x.give = some (some r, y)) : ∃ rs f, x = .at (r :: rs) f ∧ y = .at rs f := by
  rcases x with ⟨_ | ⟨r', rs⟩, f⟩ | _ | _ | _ <;> simp [Src.give] at h
  obtain ⟨rfl, rfl⟩ := h
  exact ⟨rs, f, rfl, rfl⟩

theorem give_none {x y : Src} (h : x.give = some (none, y)) : (∀ l f, x ≠ .at l f) ∧ y = .over := by
  rcases x with ⟨_ | ⟨r', rs⟩, f⟩ | _ | _ | _ <;> simp [Src.give] at h
  all_goals exact ⟨by simp, h.symm⟩

/-- The records of the types after the merging goroutine received a record. -/
theorem each_some {orig : List (List Nat)} {s t : State} (h : Inv orig s) {k r : Nat} {rs : List Nat} {f : Bool}
    (hx : s.srcs[k]? = some (.at (r :: rs) f)) (hs : t.srcs = s.srcs.set k (.at rs f)) (hout : t.out = s.out)
    (hcan : t.cancelled = s.cancelled) (hno : ∀ c, ¬ Waits s (k, c))
    (hw : ∀ q, Waits t q ↔ q = (k, r) ∨ (q.1 ≠ k ∧ Waits s q)) :
    ∀ (j : Nat) (o : List Nat) (x : Src), orig[j]? = some o → t.srcs[j]? = some x → ∃ rest, Part t j o x rest := by
  intro j o x ho hj
  rw [hs] at hj
  rcases get_set hj with ⟨rfl, rfl⟩ | ⟨hne, hj⟩
  · obtain ⟨rest, hp⟩ := h.each j o _ ho hx
    have e := hp.free hno
    rw [hp.todo _ _ rfl] at e
    refine ⟨rs, ⟨fun c hc => ?_, fun hn => ?_, fun l f h => ?_, fun _ hn => absurd rfl (hn _ _)⟩⟩
    · rcases (hw _).1 hc with e2 | ⟨e2, _⟩
      · cases e2
        rw [hout]
        exact e
      · exact absurd rfl e2
    · exact absurd ((hw (j, r)).2 (.inl rfl)) (hn r)
    · cases h; rfl
  · obtain ⟨rest, hp⟩ := h.each j o x ho hj
    refine ⟨rest, ⟨fun c hc => ?_, fun hn => ?_, hp.todo, fun hc => hp.done (hcan ▸ hc)⟩⟩
    · rcases (hw _).1 hc with e2 | ⟨_, e2⟩
      · cases e2; exact absurd rfl hne
      · rw [hout]; exact hp.held c e2
    · rw [hout]
      exact hp.free (fun c hc => hn c ((hw _).2 (.inr ⟨hne, hc⟩)))

/-- The records of the types after the merging goroutine received no record. -/
theorem each_none {orig : List (List Nat)} {s t : State} (h : Inv orig s) {k : Nat} {x : Src}
    (hx : s.srcs[k]? = some x) (hat : ∀ l f, x ≠ .at l f) (hs : t.srcs = s.srcs.set k .over) (hout : t.out = s.out)
    (hcan : t.cancelled = s.cancelled) (hw : ∀ q, Waits t q ↔ Waits s q) :
    ∀ (j : Nat) (o : List Nat) (x : Src), orig[j]? = some o → t.srcs[j]? = some x → ∃ rest, Part t j o x rest := by
  intro j o y ho hj
  rw [hs] at hj
  rcases get_set hj with ⟨rfl, rfl⟩ | ⟨hne, hj⟩
  · obtain ⟨rest, hp⟩ := h.each j o _ ho hx
    refine ⟨rest, ⟨fun c hc => ?_, fun hn => ?_, fun l f h => by (cases h), fun hc _ => hp.done (hcan ▸ hc) hat⟩⟩
    · rw [hout]; exact hp.held c ((hw _).1 hc)
    · rw [hout]; exact hp.free (fun c hc => hn c ((hw _).2 hc))
  · obtain ⟨rest, hp⟩ := h.each j o y ho hj
    refine ⟨rest, ⟨fun c hc => ?_, fun hn => ?_, hp.todo, fun hc => hp.done (hcan ▸ hc)⟩⟩
    · rw [hout]; exact hp.held c ((hw _).1 hc)
    · rw [hout]; exact hp.free (fun c hc => hn c ((hw _).2 hc))

/-- The record that a goroutine hands over is one of its type. -/
theorem given_mem {orig : List (List Nat)} {s : State} (h : Inv orig s) {k r : Nat} {rs : List Nat} {f : Bool}
    (hx : s.srcs[k]? = some (.at (r :: rs) f)) (hno : ∀ c, ¬ Waits s (k, c)) :
    ∃ o, orig[k]? = some o ∧ o = ofType o s.out ++ r :: rs := by
  have hk : k < orig.length := by
    rw [← h.len]
    exact (List.getElem?_eq_some_iff.1 hx).1
  refine ⟨orig[k], List.getElem?_eq_getElem hk, ?_⟩
  obtain ⟨rest, hp⟩ := h.each k _ _ (List.getElem?_eq_getElem hk) hx
  have e := hp.free hno
  rw [hp.todo _ _ rfl] at e
  exact e

/-- After the `k`-th iterator was read for the first time. -/
theorem filled_cases (s : State) (k : Nat) :
    (s.filled k = { s with merge := .fill (k + 1) } ∧ k + 1 < s.srcs.length) ∨
    (s.filled k = { s with merge := choose s.pipes } ∧ s.srcs.length ≤ k + 1) := by
  unfold State.filled
  split
  · exact .inl ⟨rfl, by assumption⟩
  · exact .inr ⟨rfl, by omega⟩

/-- The merging goroutine is where it reads the iterators for the first time, or is through with that. -/
theorem inv_filled {orig : List (List Nat)} {s t : State} {k : Nat} (hk : s.merge = .fill k) (h : Inv orig s)
    (hlen : t.srcs.length = s.srcs.length) (hout : t.out = s.out) (hnd : (t.pipes.map (·.1)).Nodup)
    (hof : ∀ p ∈ t.pipes, ∃ o, orig[p.1]? = some o ∧ p.2 ∈ o) (hlt : ∀ p ∈ t.pipes, p.1 < k + 1)
    (heach : ∀ m, (∀ i, m ≠ .read i) →
      ∀ (j : Nat) (o : List Nat) (x : Src), orig[j]? = some o → t.srcs[j]? = some x → ∃ rest, Part { t with merge := m } j o x rest)
    (hafter : ∀ (j : Nat) (x : Src), t.srcs[j]? = some x → (∃ c, (j, c) ∈ t.pipes) ∨ x = .over ∨ k + 1 ≤ j) :
    Inv orig (t.filled k) := by
  have hempty : t.out = [] := by rw [hout]; exact (h.fill k hk).1
  rcases filled_cases t k with ⟨e, _⟩ | ⟨e, hge⟩
  · rw [e]
    refine ⟨by simpa [hlen] using h.len, hnd, ?_, ?_, hof, heach _ (by simp), ?_, ?_, ?_, ?_, ?_, ?_⟩
    · show t.out.Pairwise _; rw [hempty]; simp
    · intro x hx; have hx : x ∈ t.out := hx; rw [hempty] at hx; simp at hx
    · intro j x hx
      rcases hafter j x hx with h1 | h1 | h1
      · exact .inl h1
      · exact .inr (.inl h1)
      · exact .inr (.inr ⟨k + 1, rfl, h1⟩)
    · intro p _ x hx; have hx : x ∈ t.out := hx; rw [hempty] at hx; simp at hx
    · intro j e2; cases e2; exact ⟨hempty, hlt⟩
    · intro i e2; cases e2
    · intro i e2; cases e2
    · intro e2; cases e2
  · rw [e]
    obtain ⟨h1, h2, h3, h4, h5⟩ := merge_chosen (s := { t with merge := choose t.pipes }) rfl
    refine ⟨by simpa [hlen] using h.len, hnd, ?_, ?_, hof, heach _ h3, ?_, ?_, ?_, h4, ?_, h5⟩
    · show t.out.Pairwise _; rw [hempty]; simp
    · intro x hx; have hx : x ∈ t.out := hx; rw [hempty] at hx; simp at hx
    · intro j x hx
      rcases hafter j x hx with h1 | h1 | h1
      · exact .inl h1
      · exact .inr (.inl h1)
      · have := (List.getElem?_eq_some_iff.1 hx).1
        have : j < t.srcs.length := this
        omega
    · intro p _ x hx; have hx : x ∈ t.out := hx; rw [hempty] at hx; simp at hx
    · intro j e2; exact absurd e2 (h2 j)
    · intro i e2; exact absurd e2 (h3 i)

/-- The merging goroutine receives. -/
theorem inv_pull {orig : List (List Nat)} (horig : Orig orig) {s : State} (h : Inv orig s) : Inv orig (step s .pull) := by
  simp only [step]
  split
  · rename_i k hm
    obtain ⟨hout, hlt⟩ := h.fill k hm
    have hno : ∀ c, ¬ Waits s (k, c) := fun c hc => by have := hlt _ hc.1; simp at this
    have hwait : ∀ q ∈ s.pipes, Waits s q := fun q hq => ⟨hq, fun i e => by rw [hm] at e; cases e⟩
    split
    · rename_i hx
      obtain ⟨h1, h2, h3, h4, h5⟩ := merge_chosen (s := { s with merge := choose s.pipes }) rfl
      refine ⟨h.len, h.nodup, h.inc, h.known, h.ofPipe, ?_, ?_, ?_, ?_, h4, ?_, h5⟩
      · intro j o x ho hx
        obtain ⟨rest, hp⟩ := h.each j o x ho hx
        exact ⟨rest, ⟨fun c hc => hp.held c (hwait _ hc.1), fun hn => hp.free (fun c hc => hn c ((h1 _).2 hc.1)), hp.todo, hp.done⟩⟩
      · intro j x hj
        rcases h.after j x hj with h6 | h6 | ⟨i, h6, h7⟩
        · exact .inl h6
        · exact .inr (.inl h6)
        · rw [hm] at h6
          cases h6
          have hlt := (List.getElem?_eq_some_iff.1 hj).1
          have : s.srcs.length ≤ k := List.getElem?_eq_none_iff.1 hx
          have : j < s.srcs.length := hlt
          omega
      · intro p hp; exact h.above p (hwait p hp.1)
      · intro j e2; exact absurd e2 (h2 j)
      · intro i e2; exact absurd e2 (h3 i)
    · rename_i x hx
      split
      · exact h
      · rename_i r y hg
        obtain ⟨rs, f, rfl, rfl⟩ := give_some hg
        obtain ⟨o, ho, hoe⟩ := given_mem h hx hno
        refine inv_filled hm h (by simp) rfl ?_ ?_ ?_ ?_ ?_
        · simp only [List.map_append, List.map_cons, List.map_nil, List.nodup_append, List.mem_map]
          refine ⟨h.nodup, by simp, ?_⟩
          rintro _ ⟨p, hp, rfl⟩ b hb
          have := hlt p hp
          simp only [List.mem_singleton] at hb
          omega
        · intro p hp
          simp only [List.mem_append, List.mem_singleton] at hp
          rcases hp with hp | rfl
          · exact h.ofPipe p hp
          · exact ⟨o, ho, by rw [hoe]; simp⟩
        · intro p hp
          simp only [List.mem_append, List.mem_singleton] at hp
          rcases hp with hp | rfl
          · have := hlt p hp; omega
          · simp
        · intro m hmr
          refine each_some (t := ⟨s.srcs.set k (.at rs f), m, s.pipes ++ [(k, r)], s.pos, s.cancelled, s.out⟩) h hx rfl rfl rfl hno (fun q => ?_)
          constructor
          · rintro ⟨h1, _⟩
            simp only [List.mem_append, List.mem_singleton] at h1
            rcases h1 with h1 | h1
            · have := hlt q h1
              exact .inr ⟨by omega, hwait q h1⟩
            · exact .inl h1
          · intro h1
            refine ⟨?_, fun i e => absurd e (hmr i)⟩
            rcases h1 with rfl | ⟨_, h1⟩
            · simp
            · simp [h1.1]
        · intro j x hj
          rcases get_set hj with ⟨rfl, rfl⟩ | ⟨hne, hj⟩
          · exact .inl ⟨r, by simp⟩
          · rcases h.after j x hj with ⟨c, h1⟩ | h1 | ⟨i, h1, h2⟩
            · exact .inl ⟨c, by simp [h1]⟩
            · exact .inr (.inl h1)
            · rw [hm] at h1; cases h1
              exact .inr (.inr (by omega))
      · rename_i y hg
        obtain ⟨hat, rfl⟩ := give_none hg
        refine inv_filled hm h (by simp) rfl h.nodup h.ofPipe ?_ ?_ ?_
        · intro p hp; have := hlt p hp; omega
        · intro m hmr
          refine each_none (t := ⟨s.srcs.set k .over, m, s.pipes, s.pos, s.cancelled, s.out⟩) h hx hat rfl rfl rfl (fun q => ?_)
          exact ⟨fun hq => hwait q hq.1, fun hq => ⟨hq.1, fun i e => absurd e (hmr i)⟩⟩
        · intro j x hj
          rcases get_set hj with ⟨rfl, rfl⟩ | ⟨hne, hj⟩
          · exact .inr (.inl rfl)
          · rcases h.after j x hj with h1 | h1 | ⟨i, h1, h2⟩
            · exact .inl h1
            · exact .inr (.inl h1)
            · rw [hm] at h1; cases h1
              exact .inr (.inr (by omega))
  · rename_i i hm
    obtain ⟨p, hp, hpos, hin, hmax⟩ := h.read i hm
    have hmem : p ∈ s.pipes := List.mem_of_getElem? hp
    have hws : ∀ q, Waits s q ↔ q ∈ s.pipes ∧ q ≠ p := by
      intro q
      constructor
      · rintro ⟨h1, h2⟩
        exact ⟨h1, fun e => h2 i hm (e ▸ hp)⟩
      · rintro ⟨h1, h2⟩
        refine ⟨h1, fun j e => ?_⟩
        rw [hm] at e
        cases e
        rw [hp]
        exact fun e => h2 (Option.some.inj e).symm
    have hno : ∀ c, ¬ Waits s (p.1, c) := fun c hc => by
      obtain ⟨h1, h2⟩ := (hws _).1 hc
      exact h2 (pipe_unique h.nodup h1 hmem rfl)
    have hafter : ∀ (j : Nat) (x : Src), s.srcs[j]? = some x → (∃ c, (j, c) ∈ s.pipes) ∨ x = .over := by
      intro j x hx
      rcases h.after j x hx with h1 | h1 | ⟨_, h1, _⟩
      · exact .inl h1
      · exact .inr h1
      · rw [hm] at h1; cases h1
    rw [hp]
    simp only
    split
    · exact h
    · rename_i r y hg
      obtain ⟨x, hx, hg⟩ := Option.bind_eq_some_iff.1 hg
      obtain ⟨rs, f, rfl, rfl⟩ := give_some hg
      obtain ⟨o, ho, hoe⟩ := given_mem h hx hno
      obtain ⟨hnd, hset⟩ := set_spec hp h.nodup r
      obtain ⟨o', ho', hpo⟩ := h.ofPipe p hmem
      rw [ho] at ho'
      obtain rfl := Option.some.inj ho'
      have hlt : s.pos < r := by
        have hsort := horig.inc o (List.mem_of_getElem? ho)
        rw [hoe, List.pairwise_append] at hsort
        refine hsort.2.2 s.pos ?_ r (by simp)
        simp only [ofType, List.mem_filter, decide_eq_true_eq]
        exact ⟨hin, hpos ▸ hpo⟩
      have hmr : ∀ j, (if r = s.pos + 1 then Merge.send i else choose (s.pipes.set i (p.1, r))) ≠ .read j := by
        intro j
        split
        · simp
        · exact (merge_chosen (s := { s with pipes := s.pipes.set i (p.1, r), merge := choose (s.pipes.set i (p.1, r)) }) rfl).2.2.1 j
      have hw : ∀ q, Waits ⟨s.srcs.set p.1 (.at rs f), if r = s.pos + 1 then .send i else choose (s.pipes.set i (p.1, r)),
          s.pipes.set i (p.1, r), s.pos, s.cancelled, s.out⟩ q ↔ q = (p.1, r) ∨ (q.1 ≠ p.1 ∧ Waits s q) := by
        intro q
        have : Waits ⟨s.srcs.set p.1 (.at rs f), if r = s.pos + 1 then .send i else choose (s.pipes.set i (p.1, r)),
          s.pipes.set i (p.1, r), s.pos, s.cancelled, s.out⟩ q ↔ q ∈ s.pipes.set i (p.1, r) :=
          ⟨fun h => h.1, fun h => ⟨h, fun j e => absurd e (hmr j)⟩⟩
        rw [this, hset]
        constructor
        · rintro (h1 | ⟨h1, h2⟩)
          · exact .inl h1
          · exact .inr ⟨fun e => h2 (pipe_unique h.nodup h1 hmem e), (hws q).2 ⟨h1, h2⟩⟩
        · rintro (h1 | ⟨_, h1⟩)
          · exact .inl h1
          · exact .inr ((hws q).1 h1)
      refine ⟨by simp [h.len], hnd, h.inc, h.known, ?_, each_some h hx rfl rfl rfl hno hw, ?_, ?_, ?_, ?_, ?_, ?_⟩
      · intro q hq
        rcases (hset q).1 hq with rfl | ⟨hq, _⟩
        · exact ⟨o, ho, by rw [hoe]; simp⟩
        · exact h.ofPipe q hq
      · intro j x hj
        rcases get_set hj with ⟨rfl, rfl⟩ | ⟨hne, hj⟩
        · exact .inl ⟨r, (hset _).2 (.inl rfl)⟩
        · rcases hafter j x hj with ⟨c, h1⟩ | h1
          · exact .inl ⟨c, (hset _).2 (.inr ⟨h1, fun e => hne (by rw [← e])⟩)⟩
          · exact .inr (.inl h1)
      · intro q hq x hx
        rcases (hw q).1 hq with rfl | ⟨_, hq⟩
        · have : x ≤ s.pos := hmax x hx
          show x < r
          omega
        · exact h.above q hq x hx
      · intro j e
        simp only at e
        split at e
        · cases e
        · exact absurd e ((merge_chosen (s := { s with pipes := s.pipes.set i (p.1, r), merge := choose (s.pipes.set i (p.1, r)) })
            rfl).2.1 j)
      · intro j e
        simp only at e
        split at e
        · rename_i hr
          cases e
          refine ⟨(p.1, r), ?_, fun q hq => ?_⟩
          · have hi := (List.getElem?_eq_some_iff.1 hp).1
            simp [hi]
          · rcases (hset q).1 hq with rfl | h1
            · exact Nat.le_refl _
            · have := h.above q ((hws q).2 h1) s.pos hin
              show r ≤ q.2
              omega
        · exact (merge_chosen (s := { s with pipes := s.pipes.set i (p.1, r), merge := choose (s.pipes.set i (p.1, r)) })
            rfl).2.2.2.1 j e
      · intro j e; exact absurd e (hmr j)
      · intro e
        simp only at e
        split at e
        · cases e
        · exact (merge_chosen (s := { s with pipes := s.pipes.set i (p.1, r), merge := choose (s.pipes.set i (p.1, r)) })
            rfl).2.2.2.2 e
    · rename_i y hg
      obtain ⟨x, hx, hg⟩ := Option.bind_eq_some_iff.1 hg
      obtain ⟨hat, rfl⟩ := give_none hg
      obtain ⟨hnd, hrem⟩ := remove_spec hp h.nodup
      obtain ⟨h1, h2, h3, h4, h5⟩ := merge_chosen
        (s := { s with srcs := s.srcs.set p.1 .over, pipes := remove s.pipes i, merge := choose (remove s.pipes i) }) rfl
      refine ⟨by simp [h.len], hnd, h.inc, h.known, ?_, each_none h hx hat rfl rfl rfl (fun q => ?_), ?_, ?_, ?_, h4, ?_, h5⟩
      · intro q hq; exact h.ofPipe q ((hrem q).1 hq).1
      · rw [h1, hws]; exact hrem q
      · intro j x hj
        rcases get_set hj with ⟨rfl, rfl⟩ | ⟨hne, hj⟩
        · exact .inr (.inl rfl)
        · rcases hafter j x hj with ⟨c, h6⟩ | h6
          · exact .inl ⟨c, (hrem _).2 ⟨h6, fun e => hne (by rw [← e])⟩⟩
          · exact .inr (.inl h6)
      · intro q hq x hx
        exact h.above q ((hws q).2 ((hrem q).1 ((h1 q).1 hq))) x hx
      · intro j e2; exact absurd e2 (h2 j)
      · intro j e2; exact absurd e2 (h3 j)
  · exact h

theorem inv_run {orig : List (List Nat)} (horig : Orig orig) : ∀ (acts : List Act) {s : State}, Inv orig s → Inv orig (run s acts) := by
  intro acts
  induction acts with
  | nil => intro s h; exact h
  | cons a acts ih =>
    intro s h
    apply ih (s := step s a)
    cases a with
    | cancel => exact inv_cancel h
    | turn k => exact inv_turn h k
    | pull => exact inv_pull horig h
    | next => exact inv_next horig h

theorem orig_of {srcs : List (List Nat × Bool)} (h : Sorted srcs) : Orig (srcs.map (·.1)) where
  inc := by
    intro o ho
    obtain ⟨p, hp, rfl⟩ := List.mem_map.1 ho
    exact h.1 p hp
  apart := by
    intro j k a b ha hb hne x hx hxb
    obtain ⟨hj, rfl⟩ := List.getElem?_eq_some_iff.1 ha
    obtain ⟨hk, rfl⟩ := List.getElem?_eq_some_iff.1 hb
    rcases Nat.lt_or_gt_of_ne hne with hlt | hlt
    · exact List.pairwise_iff_getElem.1 h.2 j k hj hk hlt x hx hxb
    · exact List.pairwise_iff_getElem.1 h.2 k j hk hj hlt x hxb hx

/-- Nothing but a cancel cancels. -/
theorem run_cancelled (acts : List Act) : ∀ (s : State), s.cancelled = false → .cancel ∉ acts → (run s acts).cancelled = false := by
  induction acts with
  | nil => intro s h _; exact h
  | cons a acts ih =>
    intro s h hn
    simp only [List.mem_cons, not_or] at hn
    apply ih (step s a) _ hn.2
    have hf : ∀ (t : State) j, (t.filled j).cancelled = t.cancelled := by
      intro t j; unfold State.filled; split <;> rfl
    cases a with
    | cancel => exact absurd rfl hn.1
    | turn k => simp only [step]; split <;> exact h
    | pull =>
      simp only [step]
      split
      · split
        · exact h
        · split
          · exact h
          · rw [hf]; exact h
          · rw [hf]; exact h
      · split
        · exact h
        · split <;> exact h
      · exact h
    | next =>
      simp only [step]
      split
      · split <;> exact h
      · exact h

end RangeDB.Left

import Verif.Model.Lock
import Verif.Model.LevelDB
import Verif.Base.Demo

/-! # C23, C24 and C54: reads under the stores' lock -/

namespace RangeDB.Lock

variable {σ ρ : Type}

/-- No writer is between taking and releasing the write lock. -/
def State.Unlocked (s : State σ ρ) : Prop := ∀ ops, s.phase ≠ .active ops

/-! ## C23 -/

/-- The invariant. `V c y`: content `y` was seen by call `c` at an unlocked moment. -/
structure Good (V : Nat → σ → Prop) (s : State σ ρ) : Prop where
  excl : (∃ ops, s.phase = .active ops) → s.held = false
  its : ∀ c call, s.calls[c]? = some call → ∀ it ∈ call.its,
    V c it.start ∧ it.out = (it.query it.start).1.take it.pos ∧
    (it.isOpen = true → it.start = s.content) ∧
    (it.complete = true → (it.query it.start).1.length ≤ it.pos)

theorem held_false {s : State σ ρ} : s.held = false ↔
    ∀ (c : Nat) (call : Call σ ρ), s.calls[c]? = some call → ∀ it ∈ call.its, it.isOpen = false := by
  unfold State.held
  rw [List.any_eq_false]
  constructor
  · intro h c call hc it hit
    have := h call (List.mem_of_getElem? hc)
    rw [Bool.not_eq_true, List.any_eq_false] at this
    simpa using this it hit
  · intro h call hcall
    obtain ⟨c, hc⟩ := List.getElem?_of_mem hcall
    rw [Bool.not_eq_true, List.any_eq_false]
    intro it hit
    rw [h c call hc it hit]
    simp

theorem getElem?_set_cases {α : Type} {l : List α} {i j : Nat} {x y : α}
    (h : (l.set i x)[j]? = some y) : (j = i ∧ y = x ∧ i < l.length) ∨ l[j]? = some y := by
  rw [List.getElem?_set] at h
  split at h
  · split at h
    · rename_i h1 h2
      exact Or.inl ⟨h1.symm, (Option.some.inj h).symm, h2⟩
    · simp at h
  · exact Or.inr h

theorem mem_set_cases {α : Type} {l : List α} {i : Nat} {x y : α} (h : y ∈ l.set i x) : y = x ∨ y ∈ l := by
  rcases List.mem_or_eq_of_mem_set h with h | h
  · exact Or.inr h
  · exact Or.inl h

theorem Good.mono {V W : Nat → σ → Prop} {s : State σ ρ} (h : Good V s) (hvw : ∀ c y, V c y → W c y) :
    Good W s :=
  ⟨h.excl, fun c call hc it hit => by
    obtain ⟨h1, h2, h3, h4⟩ := h.its c call hc it hit
    exact ⟨hvw _ _ h1, h2, h3, h4⟩⟩

/-- What one action may add to `V`. -/
def Seen (s s' : State σ ρ) (c : Nat) (y : σ) : Prop :=
  (s.Unlocked ∧ c < s.calls.length ∧ s.content = y) ∨ (s'.Unlocked ∧ c < s'.calls.length ∧ s'.content = y)

theorem good_step {V : Nat → σ → Prop} {s s' : State σ ρ} (l : Label σ ρ) (h : Good V s)
    (hs : step s l = some s') : Good (fun c y => V c y ∨ Seen s s' c y) s' := by
  have h' : Good (fun c y => V c y ∨ Seen s s' c y) s := h.mono (fun _ _ h => Or.inl h)
  cases l with
  | newWriter ops =>
    simp only [step] at hs
    obtain rfl := Option.some.inj hs
    exact ⟨h'.excl, h'.its⟩
  | newCall qs =>
    simp only [step] at hs
    obtain rfl := Option.some.inj hs
    refine ⟨fun ha => ?_, ?_⟩
    · have := h.excl ha
      rw [held_false] at this ⊢
      intro c call hc it hit
      rw [List.getElem?_append] at hc
      split at hc
      · exact this c call hc it hit
      · have := List.mem_of_getElem? hc
        simp only [List.mem_singleton] at this
        subst this
        simp at hit
    · intro c call hc it hit
      rw [List.getElem?_append] at hc
      split at hc
      · exact h'.its c call hc it hit
      · have := List.mem_of_getElem? hc
        simp only [List.mem_singleton] at this
        subst this
        simp at hit
  | announce i =>
    simp only [step] at hs
    split at hs
    · obtain rfl := Option.some.inj hs
      exact ⟨by rintro ⟨ops, ho⟩; simp at ho, h'.its⟩
    · simp at hs
  | activate =>
    simp only [step] at hs
    split at hs
    · split at hs
      · simp at hs
      · rename_i hh
        obtain rfl := Option.some.inj hs
        exact ⟨fun _ => Bool.eq_false_iff.mpr hh, h'.its⟩
    · simp at hs
  | write =>
    simp only [step] at hs
    split at hs
    · rename_i f ops hp
      obtain rfl := Option.some.inj hs
      have hh := h.excl ⟨_, hp⟩
      refine ⟨fun _ => hh, ?_⟩
      rw [held_false] at hh
      intro c call hc it hit
      obtain ⟨h1, h2, _, h4⟩ := h'.its c call hc it hit
      exact ⟨h1, h2, fun ho => by rw [hh c call hc it hit] at ho; simp at ho, h4⟩
    · simp at hs
  | unlock =>
    simp only [step] at hs
    split at hs
    · rename_i hp
      have hh := h.excl ⟨_, hp⟩
      obtain rfl := Option.some.inj hs
      refine ⟨by rintro ⟨ops, ho⟩; simp at ho, ?_⟩
      intro c call hc it hit
      rw [List.getElem?_map, Option.map_eq_some_iff] at hc
      obtain ⟨call0, hc0, rfl⟩ := hc
      have hlt : c < s.calls.length := by
        obtain ⟨hlt, _⟩ := List.getElem?_eq_some_iff.mp hc0
        exact hlt
      simp only [Call.wake] at hit
      split at hit
      · unfold Call.acquire at hit
        split at hit
        · exact h'.its c call0 hc0 it hit
        · simp only [List.mem_append, List.mem_singleton] at hit
          rcases hit with hit | rfl
          · exact h'.its c call0 hc0 it hit
          · refine ⟨Or.inr (Or.inr ⟨?_, by simpa using hlt, rfl⟩), by simp, fun _ => rfl, by simp⟩
            intro ops ho
            simp at ho
      · exact h'.its c call0 hc0 it hit
    · simp at hs
  | rlock ci =>
    simp only [step] at hs
    split at hs
    · simp at hs
    · rename_i call0 hc0
      have hlt : ci < s.calls.length := by
        obtain ⟨hlt, _⟩ := List.getElem?_eq_some_iff.mp hc0
        exact hlt
      split at hs
      · simp at hs
      · split at hs
        · rename_i hp
          obtain rfl := Option.some.inj hs
          refine ⟨?_, ?_⟩
          · rintro ⟨ops, ho⟩
            simp only [State.setCall] at ho
            rw [hp] at ho
            simp at ho
          · intro c call hc it hit
            simp only [State.setCall] at hc
            rcases getElem?_set_cases hc with ⟨rfl, rfl, _⟩ | hc
            · unfold Call.acquire at hit
              split at hit
              · exact h'.its _ call0 hc0 it hit
              · simp only [List.mem_append, List.mem_singleton] at hit
                rcases hit with hit | rfl
                · exact h'.its _ call0 hc0 it hit
                · refine ⟨Or.inr (Or.inl ⟨?_, hlt, rfl⟩), by simp, fun _ => rfl, by simp⟩
                  intro ops ho
                  rw [hp] at ho
                  simp at ho
            · exact h'.its c call hc it hit
        · rename_i hp
          obtain rfl := Option.some.inj hs
          refine ⟨?_, ?_⟩
          · intro ha
            have := h.excl ha
            rw [held_false] at this ⊢
            intro c call hc it hit
            simp only [State.setCall] at hc
            rcases getElem?_set_cases hc with ⟨rfl, rfl, _⟩ | hc
            · exact this _ call0 hc0 it hit
            · exact this c call hc it hit
          · intro c call hc it hit
            simp only [State.setCall] at hc
            rcases getElem?_set_cases hc with ⟨rfl, rfl, _⟩ | hc
            · exact h'.its _ call0 hc0 it hit
            · exact h'.its c call hc it hit
  | emit ci i =>
    simp only [step] at hs
    split at hs
    · simp at hs
    · rename_i call0 hc0
      split at hs
      · simp at hs
      · rename_i it0 hi0
        have hm0 := List.mem_of_getElem? hi0
        split at hs
        · rename_i hop
          split at hs
          · simp at hs
          · rename_i r hr
            obtain rfl := Option.some.inj hs
            have hex : ¬ ∃ ops, s.phase = .active ops := by
              intro ha
              have := held_false.mp (h.excl ha) _ _ hc0 _ hm0
              rw [this] at hop
              simp at hop
            refine ⟨fun ha => absurd ha hex, ?_⟩
            intro c call hc it hit
            simp only [State.setCall] at hc
            rcases getElem?_set_cases hc with ⟨rfl, rfl, _⟩ | hc
            · simp only [Call.setIt] at hit
              rcases mem_set_cases hit with rfl | hit
              · obtain ⟨h1, h2, h3, h4⟩ := h'.its _ call0 hc0 it0 hm0
                have hst := h3 hop.1
                have hlt := (List.getElem?_eq_some_iff.mp hr).1
                refine ⟨h1, ?_, h3, fun hcm => ?_⟩
                · show it0.out ++ [r] = _
                  rw [h2, hst]
                  show _ = List.take (it0.pos + 1) (it0.query s.content).1
                  rw [List.take_add_one, hr]
                  rfl
                · have := h4 hcm
                  rw [hst] at this
                  omega
              · exact h'.its _ call0 hc0 it hit
            · exact h'.its c call hc it hit
        · simp at hs
  | close ci i =>
    simp only [step] at hs
    split at hs
    · simp at hs
    · rename_i call0 hc0
      split at hs
      · simp at hs
      · rename_i it0 hi0
        have hm0 := List.mem_of_getElem? hi0
        split at hs
        · rename_i hop
          obtain rfl := Option.some.inj hs
          refine ⟨fun ha => ?_, ?_⟩
          · have := held_false.mp (h.excl ha) _ _ hc0 _ hm0
            rw [this] at hop
            simp at hop
          · intro c call hc it hit
            simp only [State.setCall] at hc
            rcases getElem?_set_cases hc with ⟨rfl, rfl, _⟩ | hc
            · simp only [Call.setIt] at hit
              rcases mem_set_cases hit with rfl | hit
              · obtain ⟨h1, h2, h3, h4⟩ := h'.its _ call0 hc0 it0 hm0
                have hst := h3 hop.1
                refine ⟨h1, h2, by simp, fun _ => ?_⟩
                show _ ≤ it0.pos
                rw [hst]
                exact hop.2.1
              · exact h'.its _ call0 hc0 it hit
            · exact h'.its c call hc it hit
        · simp at hs
  | cancel ci =>
    simp only [step] at hs
    split at hs
    · simp at hs
    · rename_i call0 hc0
      obtain rfl := Option.some.inj hs
      have hstop : ∀ it : It σ ρ, (It.stop s.content it).start = it.start ∧
          (It.stop s.content it).query = it.query ∧ (It.stop s.content it).out = it.out ∧
          (It.stop s.content it).pos = it.pos ∧ (It.stop s.content it).complete = it.complete ∧
          ((It.stop s.content it).isOpen = true → it.isOpen = true) := by
        intro it
        unfold It.stop
        split <;> simp
      refine ⟨fun ha => ?_, ?_⟩
      · have := held_false.mp (h.excl ha)
        rw [held_false]
        intro c call hc it hit
        simp only [State.setCall] at hc
        rcases getElem?_set_cases hc with ⟨rfl, rfl, _⟩ | hc
        · simp only [List.mem_map] at hit
          obtain ⟨it0, hit0, rfl⟩ := hit
          have h1 := this _ call0 hc0 it0 hit0
          rw [Bool.eq_false_iff]
          intro h2
          rw [(hstop it0).2.2.2.2.2 h2] at h1
          simp at h1
        · exact this c call hc it hit
      · intro c call hc it hit
        simp only [State.setCall] at hc
        rcases getElem?_set_cases hc with ⟨rfl, rfl, _⟩ | hc
        · simp only [List.mem_map] at hit
          obtain ⟨it0, hit0, rfl⟩ := hit
          obtain ⟨h1, h2, h3, h4⟩ := h'.its _ call0 hc0 it0 hit0
          obtain ⟨e1, e2, e3, e4, e5, e6⟩ := hstop it0
          rw [e1, e2, e3, e4, e5]
          exact ⟨h1, h2, fun ho => h3 (e6 ho), h4⟩
        · exact h'.its c call hc it hit

theorem good_exec (ls : List (Label σ ρ)) : ∀ {V : Nat → σ → Prop} {s s' : State σ ρ}, Good V s →
    exec s ls = some s' →
    Good (fun c y => V c y ∨ ∃ pre post s0, ls = pre ++ post ∧ exec s pre = some s0 ∧
      s0.Unlocked ∧ c < s0.calls.length ∧ s0.content = y) s' := by
  induction ls with
  | nil =>
    intro V s s' h hs
    simp only [exec] at hs
    obtain rfl := Option.some.inj hs
    exact h.mono (fun _ _ h => Or.inl h)
  | cons l ls ih =>
    intro V s s' h hs
    simp only [exec] at hs
    split at hs
    · simp at hs
    · rename_i s1 h1
      refine (ih (good_step l h h1) hs).mono ?_
      rintro c y ((hV | (hS | hS)) | ⟨pre, post, s0, rfl, he, hr⟩)
      · exact Or.inl hV
      · exact Or.inr ⟨[], l :: ls, s, rfl, rfl, hS⟩
      · exact Or.inr ⟨[l], ls, s1, rfl, by simp [exec, h1], hS⟩
      · exact Or.inr ⟨l :: pre, post, s0, rfl, by simp [exec, h1, he], hr⟩

/-- **C23**, one iterator. Whatever readers and writers do, and whatever the writes are: what an iterator
has handed out is a prefix of what its query returns for the store's content at one single moment `s0` of
the execution, a moment after the read call was made, at which no write was under way; and it is all of it
if the iterator ran to its end. -/
theorem C23_snapshot (x : σ) (ls : List (Label σ ρ)) (s : State σ ρ) (hx : exec (init x) ls = some s)
    (c : Nat) (call : Call σ ρ) (hc : s.calls[c]? = some call) (it : It σ ρ) (hi : it ∈ call.its) :
    ∃ pre post s0, ls = pre ++ post ∧ exec (init x) pre = some s0 ∧ s0.Unlocked ∧ c < s0.calls.length ∧
      it.out <+: (it.query s0.content).1 ∧
      (it.complete = true → it.out = (it.query s0.content).1) := by
  have h0 : Good (fun _ _ => False) (init x : State σ ρ) :=
    ⟨by rintro ⟨ops, ho⟩; simp [init] at ho, by intro c call hc; simp [init] at hc⟩
  obtain ⟨h1, h2, _, h4⟩ := (good_exec ls h0 hx).its c call hc it hi
  rcases h1 with h1 | ⟨pre, post, s0, e1, e2, e3, e4, e5⟩
  · exact h1.elim
  · rw [← e5] at h2 h4
    refine ⟨pre, post, s0, e1, e2, e3, e4, ?_, fun hcm => ?_⟩
    · rw [h2]; exact List.take_prefix _ _
    · rw [h2, List.take_of_length_le (h4 hcm)]

/-! ### Several iterators of one call -/

/-- Once a call has returned, its iterators keep their snapshots. -/
theorem keep_step {s s' : State σ ρ} (l : Label σ ρ) (hs : step s l = some s') {c : Nat}
    {call : Call σ ρ} (hc : s.calls[c]? = some call) (ht : call.todo = []) :
    ∃ call', s'.calls[c]? = some call' ∧ call'.todo = [] ∧
      call'.its.map (fun it => it.start) = call.its.map (fun it => it.start) := by
  have hsame : ∃ call', s.calls[c]? = some call' ∧ call'.todo = [] ∧
      call'.its.map (fun it => it.start) = call.its.map (fun it => it.start) := ⟨call, hc, ht, rfl⟩
  have hlt : c < s.calls.length := (List.getElem?_eq_some_iff.mp hc).1
  have hset : ∀ (ci : Nat) (call0 x : Call σ ρ), s.calls[ci]? = some call0 →
      (call0.todo = [] → x.todo = [] ∧
        x.its.map (fun it => it.start) = call0.its.map (fun it => it.start)) →
      ∃ call', (s.setCall ci x).calls[c]? = some call' ∧ call'.todo = [] ∧
        call'.its.map (fun it => it.start) = call.its.map (fun it => it.start) := by
    intro ci call0 x h0 hx
    simp only [State.setCall]
    by_cases hci : ci = c
    · subst hci
      rw [hc] at h0
      obtain rfl := Option.some.inj h0
      exact ⟨x, by simp [hlt], hx ht⟩
    · exact ⟨call, by rw [List.getElem?_set_ne hci]; exact hc, ht, rfl⟩
  have hmap : ∀ (its : List (It σ ρ)) (i : Nat) (it0 it1 : It σ ρ), its[i]? = some it0 →
      it1.start = it0.start →
      (its.set i it1).map (fun it => it.start) = its.map (fun it => it.start) := by
    intro its i it0 it1 h0 h1
    rw [List.map_set, h1]
    apply List.ext_getElem?
    intro j
    rw [List.getElem?_set]
    split
    · rename_i hij
      subst hij
      have hi := (List.getElem?_eq_some_iff.mp h0).1
      rw [if_pos (by simpa using hi), List.getElem?_map, h0]
      rfl
    · rfl
  cases l with
  | newWriter ops => simp only [step] at hs; obtain rfl := Option.some.inj hs; exact hsame
  | newCall qs =>
    simp only [step] at hs; obtain rfl := Option.some.inj hs
    exact ⟨call, by rw [List.getElem?_append_left hlt]; exact hc, ht, rfl⟩
  | announce i =>
    simp only [step] at hs
    split at hs
    · obtain rfl := Option.some.inj hs; exact hsame
    · simp at hs
  | activate =>
    simp only [step] at hs
    split at hs
    · split at hs
      · simp at hs
      · obtain rfl := Option.some.inj hs; exact hsame
    · simp at hs
  | write =>
    simp only [step] at hs
    split at hs
    · obtain rfl := Option.some.inj hs; exact hsame
    · simp at hs
  | unlock =>
    simp only [step] at hs
    split at hs
    · obtain rfl := Option.some.inj hs
      refine ⟨Call.wake s.content call, by rw [List.getElem?_map, hc]; rfl, ?_⟩
      have : Call.wake s.content call = call := by
        unfold Call.wake Call.acquire
        split
        · rw [ht]
        · rfl
      rw [this]
      exact ⟨ht, rfl⟩
    · simp at hs
  | rlock ci =>
    simp only [step] at hs
    split at hs
    · simp at hs
    · rename_i call0 h0
      split at hs
      · simp at hs
      · rename_i hne
        have hne' : call0.todo ≠ [] := by
          intro h
          exact hne (Or.inl (by rw [h]; rfl))
        split at hs
        · obtain rfl := Option.some.inj hs
          exact hset ci call0 _ h0 (fun h => absurd h hne')
        · obtain rfl := Option.some.inj hs
          exact hset ci call0 _ h0 (fun h => absurd h hne')
  | emit ci i =>
    simp only [step] at hs
    split at hs
    · simp at hs
    · rename_i call0 h0
      split at hs
      · simp at hs
      · rename_i it0 hi0
        split at hs
        · split at hs
          · simp at hs
          · obtain rfl := Option.some.inj hs
            exact hset ci call0 _ h0 (fun h => ⟨h, hmap _ _ _ _ hi0 rfl⟩)
        · simp at hs
  | close ci i =>
    simp only [step] at hs
    split at hs
    · simp at hs
    · rename_i call0 h0
      split at hs
      · simp at hs
      · rename_i it0 hi0
        split at hs
        · obtain rfl := Option.some.inj hs
          exact hset ci call0 _ h0 (fun h => ⟨h, hmap _ _ _ _ hi0 rfl⟩)
        · simp at hs
  | cancel ci =>
    simp only [step] at hs
    split at hs
    · simp at hs
    · rename_i call0 h0
      obtain rfl := Option.some.inj hs
      refine hset ci call0 _ h0 (fun h => ⟨h, ?_⟩)
      rw [List.map_map]
      apply List.map_congr_left
      intro it _
      simp only [Function.comp, It.stop]
      split <;> rfl

theorem keep_exec (ls : List (Label σ ρ)) : ∀ {s s' : State σ ρ}, exec s ls = some s' → ∀ {c : Nat}
    {call : Call σ ρ}, s.calls[c]? = some call → call.todo = [] →
    ∃ call', s'.calls[c]? = some call' ∧ call'.todo = [] ∧
      call'.its.map (fun it => it.start) = call.its.map (fun it => it.start) := by
  induction ls with
  | nil =>
    intro s s' hs c call hc ht
    simp only [exec] at hs
    obtain rfl := Option.some.inj hs
    exact ⟨call, hc, ht, rfl⟩
  | cons l ls ih =>
    intro s s' hs c call hc ht
    simp only [exec] at hs
    split at hs
    · simp at hs
    · rename_i s1 h1
      obtain ⟨call1, hc1, ht1, hm1⟩ := keep_step l h1 hc ht
      obtain ⟨call2, hc2, ht2, hm2⟩ := ih hs hc1 ht1
      exact ⟨call2, hc2, ht2, hm2.trans hm1⟩

theorem exec_append (a b : List (Label σ ρ)) : ∀ {s s1 s2 : State σ ρ}, exec s a = some s1 →
    exec s1 b = some s2 → exec s (a ++ b) = some s2 := by
  induction a with
  | nil => intro s s1 s2 h1 h2; simp only [exec] at h1; obtain rfl := Option.some.inj h1; exact h2
  | cons l a ih =>
    intro s s1 s2 h1 h2
    simp only [List.cons_append, exec] at h1 ⊢
    split at h1
    · simp at h1
    · exact ih h1 h2

/-- **C23**, several iterators: if all iterators of a call are still open when the call returns (each type
has a matching event, none is cancelled), then they all show the store at that one moment. Missing from
the full claim: calls some of whose iterators end before the others are opened. -/
theorem C23_partial (x : σ) (ls ls' : List (Label σ ρ)) (s s' : State σ ρ)
    (hx : exec (init x) ls = some s) (hx' : exec s ls' = some s') (c : Nat) (call call' : Call σ ρ)
    (hc : s.calls[c]? = some call) (ht : call.todo = []) (ho : ∀ it ∈ call.its, it.isOpen = true)
    (hc' : s'.calls[c]? = some call') :
    ∀ it ∈ call'.its, it.out <+: (it.query s.content).1 ∧
      (it.complete = true → it.out = (it.query s.content).1) := by
  have h0 : Good (fun _ _ => False) (init x : State σ ρ) :=
    ⟨by rintro ⟨ops, ho⟩; simp [init] at ho, by intro c call hc; simp [init] at hc⟩
  have g1 := (good_exec ls h0 hx).its c call hc
  have g2 := (good_exec _ h0 (exec_append _ _ hx hx')).its c call' hc'
  obtain ⟨call2, hc2, _, hm⟩ := keep_exec ls' hx' hc ht
  rw [hc'] at hc2
  obtain rfl := Option.some.inj hc2
  intro it hit
  have hst : it.start = s.content := by
    have : it.start ∈ call'.its.map (fun it => it.start) := List.mem_map.mpr ⟨it, hit, rfl⟩
    rw [hm, List.mem_map] at this
    obtain ⟨it0, hit0, he⟩ := this
    rw [← he]
    exact (g1 it0 hit0).2.2.1 (ho it0 hit0)
  obtain ⟨_, h2, _, h4⟩ := g2 it hit
  rw [hst] at h2 h4
  refine ⟨?_, fun hcm => ?_⟩
  · rw [h2]; exact List.take_prefix _ _
  · rw [h2, List.take_of_length_le (h4 hcm)]

section Witness

open Demo

/-- `EventsByAggregateTypes` of one type on the in-memory store (`IM.eventsByType`). -/
def qType (t : Str) (s : IM.State) : List Record × Bool :=
  let it := IM.eventsByType demo s none 0 t
  (it.recs, it.err.isSome)

/-- A `Save` on the in-memory store. -/
def wSave (st : Str) (er : EventRecord) (s : IM.State) : IM.State :=
  IM.step demo s (.save st none none [er])

/-- A reader of types A and B meets two writers: type A is empty when it is read, then event 1 of type A
and event 2 of type B are saved, then type B is read. -/
def ls23 : List (Label IM.State Record) :=
  [.newCall [qType [65], qType [66]], .rlock 0, .close 0 0,
   .newWriter [wSave sA (evA [1])], .newWriter [wSave sB (evB [2])],
   .announce 0, .activate, .write, .unlock, .announce 0, .activate, .write, .unlock,
   .rlock 0, .emit 0 1, .close 0 1]

example : (exec (init IM.init) ls23).map (fun s => s.calls.map (fun c => c.its.map (fun it =>
    (it.out.map (·.gsn), it.complete)))) = some [[([], true), ([2], true)]] := by decide

/-- The full claim of **C23**: all iterators of one call that ran to their ends show the store at one and
the same moment. -/
def C23_full : Prop :=
  ∀ (ls : List (Label IM.State Record)) (s : State IM.State Record), exec (init IM.init) ls = some s →
    ∀ call ∈ s.calls, (∀ it ∈ call.its, it.complete = true) →
    ∃ pre post s0, ls = pre ++ post ∧ exec (init IM.init) pre = some s0 ∧
      ∀ it ∈ call.its, it.out = (it.query s0.content).1

/-- The state after `ls23`. -/
def s23 : State IM.State Record := (exec (init IM.init) ls23).get (by decide)

theorem s23_no_moment : (List.range 17).all (fun k => match exec (init IM.init) (ls23.take k) with
    | none => true
    | some s0 => s23.calls.all (fun call => !call.its.all (fun it =>
        decide (it.out = (it.query s0.content).1)))) = true := by decide

/-- **C23 is false for reads of several types**: the reader gets event 2 without event 1, which no moment
of the execution shows. -/
theorem C23_false : ¬ C23_full := by
  intro h
  have hx : exec (init IM.init) ls23 = some s23 := by simp [s23]
  have hl : s23.calls.length = 1 := by decide
  have hcm : s23.calls.all (fun c => c.its.all (fun it => it.complete)) = true := by decide
  obtain ⟨call, hcall⟩ : ∃ call, call ∈ s23.calls := by
    cases hh : s23.calls with
    | nil => simp [hh] at hl
    | cons a b => exact ⟨a, by simp⟩
  have h1 : ∀ it ∈ call.its, it.complete = true := by
    have := List.all_eq_true.mp hcm call hcall
    exact List.all_eq_true.mp this
  obtain ⟨pre, post, s0, e1, e2, e3⟩ := h ls23 s23 hx call hcall h1
  have hk : pre = ls23.take pre.length := by rw [e1]; simp
  have hlen : pre.length < 17 := by
    have : ls23.length = (pre ++ post).length := by rw [← e1]
    rw [List.length_append] at this
    have h16 : ls23.length = 16 := by decide
    omega
  have := List.all_eq_true.mp s23_no_moment pre.length (by simpa using hlen)
  rw [← hk, e2] at this
  have := List.all_eq_true.mp this call hcall
  simp only [Bool.not_eq_true', ← Bool.not_eq_true, List.all_eq_true, decide_eq_true_eq] at this
  exact this e3

end Witness

/-! ## C24 -/

/-- A reader that holds the lock for its first iterator and waits for the second, behind a writer. -/
def Stuck (ops : Writes σ) (x : σ) (s : State σ ρ) : Prop :=
  s.phase = .announced ops ∧ s.content = x ∧
  ∃ call it, s.calls[0]? = some call ∧ call.its[0]? = some it ∧ call.waiting = true ∧ call.todo ≠ [] ∧
    it.isOpen = true ∧ it.pos < (it.query x).1.length

theorem stuck_held {ops : Writes σ} {x : σ} {s : State σ ρ} (h : Stuck ops x s) : s.held = true := by
  obtain ⟨_, _, call, it, hc, hi, _, _, ho, _⟩ := h
  unfold State.held
  rw [List.any_eq_true]
  exact ⟨call, List.mem_of_getElem? hc, List.any_eq_true.mpr ⟨it, List.mem_of_getElem? hi, ho⟩⟩

theorem stuck_step {ops : Writes σ} {x : σ} {s s' : State σ ρ} (h : Stuck ops x s) (l : Label σ ρ)
    (hl : ∀ c, l = .cancel c → c ≠ 0) (hs : step s l = some s') : Stuck ops x s' := by
  have hheld := stuck_held h
  obtain ⟨hp, hx, call, it, hc, hi, hw, ht, ho, hr⟩ := h
  have hlt : 0 < s.calls.length := (List.getElem?_eq_some_iff.mp hc).1
  have hlti : 0 < call.its.length := (List.getElem?_eq_some_iff.mp hi).1
  have hother : ∀ (ci : Nat) (y : Call σ ρ), ci ≠ 0 → Stuck ops x (s.setCall ci y) := by
    intro ci y hne
    refine ⟨hp, hx, call, it, ?_, hi, hw, ht, ho, hr⟩
    simp only [State.setCall]
    rw [List.getElem?_set_ne hne]
    exact hc
  have hself : ∀ (y : Call σ ρ), y.waiting = true → y.todo = call.todo → y.its[0]? = some it →
      Stuck ops x (s.setCall 0 y) := by
    intro y h1 h2 h3
    exact ⟨hp, hx, y, it, by simp [State.setCall, hlt], h3, h1, by rw [h2]; exact ht, ho, hr⟩
  cases l with
  | newWriter o => simp only [step] at hs; obtain rfl := Option.some.inj hs; exact ⟨hp, hx, call, it, hc, hi, hw, ht, ho, hr⟩
  | newCall qs =>
    simp only [step] at hs; obtain rfl := Option.some.inj hs
    exact ⟨hp, hx, call, it, by rw [List.getElem?_append_left hlt]; exact hc, hi, hw, ht, ho, hr⟩
  | announce i => simp [step, hp] at hs
  | activate => simp [step, hp, hheld] at hs
  | write => simp [step, hp] at hs
  | unlock => simp [step, hp] at hs
  | rlock ci =>
    simp only [step] at hs
    split at hs
    · simp at hs
    · rename_i call0 h0
      by_cases hci : ci = 0
      · subst hci
        rw [hc] at h0
        obtain rfl := Option.some.inj h0
        simp [hw] at hs
      · split at hs
        · simp at hs
        · rw [hp] at hs
          obtain rfl := Option.some.inj hs
          exact hother ci _ hci
  | emit ci i =>
    simp only [step] at hs
    split at hs
    · simp at hs
    · rename_i call0 h0
      by_cases hci : ci = 0
      · subst hci
        rw [hc] at h0
        obtain rfl := Option.some.inj h0
        split at hs
        · simp at hs
        · rw [if_neg] at hs
          · simp at hs
          · intro h
            exact ht (List.isEmpty_iff.mp h.2)
      · split at hs
        · simp at hs
        · split at hs
          · split at hs
            · simp at hs
            · obtain rfl := Option.some.inj hs
              exact hother ci _ hci
          · simp at hs
  | close ci i =>
    simp only [step] at hs
    split at hs
    · simp at hs
    · rename_i call0 h0
      split at hs
      · simp at hs
      · rename_i it0 hi0
        split at hs
        · rename_i hcond
          obtain rfl := Option.some.inj hs
          by_cases hci : ci = 0
          · subst hci
            rw [hc] at h0
            obtain rfl := Option.some.inj h0
            by_cases hii : i = 0
            · subst hii
              rw [hi] at hi0
              obtain rfl := Option.some.inj hi0
              have := hcond.2.1
              rw [hx] at this
              omega
            · apply hself
              · exact hw
              · rfl
              · show (call.its.set i _)[0]? = some it
                rw [List.getElem?_set_ne hii]
                exact hi
          · exact hother ci _ hci
        · simp at hs
  | cancel ci =>
    simp only [step] at hs
    split at hs
    · simp at hs
    · obtain rfl := Option.some.inj hs
      exact hother ci _ (hl ci rfl)

theorem stuck_exec {ops : Writes σ} {x : σ} (ls : List (Label σ ρ)) : ∀ {s s' : State σ ρ},
    Stuck ops x s → .cancel 0 ∉ ls → exec s ls = some s' → Stuck ops x s' := by
  induction ls with
  | nil => intro s s' h _ hs; simp only [exec] at hs; obtain rfl := Option.some.inj hs; exact h
  | cons l ls ih =>
    intro s s' h hn hs
    simp only [List.mem_cons, not_or] at hn
    simp only [exec] at hs
    split at hs
    · simp at hs
    · rename_i s1 h1
      refine ih (stuck_step h l ?_ h1) hn.2 hs
      rintro c rfl rfl
      exact hn.1 rfl

/-- **C24 is false** on any store that holds a record of the first of the requested types: the reader
locks for the first type, a writer queues up, the reader asks for the lock again. Whatever happens next
(short of cancelling the reader's context), the read call never returns, the write never starts, the
content never changes, and hence no other writer ever gets the lock and no other reader either. -/
theorem C24_false (x : σ) (q1 q2 : σ → List ρ × Bool) (ops : Writes σ) (hq : (q1 x).1 ≠ []) :
    ∃ s, exec (init x) [.newCall [q1, q2], .rlock 0, .newWriter ops, .announce 0, .rlock 0] = some s ∧
      ∀ ls s', .cancel 0 ∉ ls → exec s ls = some s' →
        s'.phase = .announced ops ∧ s'.content = x ∧
        ∃ call, s'.calls[0]? = some call ∧ call.todo ≠ [] := by
  refine ⟨_, rfl, ?_⟩
  intro ls s' hn hs
  have h0 : 0 < (q1 x).1.length := List.length_pos_iff.mpr hq
  obtain ⟨h1, h2, call, _, h3, _, _, h4, _⟩ :=
    stuck_exec (ops := ops) (x := x) ls ⟨rfl, rfl, _, _, rfl, rfl, rfl, by simp [Call.acquire], rfl, h0⟩ hn hs
  exact ⟨h1, h2, call, h3, h4⟩

/-- The actions that calls and goroutines do on their own, their consumers being ready to receive. -/
def Work : Label σ ρ → Prop
  | .newWriter _ | .newCall _ | .cancel _ => False
  | _ => True

/-- All calls have returned and all locks are released. -/
def AllDone (s : State σ ρ) : Prop :=
  s.phase = .free ∧ s.queue = [] ∧ ∀ call ∈ s.calls, call.todo = [] ∧ ∀ it ∈ call.its, it.isOpen = false

/-- The invariant behind `C24_partial`. -/
def Single (s : State σ ρ) : Prop :=
  ∀ (c : Nat) (call : Call σ ρ), s.calls[c]? = some call → call.todo.length + call.its.length ≤ 1 ∧
    (call.waiting = true → call.todo ≠ [] ∧ s.phase ≠ .free)

theorem single_step {s s' : State σ ρ} (h : Single s) (l : Label σ ρ)
    (hl : ∀ qs, l = .newCall qs → qs.length ≤ 1) (hs : step s l = some s') : Single s' := by
  have hset : ∀ (ci : Nat) (y : Call σ ρ), y.todo.length + y.its.length ≤ 1 →
      (y.waiting = true → y.todo ≠ [] ∧ s.phase ≠ .free) → Single (s.setCall ci y) := by
    intro ci y h1 h2 c call hc
    simp only [State.setCall] at hc ⊢
    rcases getElem?_set_cases hc with ⟨rfl, rfl, _⟩ | hc
    · exact ⟨h1, h2⟩
    · exact h c call hc
  cases l with
  | newWriter o => simp only [step] at hs; obtain rfl := Option.some.inj hs; exact h
  | newCall qs =>
    simp only [step] at hs; obtain rfl := Option.some.inj hs
    intro c call hc
    rw [List.getElem?_append] at hc
    split at hc
    · exact h c call hc
    · have := List.mem_of_getElem? hc
      simp only [List.mem_singleton] at this
      subst this
      exact ⟨by simpa using hl qs rfl, by simp⟩
  | announce i =>
    simp only [step] at hs
    split at hs
    · obtain rfl := Option.some.inj hs
      exact fun c call hc => ⟨(h c call hc).1, fun hw => ⟨((h c call hc).2 hw).1, by simp⟩⟩
    · simp at hs
  | activate =>
    simp only [step] at hs
    split at hs
    · split at hs
      · simp at hs
      · obtain rfl := Option.some.inj hs
        exact fun c call hc => ⟨(h c call hc).1, fun hw => ⟨((h c call hc).2 hw).1, by simp⟩⟩
    · simp at hs
  | write =>
    simp only [step] at hs
    split at hs
    · obtain rfl := Option.some.inj hs
      exact fun c call hc => ⟨(h c call hc).1, fun hw => ⟨((h c call hc).2 hw).1, by simp⟩⟩
    · simp at hs
  | unlock =>
    simp only [step] at hs
    split at hs
    · obtain rfl := Option.some.inj hs
      intro c call hc
      rw [List.getElem?_map, Option.map_eq_some_iff] at hc
      obtain ⟨call0, hc0, rfl⟩ := hc
      obtain ⟨h1, h2⟩ := h c call0 hc0
      unfold Call.wake
      split
      · rename_i hw
        unfold Call.acquire
        split
        · rename_i hh
          exact absurd hh (h2 hw).1
        · rename_i q rest hh
          rw [hh] at h1
          simp only [List.length_cons] at h1
          refine ⟨by simp only [List.length_append, List.length_singleton]; omega, by simp⟩
      · rename_i hw
        exact ⟨h1, fun h => absurd h hw⟩
    · simp at hs
  | rlock ci =>
    simp only [step] at hs
    split at hs
    · simp at hs
    · rename_i call0 h0
      obtain ⟨h1, h2⟩ := h ci call0 h0
      split at hs
      · simp at hs
      · rename_i hne
        have hne' : call0.todo ≠ [] := fun h => hne (Or.inl (by rw [h]; rfl))
        split at hs
        · obtain rfl := Option.some.inj hs
          unfold Call.acquire
          split
          · rename_i hh; exact absurd hh hne'
          · rename_i q rest hh
            rw [hh] at h1
            simp only [List.length_cons] at h1
            exact hset ci _ (by simp only [List.length_append, List.length_singleton]; omega) (by simp)
        · rename_i hp
          obtain rfl := Option.some.inj hs
          exact hset ci _ h1 (fun _ => ⟨hne', fun h => hp h⟩)
  | emit ci i =>
    simp only [step] at hs
    split at hs
    · simp at hs
    · rename_i call0 h0
      obtain ⟨h1, h2⟩ := h ci call0 h0
      split at hs
      · simp at hs
      · split at hs
        · split at hs
          · simp at hs
          · obtain rfl := Option.some.inj hs
            exact hset ci _ (by simpa [Call.setIt] using h1) h2
        · simp at hs
  | close ci i =>
    simp only [step] at hs
    split at hs
    · simp at hs
    · rename_i call0 h0
      obtain ⟨h1, h2⟩ := h ci call0 h0
      split at hs
      · simp at hs
      · split at hs
        · obtain rfl := Option.some.inj hs
          exact hset ci _ (by simpa [Call.setIt] using h1) h2
        · simp at hs
  | cancel ci =>
    simp only [step] at hs
    split at hs
    · simp at hs
    · rename_i call0 h0
      obtain ⟨h1, h2⟩ := h ci call0 h0
      obtain rfl := Option.some.inj hs
      exact hset ci _ (by simpa using h1) h2

theorem single_exec (ls : List (Label σ ρ)) : ∀ {s s' : State σ ρ}, Single s →
    (∀ qs, .newCall qs ∈ ls → qs.length ≤ 1) → exec s ls = some s' → Single s' := by
  induction ls with
  | nil => intro s s' h _ hs; simp only [exec] at hs; obtain rfl := Option.some.inj hs; exact h
  | cons l ls ih =>
    intro s s' h hn hs
    simp only [exec] at hs
    split at hs
    · simp at hs
    · rename_i s1 h1
      exact ih (single_step h l (fun qs hq => hn qs (by simp [hq])) h1) (fun qs hq => hn qs (by simp [hq])) hs

/-- Somebody can go on. -/
theorem progress {s : State σ ρ} (h : Single s) (hd : ¬ AllDone s) :
    ∃ l s', Work l ∧ step s l = some s' := by
  have hit : ∀ (c : Nat) (call : Call σ ρ) (it : It σ ρ), s.calls[c]? = some call → it ∈ call.its → it.isOpen = true →
      ∃ l s', Work l ∧ step s l = some s' := by
    intro c call it hc hm ho
    obtain ⟨i, hi⟩ := List.getElem?_of_mem hm
    have ht : call.todo = [] := by
      have := (h c call hc).1
      have h2 : 0 < call.its.length := List.length_pos_of_mem hm
      exact List.length_eq_zero_iff.mp (by omega)
    by_cases hlen : it.pos < (it.query s.content).1.length
    · refine ⟨.emit c i, s.setCall c (call.setIt i { it with pos := it.pos + 1, out := it.out ++ [(it.query s.content).1[it.pos]] }), trivial, ?_⟩
      simp only [step, hc, hi, ht]
      rw [if_pos ⟨ho, rfl⟩, List.getElem?_eq_getElem hlen]
    · refine ⟨.close c i, s.setCall c (call.setIt i { it with isOpen := false, complete := true }), trivial, ?_⟩
      simp only [step, hc, hi, ht]
      rw [if_pos ⟨ho, by omega, fun _ => rfl⟩]
  cases hp : s.phase with
  | active ops =>
    cases ops with
    | nil => exact ⟨.unlock, { s with phase := .free, calls := s.calls.map (Call.wake s.content) }, trivial, by simp only [step, hp]⟩
    | cons f ops => exact ⟨.write, { s with content := f s.content, phase := .active ops }, trivial, by simp only [step, hp]⟩
  | announced ops =>
    cases hh : s.held with
    | false => exact ⟨.activate, { s with phase := .active ops }, trivial, by simp [step, hp, hh]⟩
    | true =>
      unfold State.held at hh
      rw [List.any_eq_true] at hh
      obtain ⟨call, hcall, hh⟩ := hh
      rw [List.any_eq_true] at hh
      obtain ⟨it, hm, ho⟩ := hh
      obtain ⟨c, hc⟩ := List.getElem?_of_mem hcall
      exact hit c call it hc hm ho
  | free =>
    by_cases hq : s.queue = []
    · have : ¬ ∀ call ∈ s.calls, call.todo = [] ∧ ∀ it ∈ call.its, it.isOpen = false :=
        fun h => hd ⟨hp, hq, h⟩
      rw [Classical.not_forall] at this
      obtain ⟨call, this⟩ := this
      rw [Classical.not_imp] at this
      obtain ⟨hcall, this⟩ := this
      obtain ⟨c, hc⟩ := List.getElem?_of_mem hcall
      by_cases ht : call.todo = []
      · have : ¬ ∀ it ∈ call.its, it.isOpen = false := fun h => this ⟨ht, h⟩
        rw [Classical.not_forall] at this
        obtain ⟨it, this⟩ := this
        rw [Classical.not_imp] at this
        exact hit c call it hc this.1 (by simpa using this.2)
      · have hw : call.waiting = false := by
          rw [Bool.eq_false_iff]
          exact fun hw => ((h c call hc).2 hw).2 hp
        refine ⟨.rlock c, s.setCall c (call.acquire s.content), trivial, ?_⟩
        simp only [step, hc, hp]
        rw [if_neg]
        rintro (h1 | h1)
        · exact ht (List.isEmpty_iff.mp h1)
        · rw [hw] at h1; simp at h1
    · cases hqq : s.queue with
      | nil => exact absurd hqq hq
      | cons ops rest =>
        exact ⟨.announce 0, { s with phase := .announced ops, queue := s.queue.eraseIdx 0 }, trivial, by simp [step, hp, hqq]⟩

/-- The work left for writers. -/
def wWork (s : State σ ρ) : Nat :=
  (s.queue.map (fun o => o.length + 3)).sum +
    (match s.phase with
     | .free => 0
     | .announced ops => ops.length + 2
     | .active ops => ops.length + 1)

/-- The work left for one iterator, for a given content. -/
def itWork (x : σ) (it : It σ ρ) : Nat :=
  if it.isOpen then (it.query x).1.length - it.pos + 1 else 0

/-- The work left for one read call. -/
def callWork (x : σ) (c : Call σ ρ) : Nat :=
  (c.todo.map (fun q => (q x).1.length + 3)).sum + (if c.waiting then 0 else 1) + (c.its.map (itWork x)).sum

/-- The work left for all readers. -/
def rWork (s : State σ ρ) : Nat := (s.calls.map (callWork s.content)).sum

theorem sum_set_lt {α : Type} (f : α → Nat) : ∀ (l : List α) (i : Nat) (x y : α), l[i]? = some x →
    f y < f x → ((l.set i y).map f).sum < (l.map f).sum := by
  intro l
  induction l with
  | nil => intro i x y h; simp at h
  | cons a l ih =>
    intro i x y h hf
    cases i with
    | zero =>
      simp only [List.getElem?_cons_zero, Option.some.injEq] at h
      subst h
      simp only [List.set_cons_zero, List.map_cons, List.sum_cons]
      omega
    | succ i =>
      simp only [List.getElem?_cons_succ] at h
      have := ih i x y h hf
      simp only [List.set_cons_succ, List.map_cons, List.sum_cons]
      omega

theorem sum_eraseIdx {α : Type} (f : α → Nat) : ∀ (l : List α) (i : Nat) (x : α), l[i]? = some x →
    ((l.eraseIdx i).map f).sum + f x = (l.map f).sum := by
  intro l
  induction l with
  | nil => intro i x h; simp at h
  | cons a l ih =>
    intro i x h
    cases i with
    | zero =>
      simp only [List.getElem?_cons_zero, Option.some.injEq] at h
      subst h
      simp only [List.eraseIdx_cons_zero, List.map_cons, List.sum_cons]
      omega
    | succ i =>
      simp only [List.getElem?_cons_succ] at h
      have := ih i x h
      simp only [List.eraseIdx_cons_succ, List.map_cons, List.sum_cons]
      omega

/-- Every action uses up work, writers' work first. -/
theorem work_decreases {s s' : State σ ρ} (l : Label σ ρ) (hw : Work l) (hs : step s l = some s') :
    Prod.Lex (· < ·) (· < ·) (wWork s', rWork s') (wWork s, rWork s) := by
  have hcall : ∀ (ci : Nat) (call0 y : Call σ ρ), s.calls[ci]? = some call0 →
      callWork s.content y < callWork s.content call0 →
      Prod.Lex (· < ·) (· < ·) (wWork (s.setCall ci y), rWork (s.setCall ci y)) (wWork s, rWork s) := by
    intro ci call0 y h0 hlt
    exact Prod.Lex.right _ (sum_set_lt _ _ _ _ _ h0 hlt)
  cases l with
  | newWriter o => exact hw.elim
  | newCall qs => exact hw.elim
  | cancel c => exact hw.elim
  | announce i =>
    simp only [step] at hs
    split at hs
    · rename_i ops hp hq
      obtain rfl := Option.some.inj hs
      apply Prod.Lex.left
      have := sum_eraseIdx (fun o : Writes σ => o.length + 3) s.queue i ops hq
      simp only [wWork, hp]
      omega
    · simp at hs
  | activate =>
    simp only [step] at hs
    split at hs
    · rename_i ops hp
      split at hs
      · simp at hs
      · obtain rfl := Option.some.inj hs
        apply Prod.Lex.left
        simp only [wWork, hp]
        omega
    · simp at hs
  | write =>
    simp only [step] at hs
    split at hs
    · rename_i f ops hp
      obtain rfl := Option.some.inj hs
      apply Prod.Lex.left
      simp only [wWork, hp, List.length_cons]
      omega
    · simp at hs
  | unlock =>
    simp only [step] at hs
    split at hs
    · rename_i hp
      obtain rfl := Option.some.inj hs
      apply Prod.Lex.left
      simp only [wWork, hp, List.length_nil]
      omega
    · simp at hs
  | rlock ci =>
    simp only [step] at hs
    split at hs
    · simp at hs
    · rename_i call0 h0
      split at hs
      · simp at hs
      · rename_i hne
        have hne' : call0.todo ≠ [] := fun h => hne (Or.inl (by rw [h]; rfl))
        have hwt : call0.waiting = false := by
          rw [Bool.eq_false_iff]
          exact fun h => hne (Or.inr h)
        split at hs
        · obtain rfl := Option.some.inj hs
          refine hcall ci call0 _ h0 ?_
          unfold Call.acquire
          split
          · rename_i hh; exact absurd hh hne'
          · rename_i q rest hh
            simp only [callWork, hh, hwt, List.map_append, List.sum_append, List.map_cons, List.map_nil,
              List.sum_cons, List.sum_nil, itWork, if_true]
            simp only [Bool.false_eq_true, if_false]
            omega
        · obtain rfl := Option.some.inj hs
          refine hcall ci call0 _ h0 ?_
          simp only [callWork, hwt]
          simp only [Bool.false_eq_true, if_false, if_true]
          omega
  | emit ci i =>
    simp only [step] at hs
    split at hs
    · simp at hs
    · rename_i call0 h0
      split at hs
      · simp at hs
      · rename_i it0 hi0
        split at hs
        · rename_i hcond
          split at hs
          · simp at hs
          · rename_i r hr
            obtain rfl := Option.some.inj hs
            refine hcall ci call0 _ h0 ?_
            have hlt := (List.getElem?_eq_some_iff.mp hr).1
            have := sum_set_lt (itWork s.content) call0.its i it0
              { it0 with pos := it0.pos + 1, out := it0.out ++ [r] } hi0 (by
                simp only [itWork, hcond.1, if_true]
                omega)
            exact Nat.add_lt_add_left this _
        · simp at hs
  | close ci i =>
    simp only [step] at hs
    split at hs
    · simp at hs
    · rename_i call0 h0
      split at hs
      · simp at hs
      · rename_i it0 hi0
        split at hs
        · rename_i hcond
          obtain rfl := Option.some.inj hs
          refine hcall ci call0 _ h0 ?_
          have := sum_set_lt (itWork s.content) call0.its i it0
            { it0 with isOpen := false, complete := true } hi0 (by
              simp only [itWork, hcond.1, if_true]
              simp only [Bool.false_eq_true, if_false]
              omega)
          exact Nat.add_lt_add_left this _
        · simp at hs

theorem lex_wf : WellFounded (Prod.Lex (· < ·) (· < ·) : Nat × Nat → Nat × Nat → Prop) :=
  (Prod.lex Nat.lt_wfRel Nat.lt_wfRel).wf

/-- **C24**, what holds. If every read call asks for at most one type (or stream, or all events), then in
no schedule do calls get stuck: while some call has not returned or some lock is held, somebody can go on;
nobody can go on forever; so everything gets done, whatever the scheduler does. (Writers and readers that
arrive later are covered by taking `ls` longer.) Missing: calls with several types, for which it is false. -/
theorem C24_partial (x : σ) (ls : List (Label σ ρ)) (s : State σ ρ) (hx : exec (init x) ls = some s)
    (h1 : ∀ qs, .newCall qs ∈ ls → qs.length ≤ 1) :
    (¬ AllDone s → ∃ l s', Work l ∧ step s l = some s') ∧
    (∃ ls' s', (∀ l ∈ ls', Work l) ∧ exec s ls' = some s' ∧ AllDone s') ∧
    ¬ ∃ f : Nat → State σ ρ, f 0 = s ∧ ∀ n, ∃ l, Work l ∧ step (f n) l = some (f (n + 1)) := by
  have hS : Single s := single_exec ls (by intro c call hc; simp [init] at hc) h1 hx
  refine ⟨progress hS, ?_, ?_⟩
  · have key : ∀ m : Nat × Nat, ∀ s : State σ ρ, (wWork s, rWork s) = m → Single s →
        ∃ ls' s', (∀ l ∈ ls', Work l) ∧ exec s ls' = some s' ∧ AllDone s' := by
      intro m
      induction m using lex_wf.induction with
      | _ m ih =>
        intro s hm hS
        by_cases hd : AllDone s
        · exact ⟨[], s, by simp, rfl, hd⟩
        · obtain ⟨l, s1, hw, h1⟩ := progress hS hd
          have hS1 : Single s1 := single_step hS l (by rintro qs rfl; exact hw.elim) h1
          obtain ⟨ls', s', e1, e2, e3⟩ := ih _ (hm ▸ work_decreases l hw h1) s1 rfl hS1
          exact ⟨l :: ls', s', by simpa using ⟨hw, e1⟩, by simp [exec, h1, e2], e3⟩
    exact key _ s rfl hS
  · rintro ⟨f, _, hf⟩
    have key : ∀ m : Nat × Nat, ∀ n, (wWork (f n), rWork (f n)) = m → False := by
      intro m
      induction m using lex_wf.induction with
      | _ m ih =>
        intro n hm
        obtain ⟨l, hw, h1⟩ := hf n
        exact ih _ (hm ▸ work_decreases l hw h1) (n + 1) rfl
    exact key _ 0 rfl

/-- Two readers and a writer, caught half-way. -/
example : (exec (init 5 : State Nat Nat) [.newCall [fun x => ([x, x], false)], .rlock 0,
    .newWriter [(· + 1)], .announce 0, .newCall [fun x => ([x], false)], .rlock 1, .emit 0 0, .emit 0 0,
    .close 0 0, .activate, .write, .unlock, .emit 1 0, .close 1 0]).map
      (fun s => (s.content, s.calls.map (fun c => c.its.map (·.out)))) = some (6, [[[5, 5]], [[6]]]) := by
  decide

/-! ## C54 -/

/-- Iterator 0 of call 0 waits for its error to be received. -/
def Hung (x : σ) (s : State σ ρ) : Prop :=
  s.content = x ∧ (∀ ops, s.phase ≠ .active ops) ∧
  ∃ call it, s.calls[0]? = some call ∧ call.its[0]? = some it ∧ it.isOpen = true ∧
    (it.query x).1.length ≤ it.pos ∧ call.todo = []

theorem hung_step {x : σ} {s s' : State σ ρ} (h : Hung x s) (l : Label σ ρ) (hl : l ≠ .close 0 0)
    (hs : step s l = some s') : Hung x s' := by
  obtain ⟨hx, hp, call, it, hc, hi, ho, hr, ht⟩ := h
  have hlt : 0 < s.calls.length := (List.getElem?_eq_some_iff.mp hc).1
  have hheld : s.held = true := by
    unfold State.held
    rw [List.any_eq_true]
    exact ⟨call, List.mem_of_getElem? hc, List.any_eq_true.mpr ⟨it, List.mem_of_getElem? hi, ho⟩⟩
  have hother : ∀ (ci : Nat) (y : Call σ ρ), ci ≠ 0 → Hung x (s.setCall ci y) := by
    intro ci y hne
    refine ⟨hx, hp, call, it, ?_, hi, ho, hr, ht⟩
    simp only [State.setCall]
    rw [List.getElem?_set_ne hne]
    exact hc
  have hself : ∀ (y : Call σ ρ), y.todo = call.todo → y.its[0]? = some it → Hung x (s.setCall 0 y) := by
    intro y h2 h3
    exact ⟨hx, hp, y, it, by simp [State.setCall, hlt], h3, ho, hr, by rw [h2]; exact ht⟩
  cases l with
  | newWriter o => simp only [step] at hs; obtain rfl := Option.some.inj hs; exact ⟨hx, hp, call, it, hc, hi, ho, hr, ht⟩
  | newCall qs =>
    simp only [step] at hs; obtain rfl := Option.some.inj hs
    exact ⟨hx, hp, call, it, by rw [List.getElem?_append_left hlt]; exact hc, hi, ho, hr, ht⟩
  | announce i =>
    simp only [step] at hs
    split at hs
    · obtain rfl := Option.some.inj hs
      exact ⟨hx, by simp, call, it, hc, hi, ho, hr, ht⟩
    · simp at hs
  | activate =>
    simp only [step] at hs
    split at hs
    · simp [hheld] at hs
    · simp at hs
  | write =>
    simp only [step] at hs
    split at hs
    · rename_i h; exact absurd h (hp _)
    · simp at hs
  | unlock =>
    simp only [step] at hs
    split at hs
    · rename_i h; exact absurd h (hp _)
    · simp at hs
  | rlock ci =>
    simp only [step] at hs
    split at hs
    · simp at hs
    · rename_i call0 h0
      by_cases hci : ci = 0
      · subst hci
        rw [hc] at h0
        obtain rfl := Option.some.inj h0
        simp [ht] at hs
      · split at hs
        · simp at hs
        · split at hs
          · obtain rfl := Option.some.inj hs
            exact hother ci _ hci
          · obtain rfl := Option.some.inj hs
            exact hother ci _ hci
  | emit ci i =>
    simp only [step] at hs
    split at hs
    · simp at hs
    · rename_i call0 h0
      split at hs
      · simp at hs
      · rename_i it0 hi0
        split at hs
        · split at hs
          · simp at hs
          · rename_i r hrr
            obtain rfl := Option.some.inj hs
            by_cases hci : ci = 0
            · subst hci
              rw [hc] at h0
              obtain rfl := Option.some.inj h0
              by_cases hii : i = 0
              · subst hii
                rw [hi] at hi0
                obtain rfl := Option.some.inj hi0
                have := (List.getElem?_eq_some_iff.mp hrr).1
                rw [hx] at this
                omega
              · apply hself
                · rfl
                · show (call.its.set i _)[0]? = some it
                  rw [List.getElem?_set_ne hii]
                  exact hi
            · exact hother ci _ hci
        · simp at hs
  | close ci i =>
    simp only [step] at hs
    split at hs
    · simp at hs
    · rename_i call0 h0
      split at hs
      · simp at hs
      · rename_i it0 hi0
        split at hs
        · obtain rfl := Option.some.inj hs
          by_cases hci : ci = 0
          · subst hci
            rw [hc] at h0
            obtain rfl := Option.some.inj h0
            by_cases hii : i = 0
            · subst hii
              exact absurd rfl hl
            · apply hself
              · rfl
              · show (call.its.set i _)[0]? = some it
                rw [List.getElem?_set_ne hii]
                exact hi
          · exact hother ci _ hci
        · simp at hs
  | cancel ci =>
    simp only [step] at hs
    split at hs
    · simp at hs
    · rename_i call0 h0
      obtain rfl := Option.some.inj hs
      by_cases hci : ci = 0
      · subst hci
        rw [hc] at h0
        obtain rfl := Option.some.inj h0
        apply hself
        · rfl
        · show (call.its.map _)[0]? = some it
          rw [List.getElem?_map, hi]
          simp only [Option.map_some, It.stop, hx]
          rw [if_neg (by omega)]
      · exact hother ci _ hci

theorem hung_exec {x : σ} (ls : List (Label σ ρ)) : ∀ {s s' : State σ ρ},
    Hung x s → .close 0 0 ∉ ls → exec s ls = some s' → Hung x s' := by
  induction ls with
  | nil => intro s s' h _ hs; simp only [exec] at hs; obtain rfl := Option.some.inj hs; exact h
  | cons l ls ih =>
    intro s s' h hn hs
    simp only [List.mem_cons, not_or] at hn
    simp only [exec] at hs
    split at hs
    · simp at hs
    · rename_i s1 h1
      exact ih (hung_step h l (fun h => hn.1 h.symm) h1) hn.2 hs

/-- **C54 is false** for a read that ends in an error (such as `EventsByStream` of a missing stream on the
LevelDB store, see `C54_leveldb`): if the consumer cancels its context instead of receiving the error
(`close 0 0`), the read lock is never released: no writer ever becomes active and the content never
changes again. -/
theorem C54_false (x : σ) (q : σ → List ρ × Bool) (hq : (q x).1 = []) :
    ∃ s, exec (init x) [.newCall [q], .rlock 0, .cancel 0] = some s ∧
      ∀ ls s', .close 0 0 ∉ ls → exec s ls = some s' →
        s'.content = x ∧ ∀ ops, s'.phase ≠ .active ops := by
  refine ⟨_, rfl, ?_⟩
  intro ls s' hn hs
  obtain ⟨h1, h2, _⟩ := hung_exec (x := x) ls (by
    refine ⟨rfl, by intro ops h; simp [State.setCall, init] at h, _, _, rfl, rfl, ?_, ?_, rfl⟩
    · simp [Call.acquire, It.stop, hq, init, State.setCall]
    · simp [Call.acquire, It.stop, hq, init, State.setCall]) hn hs
  exact ⟨h1, h2⟩

/-- `EventsByStream` on the LevelDB store. -/
def qStream (st : Str) (s : LD.State) : List Record × Bool :=
  match LD.eventsByStream Demo.demo s none 0 st with
  | .ok it => (it.recs, it.err.isSome)
  | _ => ([], false)

/-- `C54_false` on an empty LevelDB store: reading any stream and cancelling leaves the store read-only
for good. -/
theorem C54_leveldb (st : Str) :
    (qStream st LD.init).2 = true ∧
    ∃ s, exec (init LD.init) [.newCall [qStream st], .rlock 0, .cancel 0] = some s ∧
      ∀ ls s', .close 0 0 ∉ ls → exec s ls = some s' →
        s'.content = LD.init ∧ ∀ ops, s'.phase ≠ .active ops :=
  ⟨rfl, C54_false LD.init (qStream st) rfl⟩

/-- **C54**, what holds: cancelling the context of a read that does not end in an error frees the lock:
each of its iterators has ended, or ends without anybody receiving anything. Missing: reads that end in an
error, for which it is false. -/
theorem C54_partial (s s' : State σ ρ) (c : Nat) (call' : Call σ ρ)
    (hs : step s (.cancel c) = some s') (hc : s'.calls[c]? = some call')
    (i : Nat) (it : It σ ρ) (hi : call'.its[i]? = some it) (he : (it.query s.content).2 = false) :
    it.isOpen = false ∨ step s' (.close c i) = some (s'.setCall c (call'.setIt i
      { it with isOpen := false, complete := true })) := by
  simp only [step] at hs
  split at hs
  · simp at hs
  · rename_i call0 h0
    obtain rfl := Option.some.inj hs
    have hlt := (List.getElem?_eq_some_iff.mp h0).1
    have hc' := hc
    simp only [State.setCall, List.getElem?_set_self hlt, Option.some.injEq] at hc'
    subst hc'
    have hi' := hi
    simp only [List.getElem?_map, Option.map_eq_some_iff] at hi'
    obtain ⟨it0, _, hst⟩ := hi'
    by_cases hlen : it0.pos < (it0.query s.content).1.length
    · left
      rw [It.stop, if_pos hlen] at hst
      subst hst
      rfl
    · rw [It.stop, if_neg hlen] at hst
      subst hst
      cases ho : it0.isOpen with
      | false => exact Or.inl rfl
      | true =>
        right
        simp only [step, hc, hi]
        rw [if_pos]
        refine ⟨ho, ?_, ?_⟩
        · show (it0.query s.content).1.length ≤ it0.pos
          omega
        · intro h
          have : (it0.query s.content).2 = true := h
          rw [he] at this
          simp at this

end RangeDB.Lock

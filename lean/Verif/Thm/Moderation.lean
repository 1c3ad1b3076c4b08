import Verif.Model.Moderation
import Verif.Thm.Constants

/-!
# The chat application answers restricted words: C104
-/

namespace RangeDB.Mod

open Chat

/-! ## Specification -/

/-- A message of the user with a restricted word. -/
def IsRestricted (u : Str) : Ev → Bool
  | .messageWasSentToRoom _ v m => decide (v = u) && containsRestrictedWord m
  | _ => false

/-- A warning of the user. -/
def IsWarning (u : Str) : Ev → Bool
  | .userWasWarned v _ => decide (v = u)
  | _ => false

/-- A ban of the user. -/
def IsBan (u : Str) : Ev → Bool
  | .userWasBannedFromRoom _ v _ _ => decide (v = u)
  | _ => false

/-- Both subscribers have received everything and the processor is done. -/
def AtRest (s : State) : Prop := s.warnAt = s.log.length ∧ s.procAt = some s.log.length ∧ s.todo = []

/-- Only the processor warns and bans, and the program is not restarted. -/
def Plain (ls : List Label) : Prop :=
  (∀ e, Label.save e ∈ ls → ∀ u, IsWarning u e = false ∧ IsBan u e = false) ∧ Label.restart ∉ ls

/-- The program is started on an empty store. -/
def init : State := { start [] with procAt := some 0 }

/-- The full claim of **C104**: at rest each user has been warned for the first two messages with a restricted
word and banned for every later one. -/
def C104_full : Prop :=
  ∀ (ls : List Label) (s : State), Plain ls → exec init ls = some s → AtRest s → ∀ u,
    s.log.countP (IsWarning u) = min 2 (s.log.countP (IsRestricted u)) ∧
    s.log.countP (IsBan u) = s.log.countP (IsRestricted u) - 2

/-- "golly" -/
def golly : Ev := .messageWasSentToRoom [82] [85] [103, 111, 108, 108, 121]

/-- Three messages; the processor handles all of them before the projection has received the first warning. -/
def slow : List Label :=
  [.save golly, .save golly, .save golly, .proc, .dispatch, .dispatch, .proc, .dispatch, .dispatch, .proc, .dispatch,
   .dispatch] ++ List.replicate 6 .proc ++ List.replicate 9 .warn

/-- **C104 is false in full**: three warnings and no ban. -/
theorem C104_false : ¬ C104_full := by
  intro h
  have := (h slow ((exec init slow).get (by decide)) ?_ (by simp) ?_ [85]).2
  · revert this
    decide
  · refine ⟨?_, by simp [slow]⟩
    intro e he u
    simp [slow] at he
    subst he
    exact ⟨rfl, rfl⟩
  · unfold AtRest
    decide

/-! ## What holds -/

theorem accept_owed (u : Str) (w : Str → Nat) (e : Ev) :
    ((accept w e).flatMap raised).countP (IsWarning u) = (if IsRestricted u e ∧ w u < 2 then 1 else 0) ∧
    ((accept w e).flatMap raised).countP (IsBan u) = (if IsRestricted u e ∧ 2 ≤ w u then 1 else 0) ∧
    ((accept w e).flatMap raised).countP (IsRestricted u) = 0 := by
  cases e with
  | messageWasSentToRoom r v m =>
    by_cases hm : containsRestrictedWord m = true
    · by_cases hw : w v ≥ warnThreshold
      · have hw2 : 2 ≤ w v := hw
        by_cases hu : v = u
        · subst hu
          have : ¬ w v < 2 := by omega
          simp [accept, hm, hw, hw2, this, raised, IsRestricted, IsWarning, IsBan]
        · simp [accept, hm, hw, raised, IsRestricted, IsWarning, IsBan, hu]
      · have hw2 : ¬ 2 ≤ w v := hw
        by_cases hu : v = u
        · subst hu
          have : w v < 2 := by omega
          simp [accept, hm, hw, hw2, this, raised, IsRestricted, IsWarning, IsBan]
        · simp [accept, hm, hw, raised, IsRestricted, IsWarning, IsBan, hu]
    · simp [accept, hm, IsRestricted]
  | _ => simp [accept, IsRestricted]

theorem count_tally (u : Str) (es : List Ev) : tally es u = es.countP (IsWarning u) := by
  have key : ∀ (es : List Ev) (w : Str → Nat), es.foldl count w u = w u + es.countP (IsWarning u) := by
    intro es
    induction es with
    | nil => intro w; simp
    | cons e es ih =>
      intro w
      rw [List.foldl_cons, ih, List.countP_cons]
      cases e with
      | userWasWarned v r =>
        by_cases hu : u = v
        · subst hu; simp [count, IsWarning]; omega
        · have : ¬ v = u := fun e => hu e.symm
          simp [count, IsWarning, hu, this]
      | _ => simp [count, IsWarning]
  unfold tally
  rw [key]
  omega

theorem count_step (w : Str → Nat) (e : Ev) (u : Str) : count w e u = w u + (if IsWarning u e then 1 else 0) := by
  cases e with
  | userWasWarned v r =>
    by_cases hu : u = v
    · subst hu; simp [count, IsWarning]
    · have : ¬ v = u := fun e => hu e.symm
      simp [count, IsWarning, hu, this]
  | _ => simp [count, IsWarning]

/-- The projection knows a beginning of the log. -/
def Known (s : State) : Prop :=
  s.warnAt ≤ s.log.length ∧ ∀ u, s.warnings u = (s.log.take s.warnAt).countP (IsWarning u)

theorem known_step {s s' : State} (h : Known s) (l : Label) (hs : step s l = some s') : Known s' := by
  obtain ⟨h1, h2⟩ := h
  cases l with
  | save e =>
    simp only [step, Option.some.injEq] at hs; subst hs
    refine ⟨by simp; omega, fun u => ?_⟩
    rw [List.take_append_of_le_length h1]; exact h2 u
  | register =>
    simp only [step] at hs
    split at hs
    · simp only [Option.some.injEq] at hs; subst hs; exact ⟨h1, h2⟩
    · cases hs
  | warn =>
    simp only [step] at hs
    split at hs
    · rename_i e he
      simp only [Option.some.injEq] at hs; subst hs
      have hlt := (List.getElem?_eq_some_iff.mp he).1
      refine ⟨hlt, fun u => ?_⟩
      show count s.warnings e u = List.countP (IsWarning u) (List.take (s.warnAt + 1) s.log)
      rw [count_step, h2 u, List.take_add_one, he, List.countP_append]
      simp [List.countP_cons]
    · cases hs
  | proc =>
    simp only [step] at hs
    split at hs
    · split at hs
      · simp only [Option.some.injEq] at hs; subst hs; exact ⟨h1, h2⟩
      · cases hs
    · cases hs
  | dispatch =>
    simp only [step] at hs
    split at hs
    · simp only [Option.some.injEq] at hs; subst hs
      refine ⟨by simp; omega, fun u => ?_⟩
      rw [List.take_append_of_le_length h1]; exact h2 u
    · cases hs
  | restart =>
    simp only [step, Option.some.injEq] at hs; subst hs
    refine ⟨Nat.le_refl _, fun u => ?_⟩
    simp only [start, List.take_length]
    exact count_tally u s.log

theorem known_init : Known init := ⟨Nat.le_refl _, fun _ => rfl⟩

theorem exec_inv {P : State → Prop} (hP : ∀ s s' l, P s → step s l = some s' → P s') (ls : List Label) :
    ∀ {s s' : State}, P s → exec s ls = some s' → P s' := by
  induction ls with
  | nil => intro s s' h hs; simp only [exec, Option.some.injEq] at hs; subst hs; exact h
  | cons l ls ih =>
    intro s s' h hs
    simp only [exec] at hs
    split at hs
    · cases hs
    · rename_i s1 h1
      exact ih (hP _ _ l h h1) hs

/-- Nobody is banned without two warnings before. -/
structure Fair (s : State) : Prop where
  known : Known s
  todo : ∀ u, (s.todo.flatMap raised).countP (IsBan u) ≠ 0 → 2 ≤ s.log.countP (IsWarning u)
  log : ∀ pre e post u, s.log = pre ++ e :: post → IsBan u e = true → 2 ≤ pre.countP (IsWarning u)

theorem fair_append {log es : List Ev} (h : ∀ pre e post u, log = pre ++ e :: post → IsBan u e = true →
    2 ≤ pre.countP (IsWarning u)) (he : ∀ e ∈ es, ∀ u, IsBan u e = true → 2 ≤ log.countP (IsWarning u)) :
    ∀ pre e post u, log ++ es = pre ++ e :: post → IsBan u e = true → 2 ≤ pre.countP (IsWarning u) := by
  intro pre e post u heq hb
  rcases List.append_eq_append_iff.mp heq with ⟨as, h1, h2⟩ | ⟨bs, h1, h2⟩
  · rw [h1, List.countP_append]
    have := he e (by rw [h2]; simp) u hb
    omega
  · cases bs with
    | nil =>
      simp only [List.nil_append] at h2
      rw [List.append_nil] at h1
      rw [← h1]
      exact he e (by rw [← h2]; simp) u hb
    | cons b bs =>
      simp only [List.cons_append, List.cons.injEq] at h2
      obtain ⟨rfl, rfl⟩ := h2
      exact h pre e bs u h1 hb

/-- **C104, nobody is banned too early** (every schedule, with restarts, if nobody else bans): before every ban
of a user in the log there are two warnings of that user. -/
theorem C104_fair (ls : List Label) (s : State) (hb : ∀ e, Label.save e ∈ ls → ∀ u, IsBan u e = false)
    (hx : exec init ls = some s) (pre post : List Ev) (e : Ev) (u : Str) (hlog : s.log = pre ++ e :: post)
    (he : IsBan u e = true) : 2 ≤ pre.countP (IsWarning u) := by
  suffices h : ∀ (ls : List Label) (s s' : State), (∀ e, Label.save e ∈ ls → ∀ u, IsBan u e = false) → Fair s →
      exec s ls = some s' → Fair s' from
    (h ls init s hb ⟨known_init, by simp [init, start], by intro p e q u h; simp [init, start] at h⟩ hx).log
      pre e post u hlog he
  intro ls
  induction ls with
  | nil => intro s s' _ h hs; simp only [exec, Option.some.injEq] at hs; subst hs; exact h
  | cons l ls ih =>
    intro s s' hb h hs
    simp only [exec] at hs
    split at hs
    · cases hs
    · rename_i s1 h1
      refine ih s1 s' (fun e he => hb e (List.mem_cons_of_mem _ he)) ?_ hs
      have hk := known_step h.known l h1
      cases l with
      | save e =>
        simp only [step, Option.some.injEq] at h1; subst h1
        refine ⟨hk, fun u hu => ?_, ?_⟩
        · have := h.todo u hu
          simp only [List.countP_append]; omega
        · refine fair_append h.log ?_
          intro e' he' u hu
          simp only [List.mem_singleton] at he'
          subst he'
          rw [hb e' (by simp) u] at hu
          cases hu
      | register =>
        simp only [step] at h1
        split at h1
        · simp only [Option.some.injEq] at h1; subst h1; exact ⟨hk, h.todo, h.log⟩
        · cases h1
      | warn =>
        simp only [step] at h1
        split at h1
        · simp only [Option.some.injEq] at h1; subst h1; exact ⟨hk, h.todo, h.log⟩
        · cases h1
      | proc =>
        simp only [step] at h1
        split at h1
        · split at h1
          · rename_i e _
            simp only [Option.some.injEq] at h1; subst h1
            refine ⟨hk, fun u hu => ?_, h.log⟩
            rw [(accept_owed u s.warnings e).2.1] at hu
            split at hu
            · rename_i hc
              have h2 := h.known.2 u
              have h3 : (s.log.take s.warnAt).countP (IsWarning u) ≤ s.log.countP (IsWarning u) :=
                (List.take_sublist _ _).countP_le
              show 2 ≤ s.log.countP (IsWarning u)
              omega
            · exact absurd rfl hu
          · cases h1
        · cases h1
      | dispatch =>
        simp only [step] at h1
        split at h1
        · rename_i c cs hc
          simp only [Option.some.injEq] at h1; subst h1
          have ht := h.todo
          rw [hc] at ht
          simp only [List.flatMap_cons, List.countP_append] at ht
          refine ⟨hk, fun u hu => ?_, ?_⟩
          · have hu : (cs.flatMap raised).countP (IsBan u) ≠ 0 := hu
            have := ht u (by omega)
            simp only [List.countP_append]; omega
          · refine fair_append h.log ?_
            intro e he u hu
            apply ht u
            have : 0 < (raised c).countP (IsBan u) := List.countP_pos_iff.mpr ⟨e, he, hu⟩
            omega
        · cases h1
      | restart =>
        simp only [step, Option.some.injEq] at h1; subst h1
        exact ⟨hk, by simp [start], h.log⟩

/-- The projection is up to date whenever the processor receives an event. -/
def InStep (s : State) (ls : List Label) : Prop :=
  ∀ pre post s', ls = pre ++ .proc :: post → exec s pre = some s' → s'.warnAt = s'.log.length

/-- Every message with a restricted word is answered; in step, as it should be. -/
structure Answered (sync : Prop) (s : State) : Prop where
  known : Known s
  at' : ∃ i, s.procAt = some i ∧ i ≤ s.log.length ∧ ∀ u,
    s.log.countP (IsWarning u) + s.log.countP (IsBan u) + (s.todo.flatMap raised).countP (IsWarning u)
      + (s.todo.flatMap raised).countP (IsBan u) = (s.log.take i).countP (IsRestricted u) ∧
    (sync → s.log.countP (IsWarning u) + (s.todo.flatMap raised).countP (IsWarning u) =
      min 2 ((s.log.take i).countP (IsRestricted u)))

theorem InStep.tail {s s1 : State} {l : Label} {ls : List Label} (h : InStep s (l :: ls)) (h1 : step s l = some s1) :
    InStep s1 ls := by
  intro pre post s' he hx
  refine h (l :: pre) post s' (by rw [he]; rfl) ?_
  simp only [exec, h1]
  exact hx

theorem answered_exec (sync : Prop) (ls : List Label) : ∀ (s s' : State), Plain ls → (sync → InStep s ls) →
    Answered sync s → exec s ls = some s' → Answered sync s' := by
  induction ls with
  | nil => intro s s' _ _ h hs; simp only [exec, Option.some.injEq] at hs; subst hs; exact h
  | cons l ls ih =>
    intro s s' hpl hin h hs
    simp only [exec] at hs
    split at hs
    · cases hs
    · rename_i s1 h1
      refine ih s1 s' ⟨fun e he => hpl.1 e (List.mem_cons_of_mem _ he), fun he => hpl.2 (List.mem_cons_of_mem _ he)⟩
        (fun hy => (hin hy).tail h1) ?_ hs
      have hk := known_step h.known l h1
      obtain ⟨i, hi, hle, hc⟩ := h.at'
      cases l with
      | save e =>
        simp only [step, Option.some.injEq] at h1; subst h1
        refine ⟨hk, i, hi, by simp; omega, fun u => ?_⟩
        have hw := hpl.1 e (by simp) u
        have h0 := hc u
        simp only [List.countP_append, List.countP_cons, hw.1, hw.2, List.countP_nil,
          List.take_append_of_le_length hle]
        simpa using h0
      | register =>
        simp only [step] at h1
        rw [if_neg (by rw [hi]; simp)] at h1
        cases h1
      | warn =>
        simp only [step] at h1
        split at h1
        · simp only [Option.some.injEq] at h1; subst h1; exact ⟨hk, i, hi, hle, hc⟩
        · cases h1
      | proc =>
        simp only [step] at h1
        split at h1
        · rename_i j hj ht
          split at h1
          · rename_i e he
            have hij : j = i := by rw [hi] at hj; exact (Option.some.inj hj).symm
            subst hij
            simp only [Option.some.injEq] at h1; subst h1
            have hlt := (List.getElem?_eq_some_iff.mp he).1
            refine ⟨hk, j + 1, rfl, hlt, fun u => ?_⟩
            obtain ⟨o1, o2, o3⟩ := accept_owed u s.warnings e
            have h0 := hc u
            rw [ht] at h0
            simp only [List.flatMap_nil, List.countP_nil, Nat.add_zero] at h0
            have htk : (s.log.take (j + 1)).countP (IsRestricted u) =
                (s.log.take j).countP (IsRestricted u) + (if IsRestricted u e then 1 else 0) := by
              rw [List.take_add_one, he, List.countP_append]
              simp [List.countP_cons]
            show _ ∧ _
            simp only [htk, o1, o2]
            refine ⟨?_, fun hy => ?_⟩
            · have h0 := h0.1
              by_cases hr : IsRestricted u e = true
              · by_cases hw : s.warnings u < 2
                · have : ¬ 2 ≤ s.warnings u := by omega
                  simp [hr, hw, this]; omega
                · have : 2 ≤ s.warnings u := by omega
                  simp [hr, hw, this]; omega
              · simp [hr]; omega
            · have h2 := h0.2 hy
              have hw := h.known.2 u
              rw [hin hy [] ls s rfl rfl, List.take_length] at hw
              by_cases hr : IsRestricted u e = true
              · by_cases hw2 : s.warnings u < 2
                · simp [hr, hw2]; omega
                · simp [hr, hw2]; omega
              · simp [hr]; omega
          · cases h1
        · cases h1
      | dispatch =>
        simp only [step] at h1
        split at h1
        · rename_i c cs hcs
          simp only [Option.some.injEq] at h1; subst h1
          refine ⟨hk, i, hi, by simp; omega, fun u => ?_⟩
          have h0 := hc u
          rw [hcs] at h0
          simp only [List.flatMap_cons, List.countP_append] at h0
          simp only [List.countP_append, List.take_append_of_le_length hle]
          refine ⟨by have := h0.1; omega, fun hy => by have := h0.2 hy; omega⟩
        · cases h1
      | restart => exact absurd (by simp) hpl.2

theorem answered_init (sync : Prop) : Answered sync init :=
  ⟨known_init, 0, rfl, Nat.zero_le _, fun _ => by simp [init, start]⟩

/-- **C104 (partial).** If only the processor warns and bans and the program is not restarted, then in every
schedule, at rest: every message with a restricted word has been answered by exactly one warning or ban. If
moreover the projection is up to date whenever the processor receives an event, the first two are warnings and
all others are bans. Missing: a projection that is behind (`C104_false`), a restart (`C104_restart`). -/
theorem C104_partial (ls : List Label) (s : State) (hp : Plain ls) (hx : exec init ls = some s) (hr : AtRest s)
    (u : Str) :
    s.log.countP (IsWarning u) + s.log.countP (IsBan u) = s.log.countP (IsRestricted u) ∧
    (InStep init ls → s.log.countP (IsWarning u) = min 2 (s.log.countP (IsRestricted u)) ∧
      s.log.countP (IsBan u) = s.log.countP (IsRestricted u) - 2) := by
  obtain ⟨_, i, hi, _, hc⟩ := answered_exec (InStep init ls) ls init s hp (fun h => h) (answered_init _) hx
  obtain ⟨_, r2, r3⟩ := hr
  rw [r2] at hi
  obtain rfl := Option.some.inj hi
  have h0 := hc u
  rw [r3] at h0
  simp only [List.flatMap_nil, List.countP_nil, Nat.add_zero, List.take_length] at h0
  refine ⟨h0.1, fun hy => ?_⟩
  have := h0.2 hy
  refine ⟨this, ?_⟩
  have := h0.1
  omega

/-- Three messages, each handled when the projection is up to date: two warnings and a ban. -/
def prompt : List Label :=
  [.save golly, .warn, .proc, .dispatch, .dispatch, .warn, .warn, .proc, .proc,
   .save golly, .warn, .proc, .dispatch, .dispatch, .warn, .warn, .proc, .proc,
   .save golly, .warn, .proc, .dispatch, .dispatch, .warn, .warn, .proc, .proc]

example : ∃ s, exec init prompt = some s ∧ AtRest s ∧ s.log.countP (IsWarning [85]) = 2 ∧
    s.log.countP (IsBan [85]) = 1 ∧ s.log.countP (IsRestricted [85]) = 3 :=
  ⟨(exec init prompt).get (by decide), by simp, by unfold AtRest; decide, by decide, by decide, by decide⟩

/-- **C104, a restart**: a message that was sent but not yet handled when the program ends is never answered; and
a user who was removed from the room is not banned if the program ends between the two commands. -/
theorem C104_restart :
    (∃ s, exec init [.save golly, .restart, .register] = some s ∧ AtRest s ∧
      s.log.countP (IsRestricted [85]) = 1 ∧ s.log.countP (IsWarning [85]) = 0 ∧ s.log.countP (IsBan [85]) = 0) ∧
    ∃ s, exec init [.save (.userWasWarned [85] []), .save (.userWasWarned [85] []), .warn, .warn, .proc, .proc,
        .save golly, .proc, .dispatch, .restart, .register] = some s ∧ AtRest s ∧
      .userWasRemovedFromRoom [82] [85] language ∈ s.log ∧ s.log.countP (IsBan [85]) = 0 :=
  ⟨⟨_, rfl, by unfold AtRest; decide, by decide, by decide, by decide⟩,
   ⟨_, rfl, by unfold AtRest; decide, by decide, by decide⟩⟩

/-- The hypotheses of `C104_fair` are met with a ban in the log. -/
example : ∃ s pre post e, exec init prompt = some s ∧ s.log = pre ++ e :: post ∧ IsBan [85] e = true := by
  refine ⟨(exec init prompt).get (by decide), ((exec init prompt).get (by decide)).log.take 8, [],
    .userWasBannedFromRoom [82] [85] language 3600, by simp, by decide, by decide⟩

end RangeDB.Mod

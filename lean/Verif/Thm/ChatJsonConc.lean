import Verif.Thm.ChatJson

/-!
# The chat example with the JSON serializer and overlapping commands (C127)
-/

namespace RangeDB.Chat

open RangeDB.Json RangeDB.Cqrs

/-- A step of goroutines whose commands have UTF-8 texts. Others may use the store as in `GoodItem`. -/
def GoodStep : SysStep Cmd → Prop
  | .call _ _ c => c.ev.Textual
  | .save _ t => GoodStamp t
  | .restart _ => True
  | .other op => GoodItem (.other op)

/-- How many events it can add. -/
def stepSize : SysStep Cmd → Nat
  | .save .. => 1
  | .other op => op.size
  | _ => 0

/-- Every event that is waiting to be saved has UTF-8 texts. -/
def PendingGood (S : Sys Which Obj) : Prop :=
  ∀ g, ∀ e ∈ S.pending g, ∃ ev : Ev, ev.Textual ∧ e = chatC.event ev

theorem sys_congr_step {N : Nat} {S : Sys Which Obj} (st : SysStep Cmd) (hg : GoodStep st)
    (ht : ∀ p, Typed (S.objs p)) (hp : PendingGood S) (hu : Upto N S.store) (hN : N + stepSize st < 2 ^ 64) :
    Sys.step (app chatC) zChat S st = Sys.step (app chatC) (goodZ chatTypes) S st ∧
    (∀ p, Typed ((Sys.step (app chatC) (goodZ chatTypes) S st).objs p)) ∧
    PendingGood (Sys.step (app chatC) (goodZ chatTypes) S st) ∧
    Upto (N + stepSize st) (Sys.step (app chatC) (goodZ chatTypes) S st).store := by
  cases st with
  | call p g c =>
    have hd := decideEvents_deser (S.objs p) S.store c
    simp only [Sys.step, hd]
    by_cases hi : S.pending g = []
    · simp only [if_pos hi]
      refine ⟨trivial, ?_, ?_, hu⟩
      · intro q
        by_cases hq : q = p
        · simp only [if_pos hq]; exact decide_typed (ht p) _ _
        · simp only [if_neg hq]; exact ht q
      · intro h e he
        by_cases hh : h = g
        · simp only [if_pos hh] at he
          rcases decide_le_one (C := chatC) (z := goodZ chatTypes) (ht p) S.store c with h1 | h1
          · rw [h1] at he; simp at he
          · rw [h1] at he
            simp only [List.mem_singleton] at he
            exact ⟨c.ev, hg, he⟩
        · simp only [if_neg hh] at he
          exact hp h e he
    · simp only [if_neg hi]
      exact ⟨trivial, ht, hp, hu⟩
  | save g t =>
    cases hpd : S.pending g with
    | nil =>
      simp only [Sys.step, hpd]
      exact ⟨trivial, ht, hp, upto_mono hu (by simp [stepSize])⟩
    | cons e es =>
      obtain ⟨ev, hev, rfl⟩ := hp g e (by rw [hpd]; simp)
      have h1 : saveOne zChat S.store t (chatC.event ev) = saveOne (goodZ chatTypes) S.store t (chatC.event ev) :=
        im_saveEvents_congr hu (stream_valid hev) none none _
          (by intro er her; simp only [List.mem_singleton] at her; subst her; exact goodEvent hev hg)
          (by simpa [stepSize] using hN)
      simp only [Sys.step, hpd, h1]
      refine ⟨trivial, ht, ?_, ?_⟩
      · intro h e' he'
        by_cases hh : h = g
        · simp only [if_pos hh] at he'
          exact hp g e' (by rw [hpd]; exact List.mem_cons_of_mem _ he')
        · simp only [if_neg hh] at he'
          exact hp h e' he'
      · exact im_saveEvents_upto hu _ none none [_]
  | restart p =>
    refine ⟨rfl, ?_, hp, hu⟩
    intro q
    simp only [Sys.step]
    split
    · exact fresh_typed
    · exact ht q
  | other op =>
    have := im_foldl_congr [op] N S.store hu (by intro o ho; simp only [List.mem_singleton] at ho; subst ho; exact hg.1)
      (by simp only [stepSize] at hN; simpa using hN)
    simp only [List.foldl_cons, List.foldl_nil, List.map_cons, List.map_nil, List.sum_cons, List.sum_nil,
      Nat.add_zero] at this
    exact ⟨by simp only [Sys.step, this.1], ht, hp, this.2⟩

theorem sys_congr (steps : List (SysStep Cmd)) (hg : ∀ st ∈ steps, GoodStep st)
    (hb : (steps.map stepSize).sum < 2 ^ 64) :
    Sys.run (app chatC) zChat steps = Sys.run (app chatC) (goodZ chatTypes) steps ∧
      PendingGood (Sys.run (app chatC) (goodZ chatTypes) steps) ∧
      Upto (steps.map stepSize).sum (Sys.run (app chatC) (goodZ chatTypes) steps).store := by
  have key : ∀ (steps : List (SysStep Cmd)) (N : Nat) (S : Sys Which Obj), (∀ st ∈ steps, GoodStep st) →
      (∀ p, Typed (S.objs p)) → PendingGood S → Upto N S.store → N + (steps.map stepSize).sum < 2 ^ 64 →
      steps.foldl (Sys.step (app chatC) zChat) S = steps.foldl (Sys.step (app chatC) (goodZ chatTypes)) S ∧
      PendingGood (steps.foldl (Sys.step (app chatC) (goodZ chatTypes)) S) ∧
      Upto (N + (steps.map stepSize).sum) (steps.foldl (Sys.step (app chatC) (goodZ chatTypes)) S).store := by
    intro steps
    induction steps with
    | nil => intro N S _ _ hp hu _; exact ⟨rfl, hp, by simpa using hu⟩
    | cons st steps ih =>
      intro N S hg ht hp hu hb
      simp only [List.map_cons, List.sum_cons] at hb ⊢
      obtain ⟨h1, h2, h3, h4⟩ := sys_congr_step st (hg st (by simp)) ht hp hu (by omega)
      rw [List.foldl_cons, List.foldl_cons, h1]
      have := ih (N + stepSize st) _ (fun x hx => hg x (by simp [hx])) h2 h3 h4 (by omega)
      rw [Nat.add_assoc] at this
      exact this
  have := key steps 0 (Sys.init (app chatC)) hg (fun _ => fresh_typed) (by intro g e he; simp [Sys.init] at he)
    upto_init (by omega)
  rw [Nat.zero_add] at this
  exact this

theorem sguarded_of {st : SysStep Cmd} (h : GoodStep st) : st.Guarded (goodZ chatTypes) := by
  cases st with
  | call => trivial
  | save => trivial
  | restart => trivial
  | other op => exact guarded_of (it := .other op) h

/-- **C127 (partial)**, commands that overlap: however the steps of the goroutines of any number of processes
interleave, a goroutine that saves its next event reports it and the event's stream shows it, exactly as it was raised,
at the end of what it showed before; no other stream changes. -/
theorem C127_overlap_partial (steps : List (SysStep Cmd)) (hg : ∀ st ∈ steps, GoodStep st)
    (hb : (steps.map stepSize).sum + 1 < 2 ^ 64) (g : Nat) (t : Stamp) (hs : GoodStamp t) (e : Event) (es : List Event) :
    let S := Sys.run (app chatC) zChat steps
    let S' := Sys.run (app chatC) zChat (steps ++ [.save g t])
    S.pending g = e :: es →
      ∃ ev : Ev, e = chatC.event ev ∧ S'.saved g = S.saved g ++ [e] ∧ S'.pending g = es ∧
        ∀ st, shown S'.store st = shown S.store st ++ (if st = getStream ev.aggType ev.aggId then [some ev] else []) := by
  intro S S' hpd
  obtain ⟨h1, h2, h3⟩ := sys_congr steps hg (by omega)
  have hS : S = Sys.run (app chatC) (goodZ chatTypes) steps := h1
  have h2 : PendingGood S := by rw [hS]; exact h2
  have h3 : Upto (steps.map stepSize).sum S.store := by rw [hS]; exact h3
  obtain ⟨L, hL⟩ : ∃ L, Inv (goodZ chatTypes) S.store L := by
    rw [hS]; exact sys_inv (goodZ_lawful chatTypes) (app chatC) steps (fun st hst => sguarded_of (hg st hst))
  have hS' : S' = Sys.step (app chatC) zChat S (.save g t) := by
    show Sys.run (app chatC) zChat (steps ++ [.save g t]) = _
    simp only [Sys.run, List.foldl_append, List.foldl_cons, List.foldl_nil]
    rfl
  obtain ⟨ev, hev, rfl⟩ := h2 g e (by rw [hpd]; simp)
  have hsave : saveOne zChat S.store t (chatC.event ev) = saveOne (goodZ chatTypes) S.store t (chatC.event ev) :=
    im_saveEvents_congr h3 (stream_valid hev) none none _
      (by intro er her; simp only [List.mem_singleton] at her; subst her; exact goodEvent hev hs) (by simpa using hb)
  have hshown : ∀ (s : IM.State) (M : Log), Inv (goodZ chatTypes) s M → ∀ st, shown s st = (M.stream st).map chatC.dec := by
    intro s M hM st
    unfold shown
    rw [eventsByStream_deser, stream_recs hM]
  refine ⟨ev, rfl, ?_⟩
  rw [hS']
  simp only [Sys.step, hpd, hsave]
  rcases saveOne_spec (goodZ_lawful chatTypes) hL t (chatC.event ev) with ⟨_, i2, i3⟩ | ⟨i1, _, _⟩
  · simp only [i2, if_true, true_and]
    intro st
    rw [hshown _ _ i3, hshown _ _ hL]
    by_cases hst : st = getStream ev.aggType ev.aggId
    · subst hst
      rw [if_pos rfl]
      have := Log.stream_append_self (goodZ_lawful chatTypes) L (getStream ev.aggType ev.aggId)
        [toRecord t (chatC.event ev)]
      simp only [Codec.event] at this ⊢
      rw [this, List.map_append]
      congr 1
      simp only [numbered, List.map_cons, List.map_nil, List.cons.injEq, and_true]
      exact chatC_lawful (z := goodZ chatTypes) rfl ev _ _ _ _ hev
    · rw [if_neg hst, List.append_nil]
      exact congrArg _ (Log.stream_append_other (goodZ_lawful chatTypes) L _ hst)
  · exfalso
    have h4 := hL.2.gsn
    have h5 := hL.2.streamSeq (getStream ev.aggType ev.aggId)
    have h6 := h3.1
    have h7 := h3.2 (getStream ev.aggType ev.aggId)
    have h8 := goodZ_isSome (goodEvent hev hs) (stream_valid hev) (g := L.last + 1)
      (q := L.streamLen (getStream ev.aggType ev.aggId) + 1) (by rw [← h4]; omega)
      (by rw [← h5]; unfold IM.streamSeq; omega)
    simp only [Codec.event] at i1 h8
    rw [h8] at i1
    exact absurd i1 (by decide)

/-- **C127 (partial)**: once the stream of a room shows the ban of a user, a `JoinRoom` of that user that starts
afterwards raises nothing, in any process and whatever overlaps (C46 for the JSON texts), as long as nobody deletes the
stream. -/
theorem C127_banned_partial (steps₁ steps₂ : List (SysStep Cmd)) (hg : ∀ st ∈ steps₁ ++ steps₂, GoodStep st)
    (hb : ((steps₁ ++ steps₂).map stepSize).sum < 2 ^ 64) (room user rm reason : Str) (timeout : Nat)
    (hban : some (.userWasBannedFromRoom rm user reason timeout) ∈
      shown (Sys.run (app chatC) zChat steps₁).store (roomStream room))
    (hkeep : ∀ op, SysStep.other op ∈ steps₂ → keeps (roomStream room) op)
    (p g : Nat) (hidle : (Sys.run (app chatC) zChat (steps₁ ++ steps₂)).pending g = []) :
    (Sys.run (app chatC) zChat (steps₁ ++ steps₂ ++ [.call p g (.joinRoom room user)])).pending g = [] := by
  have hb1 : (steps₁.map stepSize).sum < 2 ^ 64 := by
    simp only [List.map_append, List.sum_append] at hb; omega
  obtain ⟨h1, _⟩ := sys_congr steps₁ (fun st hst => hg st (by simp [hst])) hb1
  obtain ⟨h2, _⟩ := sys_congr (steps₁ ++ steps₂) hg hb
  rw [h1] at hban
  rw [h2] at hidle
  unfold shown at hban
  rw [eventsByStream_deser] at hban
  obtain ⟨r, hr, hd⟩ := List.mem_map.mp hban
  have key := C46_banned (C := chatC) (goodZ_lawful chatTypes) steps₁ steps₂ (fun st hst => sguarded_of (hg st hst))
    room user ⟨r, hr, rm, reason, timeout, hd⟩ hkeep p g hidle
  have e : ∀ z, Sys.run (app chatC) z (steps₁ ++ steps₂ ++ [.call p g (.joinRoom room user)])
      = Sys.step (app chatC) z (Sys.run (app chatC) z (steps₁ ++ steps₂)) (.call p g (.joinRoom room user)) := by
    intro z; simp only [Sys.run, List.foldl_append, List.foldl_cons, List.foldl_nil]
  rw [e] at key ⊢
  rw [h2]
  simp only [Sys.step, decideEvents_deser] at key ⊢
  exact key

/-- Non-vacuity: two goroutines; the join is decided before the ban is saved and saved after it. -/
private def steps0 : List (SysStep Cmd) :=
  [.call 0 0 (.onBoardRoom [82] [49] [71]), .save 0 ⟨[85], 7⟩, .call 0 1 (.joinRoom [82] [50]),
   .call 1 0 (.banUserFromRoom [82] [50] [195, 169] 9), .save 0 ⟨[85], 7⟩]

private theorem steps0_good : ∀ st ∈ steps0, GoodStep st := by
  intro st hst
  have ht : GoodStamp ⟨[85], 7⟩ := ⟨valid_iff_utf8.mp (by decide), by decide⟩
  have hx : ∀ e : Ev, (∀ x ∈ e.texts, Valid x) → (∀ a b c t, e = .userWasBannedFromRoom a b c t → t < 2 ^ 64) → e.Textual :=
    fun e h h' => ⟨fun x hx => valid_iff_utf8.mp (h x hx), h'⟩
  simp only [steps0, List.mem_cons, List.not_mem_nil, or_false] at hst
  rcases hst with rfl | rfl | rfl | rfl | rfl
  · exact hx _ (by decide) (by intro a b c t h; simp [Cmd.ev] at h)
  · exact ht
  · exact hx _ (by decide) (by intro a b c t h; simp [Cmd.ev] at h)
  · exact hx _ (by decide) (by intro a b c t h; simp only [Cmd.ev, Ev.userWasBannedFromRoom.injEq] at h; omega)
  · exact ht

example : (Sys.run (app chatC) zChat steps0).pending 1 = [chatC.event (.roomWasJoined [82] [50])] ∧
    some (.userWasBannedFromRoom [82] [50] [195, 169] 9) ∈ shown (Sys.run (app chatC) zChat steps0).store (roomStream [82]) ∧
    (Sys.run (app chatC) zChat steps0).pending 0 = [] := by
  decide +kernel

end RangeDB.Chat

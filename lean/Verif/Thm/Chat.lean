import Verif.Proof.Chat
import Verif.Thm.Cqrs

/-!
# C46, C72, C73: the chat example
-/

namespace RangeDB.Chat

open RangeDB.Cqrs

variable {z : Serializer} {C : Codec}

/-! ## The example codec -/

/-- Read three strings and a number. -/
def parse : Str → Option (Str × Str × Str × Nat)
  | x => match Demo.dec x with
    | none => none
    | some (a, x) => match Demo.dec x with
      | none => none
      | some (b, x) => match Demo.dec x with
        | none => none
        | some (c, x) => match x with
          | [] => none
          | t :: _ => some (a, b, c, t)

/-- Write three strings and a number. -/
def write (a b c : Str) (t : Nat) : Str := Demo.enc a ++ (Demo.enc b ++ (Demo.enc c ++ [t]))

theorem parse_write (a b c : Str) (t : Nat) : parse (write a b c t) = some (a, b, c, t) := by
  simp only [parse, write, Demo.dec_enc]

/-- A codec that stores every chat event faithfully with the example serializer. -/
def demoC : Codec where
  evType
    | .roomWasOnBoarded .. => [0]
    | .roomWasJoined .. => [1]
    | .messageWasSentToRoom .. => [2]
    | .privateMessageWasSentToRoom .. => [3]
    | .userWasRemovedFromRoom .. => [4]
    | .userWasBannedFromRoom .. => [5]
    | .userWasOnBoarded .. => [6]
    | .userWasWarned .. => [7]
  enc
    | .roomWasOnBoarded a b c => write a b c 0
    | .roomWasJoined a b => write a b [] 0
    | .messageWasSentToRoom a b c => write a b c 0
    | .privateMessageWasSentToRoom a b c => write a b c 0
    | .userWasRemovedFromRoom a b c => write a b c 0
    | .userWasBannedFromRoom a b c t => write a b c t
    | .userWasOnBoarded a b => write a b [] 0
    | .userWasWarned a b => write a b [] 0
  dec := fun r => match parse r.data with
    | none => none
    | some (a, b, c, t) =>
      if r.evType = [0] then some (.roomWasOnBoarded a b c)
      else if r.evType = [1] then some (.roomWasJoined a b)
      else if r.evType = [2] then some (.messageWasSentToRoom a b c)
      else if r.evType = [3] then some (.privateMessageWasSentToRoom a b c)
      else if r.evType = [4] then some (.userWasRemovedFromRoom a b c)
      else if r.evType = [5] then some (.userWasBannedFromRoom a b c t)
      else if r.evType = [6] then some (.userWasOnBoarded a b)
      else if r.evType = [7] then some (.userWasWarned a b)
      else none

theorem demoC_lawful : demoC.Lawful Demo.demo (fun _ => True) := by
  intro e st g q t _
  cases e <;> simp [demoC, Demo.demo, mkRecord, toRecord, Codec.event, parse_write]

/-! ## C46: bans -/

/-- **C46** (full statement): in the stream of a room there is never a record of a user joining after a
record of that user being banned, whatever the goroutines and processes of the application do. -/
def C46_full (z : Serializer) (C : Codec) : Prop :=
  ∀ (steps : List (SysStep Cmd)), (∀ st ∈ steps, ∀ op, st ≠ .other op) → ∀ (room user : Str),
    (IM.eventsByStream z (Sys.run (app C) z steps).store none 0 (roomStream room)).recs.Pairwise
      (fun r r' => ¬ (IsBan C user r ∧ IsJoin C user r'))

/-- **C46**: once the stream of a room holds a record of a user's ban, a `JoinRoom` of that user that
starts afterwards, in any process and whatever its aggregate object has seen, raises nothing - as long as
nobody deletes the room's stream. `steps₁` are the steps up to the ban, `steps₂` those since. -/
theorem C46_banned (hz : z.Lawful) (steps₁ steps₂ : List (SysStep Cmd))
    (hg : ∀ st ∈ steps₁ ++ steps₂, st.Guarded z) (room user : Str)
    (hban : ∃ r ∈ (IM.eventsByStream z (Sys.run (app C) z steps₁).store none 0 (roomStream room)).recs,
      IsBan C user r)
    (hkeep : ∀ op, SysStep.other op ∈ steps₂ → keeps (roomStream room) op)
    (p g : Nat) (hidle : (Sys.run (app C) z (steps₁ ++ steps₂)).pending g = []) :
    (Sys.run (app C) z (steps₁ ++ steps₂ ++ [.call p g (.joinRoom room user)])).pending g = [] := by
  obtain ⟨r, hr, hb⟩ := hban
  obtain ⟨L, h⟩ := sys_inv hz (app C) steps₁ (fun st hst => hg st (by simp [hst]))
  rw [stream_recs h] at hr
  have key : ∀ (steps : List (SysStep Cmd)) (S : Sys Which Obj) (L : Log), (∀ st ∈ steps, st.Guarded z) →
      (∀ op, SysStep.other op ∈ steps → keeps (roomStream room) op) → Inv z S.store L →
      r ∈ L.stream (roomStream room) →
      ∃ L, Inv z (steps.foldl (Sys.step (app C) z) S).store L ∧ r ∈ L.stream (roomStream room) := by
    intro steps
    induction steps with
    | nil => intro S L _ _ h hr; exact ⟨L, h, hr⟩
    | cons st steps ih =>
      intro S L hg hk h hr
      have ih' := fun S L h hr => ih S L (fun x hx => hg x (by simp [hx])) (fun x hx => hk x (by simp [hx])) h hr
      cases st with
      | call q g c =>
        have : (S.step (app C) z (.call q g c)).store = S.store := by
          simp only [Sys.step]; split <;> rfl
        exact ih' _ L (by rw [this]; exact h) hr
      | save g t =>
        cases hp : S.pending g with
        | nil =>
          have : S.step (app C) z (.save g t) = S := by simp only [Sys.step, hp]
          exact ih' _ L (by rw [this]; exact h) hr
        | cons e es =>
          have hst : (S.step (app C) z (.save g t)).store = (saveOne z S.store t e).state := by
            simp only [Sys.step, hp]
          rcases saveOne_spec hz h t e with ⟨_, _, h'⟩ | ⟨_, _, h'⟩
          · refine ih' _ _ (by rw [hst]; exact h') ?_
            simp only [Log.stream, Log.append, List.filter_append, List.mem_append]
            exact Or.inl hr
          · exact ih' _ { L with last := L.last + 1 } (by rw [hst]; exact h') hr
      | restart q => exact ih' _ L h hr
      | other op =>
        obtain ⟨news, hn⟩ := specStep_stream hz L op (roomStream room) (hk op (by simp))
        exact ih' _ _ ⟨IM.specStep_WF hz h.1 op, IM.step_sim hz h.1 h.2 op (hg (.other op) (by simp))⟩
          (by rw [hn]; simp [hr])
  obtain ⟨L', h', hr'⟩ := key steps₂ _ L (fun st hst => hg st (by simp [hst])) hkeep h hr
  rw [show steps₂.foldl (Sys.step (app C) z) (Sys.run (app C) z steps₁)
    = Sys.run (app C) z (steps₁ ++ steps₂) by simp only [Sys.run, List.foldl_append]] at h'
  have hS := sys_typed (z := z) (C := C) (steps₁ ++ steps₂) p
  rw [show Sys.run (app C) z (steps₁ ++ steps₂ ++ [.call p g (.joinRoom room user)])
    = Sys.step (app C) z (Sys.run (app C) z (steps₁ ++ steps₂)) (.call p g (.joinRoom room user)) by
      simp only [Sys.run, List.foldl_append, List.foldl_cons, List.foldl_nil]]
  simp only [Sys.step, if_pos hidle, if_true]
  refine join_banned hS (r := r) ?_ hb
  rw [show (IM.eventsByStream z (Sys.run (app C) z (steps₁ ++ steps₂)).store none 0 (roomStream room)).recs
    = L'.stream (roomStream room) from stream_recs h' _]
  exact hr'

/-- Room "R", users "1" and "2". -/
private def R1 : Str := [82]
private def R2 : Str := [83]
private def U1 : Str := [49]
private def U2 : Str := [50]

private def t0 : Stamp := ⟨[85], 7⟩

/-- Non-vacuity: the room is on-boarded, user 1 joins, is banned; another process then handles commands. -/
example : ((IM.eventsByStream Demo.demo (Sys.run (app demoC) Demo.demo
    [.call 0 0 (.onBoardRoom R1 U1 []), .save 0 t0, .call 0 0 (.joinRoom R1 U1), .save 0 t0,
     .call 0 0 (.banUserFromRoom R1 U1 [] 9), .save 0 t0, .call 1 1 (.sendMessageToRoom R1 U2 [71]),
     .save 1 t0]).store none 0 (roomStream R1)).recs.filterMap demoC.dec)
    = [.roomWasOnBoarded R1 U1 [], .roomWasJoined R1 U1, .userWasBannedFromRoom R1 U1 [] 9,
       .messageWasSentToRoom R1 U2 [71]] := by decide

/-- **C46 is false**: a join that was decided before the ban was saved may be saved after it. -/
theorem C46_false : ¬ C46_full Demo.demo demoC := by
  intro h
  have := h [.call 0 0 (.onBoardRoom R1 U1 []), .save 0 t0, .call 0 1 (.joinRoom R1 U1),
    .call 0 0 (.banUserFromRoom R1 U1 [] 9), .save 0 t0, .save 1 t0] (by intro st hst op; simp at hst; rcases hst with h | h | h | h | h | h <;> subst h <;> simp) R1 U1
  rw [show (IM.eventsByStream Demo.demo (Sys.run (app demoC) Demo.demo
    [.call 0 0 (.onBoardRoom R1 U1 []), .save 0 t0, .call 0 1 (.joinRoom R1 U1),
    .call 0 0 (.banUserFromRoom R1 U1 [] 9), .save 0 t0, .save 1 t0]).store none 0 (roomStream R1)).recs
    = [mkRecord (roomStream R1) 1 1 (toRecord t0 (demoC.event (.roomWasOnBoarded R1 U1 []))),
       mkRecord (roomStream R1) 2 2 (toRecord t0 (demoC.event (.userWasBannedFromRoom R1 U1 [] 9))),
       mkRecord (roomStream R1) 3 3 (toRecord t0 (demoC.event (.roomWasJoined R1 U1)))] by decide] at this
  simp only [List.pairwise_cons] at this
  exact this.2.1 _ (List.mem_singleton.mpr rfl) ⟨⟨R1, [], 9, by decide⟩, ⟨R1, by decide⟩⟩

/-- **C46 (partial)**: if commands are handled one at a time (by any number of processes, with restarts),
no user joins a room after being banned from it. Missing: commands that overlap. -/
theorem C46_serial_partial (hz : z.Lawful) {good : Ev → Prop} (hl : C.Lawful z good)
    (items : List (Item Cmd)) (room user : Str)
    (hclean : ∀ it ∈ items, Item.Clean z good (roomStream room) it) :
    (IM.eventsByStream z (Serial.run (app C) z items).store none 0 (roomStream room)).recs.Pairwise
      (fun r r' => ¬ (IsBan C user r ∧ IsJoin C user r')) := by
  have := serial_pairwise hz hl (roomStream room)
    (fun d e => (∃ rm x t, d = .userWasBannedFromRoom rm user x t) ∧ ∃ rm, e = .roomWasJoined rm user)
    (by
      rintro objs s c ht hst r hr d hd ⟨⟨rm, x, t, rfl⟩, rm', he⟩
      cases c <;> simp only [Cmd.ev] at he <;> try (cases he)
      have hroom : rm' = room := getStream_inj hst
      subst hroom
      exact join_banned ht hr ⟨rm, x, t, hd⟩) items hclean
  refine this.imp ?_
  rintro r r' h ⟨⟨rm, x, t, hb⟩, ⟨rm', hj⟩⟩
  exact h ⟨_, _, hb, hj, ⟨rm, x, t, rfl⟩, rm', rfl⟩

example : ∀ it ∈ [Item.dispatch 0 stamp0 (.onBoardRoom R1 U1 []), .dispatch 0 stamp0 (.joinRoom R1 U1),
    .restart 0, .dispatch 1 stamp0 (.banUserFromRoom R1 U1 [] 9), .dispatch 0 stamp0 (.joinRoom R1 U1)],
    Item.Clean Demo.demo (fun _ => True) (roomStream R1) it := by simp [Item.Clean]

/-- **C46**: when `Dispatch(BanUserFromRoom)` has returned the ban, the ban is in the room's stream, and
every `JoinRoom` of that user dispatched later by any process returns nothing. -/
theorem C46_after_ban (hz : z.Lawful) {good : Ev → Prop} (hl : C.Lawful z good)
    (items₁ items₂ : List (Item Cmd)) (hg : ∀ it ∈ items₁ ++ items₂, it.Guarded z)
    (room user reason : Str) (timeout : Nat) (hgood : good (.userWasBannedFromRoom room user reason timeout))
    (hkeep : ∀ op, Item.other op ∈ items₂ → keeps (roomStream room) op) (p : Nat) (stamps : Nat → Stamp)
    (hret : (dispatch (app C) z stamps
      ⟨(Serial.run (app C) z items₁).objs p, (Serial.run (app C) z items₁).store⟩
      (.banUserFromRoom room user reason timeout)).2 ≠ .ok []) (q : Nat) (stamps' : Nat → Stamp) :
    let S := Serial.run (app C) z
      (items₁ ++ .dispatch p stamps (.banUserFromRoom room user reason timeout) :: items₂)
    (dispatch (app C) z stamps' ⟨S.objs q, S.store⟩ (.joinRoom room user)).2 = .ok [] := by
  intro S
  obtain ⟨L, h⟩ := serial_inv hz (app C) items₁ (fun it hit => hg it (by simp [hit]))
  obtain ⟨L', saved, h1, h2, h3, ⟨news, h4, h5⟩, _⟩ := dispatch_spec hz (app C) stamps
    (st := ⟨(Serial.run (app C) z items₁).objs p, (Serial.run (app C) z items₁).store⟩) h
    (.banUserFromRoom room user reason timeout)
  have hex : ∃ r ∈ L'.stream (roomStream room), IsBan C user r := by
    rw [h1] at hret
    rcases decide_le_one (C := C) (z := z) (serial_typed items₁ p) (Serial.run (app C) z items₁).store
      (.banUserFromRoom room user reason timeout) with hd | hd
    · exfalso
      rw [hd] at h3
      exact hret (by rw [List.eq_nil_of_sublist_nil h3])
    · rw [hd] at h3
      cases h3 with
      | cons _ hn => exact absurd (by rw [List.eq_nil_of_sublist_nil hn]) hret
      | cons_cons _ hn =>
        cases h5 with
        | cons hs htl =>
          rename_i r rs
          refine ⟨r, ?_, ?_⟩
          · simp only [Log.stream, h4, List.filter_append, List.mem_append, List.mem_filter]
            exact Or.inr ⟨by simp, decide_eq_true (stored_stream hz hs)⟩
          · obtain ⟨g, q', t, rfl⟩ := hs
            exact ⟨room, reason, timeout, hl _ _ g q' t hgood⟩
  obtain ⟨r, hr, hb⟩ := hex
  have key : ∀ (items : List (Item Cmd)) (S : Serial Which Obj) (L : Log), (∀ it ∈ items, it.Guarded z) →
      (∀ op, Item.other op ∈ items → keeps (roomStream room) op) → Inv z S.store L →
      r ∈ L.stream (roomStream room) →
      ∃ L, Inv z (items.foldl (Serial.step (app C) z) S).store L ∧ r ∈ L.stream (roomStream room) := by
    intro items
    induction items with
    | nil => intro S L _ _ h hr; exact ⟨L, h, hr⟩
    | cons it items ih =>
      intro S L hg hk h hr
      have ih' := fun S L h hr => ih S L (fun x hx => hg x (by simp [hx])) (fun x hx => hk x (by simp [hx])) h hr
      cases it with
      | dispatch q st c =>
        obtain ⟨L', _, _, h2, _, h4, _⟩ := dispatch_spec hz (app C) st (st := ⟨S.objs q, S.store⟩) h c
        obtain ⟨news, hn⟩ := h4.stream (roomStream room)
        exact ih' _ L' h2 (by rw [hn]; simp [hr])
      | restart q => exact ih' _ L h hr
      | other op =>
        obtain ⟨news, hn⟩ := specStep_stream hz L op (roomStream room) (hk op (by simp))
        exact ih' _ _ ⟨IM.specStep_WF hz h.1 op, IM.step_sim hz h.1 h.2 op (hg (.other op) (by simp))⟩
          (by rw [hn]; simp [hr])
  have hS : S = items₂.foldl (Serial.step (app C) z) (Serial.step (app C) z (Serial.run (app C) z items₁)
      (.dispatch p stamps (.banUserFromRoom room user reason timeout))) := by
    simp only [S, Serial.run, List.foldl_append, List.foldl_cons]
  obtain ⟨L2, i2, hr2⟩ := key items₂ (Serial.step (app C) z (Serial.run (app C) z items₁)
      (.dispatch p stamps (.banUserFromRoom room user reason timeout))) L'
      (fun it hit => hg it (by simp [hit])) hkeep h2 hr
  rw [← hS] at i2
  have hj := join_banned (C := C) (serial_typed (z := z) (C := C)
    (items₁ ++ .dispatch p stamps (.banUserFromRoom room user reason timeout) :: items₂) q)
    (s := S.store) (r := r) (room := room) (user := user)
    (by rw [stream_recs i2]; exact hr2) hb
  have hd : (dispatch (app C) z stamps' ⟨S.objs q, S.store⟩ (.joinRoom room user)).2
      = (saveEvents z stamps' 0 S.store
          (decideEvents (app C) z (S.objs q) S.store (.joinRoom room user)).2).2 := rfl
  rw [hd, hj]; rfl

/-! ## The restricted word processor -/

/-- **C46** (processor): a message with a restricted word by a user with two counted warnings makes the
processor dispatch the user's ban from that room; fewer warnings make it warn the user; messages without
a restricted word, and all other events - among them everything the processor causes - make it do nothing.
-/
theorem C46_processor (warnings : Str → Nat) (room user message : Str) :
    (containsRestrictedWord message = true → 2 ≤ warnings user →
      .banUserFromRoom room user language 3600 ∈ accept warnings (.messageWasSentToRoom room user message)) ∧
    (containsRestrictedWord message = true → warnings user < 2 →
      .warnUser user language ∈ accept warnings (.messageWasSentToRoom room user message) ∧
      ∀ r u x t, .banUserFromRoom r u x t ∉ accept warnings (.messageWasSentToRoom room user message)) ∧
    (containsRestrictedWord message = false →
      accept warnings (.messageWasSentToRoom room user message) = []) ∧
    (∀ e, (∀ r u m, e ≠ .messageWasSentToRoom r u m) → accept warnings e = []) := by
  refine ⟨?_, ?_, ?_, ?_⟩
  · intro h1 h2
    simp [accept, h1, warnThreshold, h2]
  · intro h1 h2
    have : ¬ warnings user ≥ warnThreshold := by simp only [warnThreshold]; omega
    simp [accept, h1, this]
  · intro h; simp [accept, h]
  · intro e he
    cases e with
    | messageWasSentToRoom r u m => exact absurd rfl (he r u m)
    | _ => rfl

/-- **C46** (processor): the commands it dispatches never raise a message event, so it never triggers
itself. -/
theorem C46_processor_settles (warnings : Str → Nat) (e : Ev) :
    ∀ c ∈ accept warnings e, ∀ w, accept w c.ev = [] := by
  intro c hc w
  cases e <;> simp only [accept] at hc <;> try (simp at hc; done)
  split at hc
  · split at hc <;> simp only [List.mem_cons, List.not_mem_nil, or_false] at hc <;>
      rcases hc with rfl | rfl <;> rfl
  · simp at hc

/-- **C46** (processor): the ban it dispatches is always raised, whatever happened before. -/
theorem C46_ban_raised (items : List (Item Cmd)) (p : Nat) (s : IM.State) (room user reason : Str)
    (timeout : Nat) :
    (decideEvents (app C) z ((Serial.run (app C) z items).objs p) s
        (.banUserFromRoom room user reason timeout)).2
      = [C.event (.userWasBannedFromRoom room user reason timeout)] := by
  obtain ⟨⟨st, hs⟩, _⟩ := serial_typed (z := z) (C := C) items p
  rw [decide_room hs s _ rfl]; rfl

/-- **C46** (word matching): a restricted word is found wherever it stands in the message and however it
is capitalised. -/
theorem C46_word_found (a m b w : Str) (hw : w ∈ restrictedWords) (hm : toLower m = w) :
    containsRestrictedWord (a ++ m ++ b) = true := by
  have hpre : ∀ s t : Str, contains (s ++ t) s = true := by
    intro s t
    cases s with
    | nil => cases t <;> simp [contains]
    | cons c cs => simp [contains, List.isPrefixOf_iff_prefix]
  have hmid : ∀ a s t : Str, contains (a ++ (s ++ t)) s = true := by
    intro a s t
    induction a with
    | nil => exact hpre s t
    | cons c cs ih => simp [contains, ih]
  simp only [containsRestrictedWord, List.any_eq_true]
  refine ⟨w, hw, ?_⟩
  have : toLower (a ++ m ++ b) = toLower a ++ (w ++ toLower b) := by
    simp only [toLower, List.map_append, List.append_assoc]
    rw [← hm]; rfl
  rw [this]
  exact hmid _ _ _

/-- "Oh GOLLY!" is restricted, "gol ly" is not. -/
example : containsRestrictedWord [79, 104, 32, 71, 79, 76, 76, 89, 33] = true ∧
    containsRestrictedWord [103, 111, 108, 32, 108, 121] = false := by decide

/-- The number of records that say that `user` was warned. -/
def warned (C : Codec) (user : Str) (rs : List Record) : Nat :=
  (rs.filterMap C.dec).countP (fun e => match e with | .userWasWarned u _ => u = user | _ => false)

/-- **C46** (projection): after any sequence of records the projection's total for a user is the number of
warnings of that user among them. -/
theorem C46_warnings (user : Str) (rs : List Record) :
    (rs.filterMap C.dec).foldl count (fun _ => 0) user = warned C user rs := by
  have key : ∀ (es : List Ev) (w : Str → Nat), es.foldl count w user
      = w user + es.countP (fun e => match e with | .userWasWarned u _ => u = user | _ => false) := by
    intro es
    induction es with
    | nil => intro w; simp
    | cons e es ih =>
      intro w
      rw [List.foldl_cons, ih, List.countP_cons]
      cases e <;> simp only [count] <;> try (simp; done)
      rename_i u x
      by_cases h : user = u
      · subst h; simp; omega
      · have : ¬ u = user := fun e => h e.symm
        simp [h, this]
  rw [key]; simp [warned]

/-! ## C72: a user is on-boarded at most once -/

/-- **C72** (full statement): the stream of a user never holds two on-boarding events. -/
def C72_full (z : Serializer) (C : Codec) : Prop :=
  ∀ (steps : List (SysStep Cmd)), (∀ st ∈ steps, ∀ op, st ≠ .other op) → ∀ (user : Str),
    (IM.eventsByStream z (Sys.run (app C) z steps).store none 0 (userStream user)).recs.Pairwise
      (fun r r' => ¬ (IsUserOnBoarded C r ∧ IsUserOnBoarded C r'))

/-- **C72 is false**: `Dispatch` saves without an expected sequence number, so two commands that both read
the empty stream both on-board the user. -/
theorem C72_false : ¬ C72_full Demo.demo demoC := by
  intro h
  have := h [.call 0 0 (.onBoardUser U1 [65]), .call 1 1 (.onBoardUser U1 [66]), .save 0 t0, .save 1 t0]
    (by intro st hst op; simp at hst; rcases hst with h | h | h | h <;> subst h <;> simp) U1
  rw [show (IM.eventsByStream Demo.demo (Sys.run (app demoC) Demo.demo
    [.call 0 0 (.onBoardUser U1 [65]), .call 1 1 (.onBoardUser U1 [66]), .save 0 t0, .save 1 t0]).store
      none 0 (userStream U1)).recs
    = [mkRecord (userStream U1) 1 1 (toRecord t0 (demoC.event (.userWasOnBoarded U1 [65]))),
       mkRecord (userStream U1) 2 2 (toRecord t0 (demoC.event (.userWasOnBoarded U1 [66])))] by decide] at this
  simp only [List.pairwise_cons] at this
  exact this.1 _ (List.mem_singleton.mpr rfl) ⟨⟨U1, [65], by decide⟩, ⟨U1, [66], by decide⟩⟩

/-- **C72 (partial)**: if commands are handled one at a time, by any number of processes, a user is
on-boarded at most once. Missing: commands that overlap. -/
theorem C72_serial_partial (hz : z.Lawful) {good : Ev → Prop} (hl : C.Lawful z good)
    (items : List (Item Cmd)) (user : Str)
    (hclean : ∀ it ∈ items, Item.Clean z good (userStream user) it) :
    (IM.eventsByStream z (Serial.run (app C) z items).store none 0 (userStream user)).recs.Pairwise
      (fun r r' => ¬ (IsUserOnBoarded C r ∧ IsUserOnBoarded C r')) := by
  have := serial_pairwise hz hl (userStream user)
    (fun d e => (∃ u n, d = .userWasOnBoarded u n) ∧ ∃ u n, e = .userWasOnBoarded u n)
    (by
      rintro objs s c ht hst r hr d hd ⟨⟨u, n, rfl⟩, u', n', he⟩
      cases c <;> simp only [Cmd.ev] at he <;> try (cases he)
      have huser : u' = user := getStream_inj hst
      subst huser
      exact onBoard_again ht hr ⟨u, n, hd⟩) items hclean
  refine this.imp ?_
  rintro r r' h ⟨⟨u, n, hb⟩, ⟨u', n', hj⟩⟩
  exact h ⟨_, _, hb, hj, ⟨u, n, rfl⟩, u', n', rfl⟩

example : (IM.eventsByStream Demo.demo (Serial.run (app demoC) Demo.demo
    [.dispatch 0 stamp0 (.onBoardUser U1 [65]), .dispatch 1 stamp0 (.onBoardUser U1 [66]), .restart 0,
     .dispatch 0 stamp0 (.onBoardUser U1 [67])]).store none 0 (userStream U1)).recs.filterMap demoC.dec
    = [.userWasOnBoarded U1 [65]] := by decide

/-! ## C73: joining a room depends only on that room -/

/-- **C73** (full statement): a `JoinRoom` raises the join exactly if the room was on-boarded and the user
was not banned from it. -/
def C73_full (z : Serializer) (C : Codec) : Prop :=
  ∀ (items : List (Item Cmd)), (∀ it ∈ items, it.Guarded z) → ∀ (p : Nat) (room user : Str),
    (decideEvents (app C) z ((Serial.run (app C) z items).objs p) (Serial.run (app C) z items).store
        (.joinRoom room user)).2 = [C.event (.roomWasJoined room user)] ↔
      (∃ r ∈ (IM.eventsByStream z (Serial.run (app C) z items).store none 0 (roomStream room)).recs,
        IsRoomOnBoarded C r) ∧
      ∀ r ∈ (IM.eventsByStream z (Serial.run (app C) z items).store none 0 (roomStream room)).recs,
        ¬ IsBan C user r

/-- **C73**: a user who is banned from one room cannot join any other room until the program is restarted.
-/
theorem C73_ban_leaks :
    (decideEvents (app demoC) Demo.demo
      ((Serial.run (app demoC) Demo.demo [.dispatch 0 stamp0 (.onBoardRoom R1 U2 []),
        .dispatch 0 stamp0 (.onBoardRoom R2 U2 []), .dispatch 0 stamp0 (.banUserFromRoom R1 U1 [] 9),
        .dispatch 0 stamp0 (.joinRoom R1 U1)]).objs 0)
      (Serial.run (app demoC) Demo.demo [.dispatch 0 stamp0 (.onBoardRoom R1 U2 []),
        .dispatch 0 stamp0 (.onBoardRoom R2 U2 []), .dispatch 0 stamp0 (.banUserFromRoom R1 U1 [] 9),
        .dispatch 0 stamp0 (.joinRoom R1 U1)]).store
      (.joinRoom R2 U1)).2 = [] := by decide

/-- **C73**: a room that was never on-boarded can be joined once some other room has been on-boarded and
used. -/
theorem C73_phantom_room :
    (decideEvents (app demoC) Demo.demo
      ((Serial.run (app demoC) Demo.demo [.dispatch 0 stamp0 (.onBoardRoom R1 U2 []),
        .dispatch 0 stamp0 (.joinRoom R1 U2)]).objs 0)
      (Serial.run (app demoC) Demo.demo [.dispatch 0 stamp0 (.onBoardRoom R1 U2 []),
        .dispatch 0 stamp0 (.joinRoom R1 U2)]).store
      (.joinRoom R2 U1)).2 = [demoC.event (.roomWasJoined R2 U1)] := by decide

/-- **C35, C73**: only one user can be on-boarded and used per program run: the second one is refused. -/
theorem C73_second_user :
    (decideEvents (app demoC) Demo.demo
      ((Serial.run (app demoC) Demo.demo [.dispatch 0 stamp0 (.onBoardUser U1 [65]),
        .dispatch 0 stamp0 (.warnUser U1 [])]).objs 0)
      (Serial.run (app demoC) Demo.demo [.dispatch 0 stamp0 (.onBoardUser U1 [65]),
        .dispatch 0 stamp0 (.warnUser U1 [])]).store
      (.onBoardUser U2 [66])).2 = [] := by decide

/-- **C73 is false.** -/
theorem C73_false : ¬ C73_full Demo.demo demoC := by
  intro h
  have := (h [.dispatch 0 stamp0 (.onBoardRoom R1 U2 []), .dispatch 0 stamp0 (.joinRoom R1 U2)]
    (by simp [Item.Guarded]) 0 R2 U1).mp C73_phantom_room
  obtain ⟨⟨r, hr, _⟩, _⟩ := this
  rw [show (IM.eventsByStream Demo.demo (Serial.run (app demoC) Demo.demo
    [.dispatch 0 stamp0 (.onBoardRoom R1 U2 []), .dispatch 0 stamp0 (.joinRoom R1 U2)]).store none 0
    (roomStream R2)).recs = [] by decide] at hr
  simp at hr

/-- Room states that the handlers cannot tell apart, likewise user states. -/
def Same : Obj → Obj → Prop
  | .room s, .room t => s.isOnBoarded = t.isOnBoarded ∧ ∀ u, u ∈ s.bannedUsers ↔ u ∈ t.bannedUsers
  | .user s, .user t => s.isOnBoarded = t.isOnBoarded
  | _, _ => False

theorem room_absorbing : Absorbing (aggregate C .room) (fresh .room) Same where
  refl := by intro s; cases s <;> simp [Same]
  trans := by
    intro s t u h1 h2
    cases s <;> cases t <;> cases u <;> simp only [Same] at * <;> try contradiction
    · exact ⟨h1.1.trans h2.1, fun v => (h1.2 v).trans (h2.2 v)⟩
    · exact h1.trans h2
  apply := by
    intro s t r h
    cases s <;> cases t <;> simp only [Same] at h <;> try contradiction
    · rename_i s t
      cases hd : C.dec r with
      | none => simp only [aggregate, hd, Same]; exact h
      | some e =>
        simp only [aggregate, hd, Same]
        cases e <;> simp only [applyRoom] <;> first | exact h | skip
        · exact ⟨trivial, h.2⟩
        · refine ⟨h.1, fun u => ?_⟩
          simp only [List.mem_cons, h.2 u]
    · simp only [aggregate, Same]; exact h
  handle := by
    intro s t c h
    cases s <;> cases t <;> simp only [Same] at h <;> try contradiction
    · rename_i s t
      simp only [aggregate]
      cases c <;> simp only [handleRoom, h.1]
      rename_i room user
      by_cases hu : user ∈ s.bannedUsers
      · simp only [if_pos hu, if_pos ((h.2 user).mp hu)]
      · simp only [if_neg hu, if_neg (fun e => hu ((h.2 user).mpr e))]
    · rfl
  handle_keeps := by
    intro s c
    cases s <;> simp [aggregate, Same]
  absorb := by
    intro rs rs'
    have h1 := fun s rs => load_room (C := C) s ⟨rs, none⟩
    simp only [load] at h1
    simp only [fresh, h1, Same]
    constructor
    · rw [Bool.eq_iff_iff, roomOnBoarded_iff, roomOnBoarded_iff, roomOnBoarded_iff]
      simp only [List.filterMap_append, List.mem_append]
      constructor
      · rintro ((h | ⟨r, u, n, h⟩) | h)
        · exact Or.inl h
        · exact Or.inr ⟨r, u, n, Or.inl h⟩
        · exact Or.inr h
      · rintro (h | h)
        · exact Or.inl (Or.inl h)
        · exact Or.inr h
    · intro v
      rw [banned_iff, banned_iff, banned_iff]
      simp only [List.filterMap_append, List.mem_append]
      constructor
      · rintro ((h | ⟨r, x, t, h⟩) | h)
        · exact Or.inl h
        · exact Or.inr ⟨r, x, t, Or.inl h⟩
        · exact Or.inr h
      · rintro (h | h)
        · exact Or.inl (Or.inl h)
        · exact Or.inr h

/-- **C73 (partial)**: the claim holds in a process that handles commands of one room only, whatever
others do short of deleting the room's stream. -/
theorem C73_partial (hz : z.Lawful) (items : List (Item Cmd)) (hg : ∀ it ∈ items, it.Guarded z) (p : Nat)
    (room user : Str)
    (hone : ∀ it ∈ items, single (app C) p .room (roomStream room) it) :
    (decideEvents (app C) z ((Serial.run (app C) z items).objs p) (Serial.run (app C) z items).store
        (.joinRoom room user)).2 = [C.event (.roomWasJoined room user)] ↔
      (∃ r ∈ (IM.eventsByStream z (Serial.run (app C) z items).store none 0 (roomStream room)).recs,
        IsRoomOnBoarded C r) ∧
      ∀ r ∈ (IM.eventsByStream z (Serial.run (app C) z items).store none 0 (roomStream room)).recs,
        ¬ IsBan C user r := by
  have h := C35_one_stream_partial hz (app C) items hg p (.joinRoom room user) .room
    (handlerOf C _) (room_absorbing (C := C)) hone
  rw [h]
  have hd : decision (app C) (.joinRoom room user)
      (IM.eventsByStream z (Serial.run (app C) z items).store none 0 (roomStream room)).recs
      = (handleRoom (((IM.eventsByStream z (Serial.run (app C) z items).store none 0
          (roomStream room)).recs.filterMap C.dec).foldl applyRoom ⟨[], false, []⟩)
          (.joinRoom room user)).map C.event := by
    unfold decision
    rw [handlerOf]
    have h1 := load_room (C := C) ⟨[], false, []⟩
      (IM.eventsByStream z (Serial.run (app C) z items).store none 0 (roomStream room))
    simp only [load] at h1
    show ((aggregate C .room).handle (List.foldl (aggregate C .room).apply (fresh .room) _) _).2 = _
    rw [show fresh .room = .room ⟨[], false, []⟩ from rfl, h1]
    rfl
  rw [show (app C).stream (.joinRoom room user) = roomStream room from rfl, hd]
  generalize (IM.eventsByStream z (Serial.run (app C) z items).store none 0 (roomStream room)).recs = rs
  have hon := roomOnBoarded_iff (rs.filterMap C.dec) ⟨[], false, []⟩
  have hba := banned_iff (rs.filterMap C.dec) ⟨[], false, []⟩ user
  have hon' : (∃ r ∈ rs, IsRoomOnBoarded C r) ↔ ∃ r u n, Ev.roomWasOnBoarded r u n ∈ rs.filterMap C.dec := by
    constructor
    · rintro ⟨r, hr, a, b, c, hd⟩
      exact ⟨a, b, c, mem_decoded hr hd⟩
    · rintro ⟨a, b, c, hm⟩
      obtain ⟨r, hr, hd⟩ := List.mem_filterMap.mp hm
      exact ⟨r, hr, a, b, c, hd⟩
  have hba' : (∃ r ∈ rs, IsBan C user r) ↔
      ∃ r x t, Ev.userWasBannedFromRoom r user x t ∈ rs.filterMap C.dec := by
    constructor
    · rintro ⟨r, hr, a, b, c, hd⟩
      exact ⟨a, b, c, mem_decoded hr hd⟩
    · rintro ⟨a, b, c, hm⟩
      obtain ⟨r, hr, hd⟩ := List.mem_filterMap.mp hm
      exact ⟨r, hr, a, b, c, hd⟩
  rw [hon']
  have hba'' : (∀ r ∈ rs, ¬ IsBan C user r) ↔
      user ∉ ((rs.filterMap C.dec).foldl applyRoom ⟨[], false, []⟩).bannedUsers := by
    rw [hba]
    simp only [List.not_mem_nil, false_or, ← hba']
    constructor
    · rintro h ⟨r, hr, hb⟩; exact h r hr hb
    · intro h r hr hb; exact h ⟨r, hr, hb⟩
  rw [hba'']
  simp only [Bool.false_eq_true, false_or] at hon
  rw [← hon]
  simp only [handleRoom]
  generalize (rs.filterMap C.dec).foldl applyRoom ⟨[], false, []⟩ = s
  by_cases h1 : s.isOnBoarded = false
  · simp [h1]
  · rw [if_neg h1]
    by_cases h2 : user ∈ s.bannedUsers
    · simp [h2]
    · simp [h2, h1]

example : ∀ it ∈ [Item.dispatch 0 stamp0 (.onBoardRoom R1 U1 []), .dispatch 1 stamp0 (.joinRoom R2 U1),
    .dispatch 0 stamp0 (.onBoardUser U1 []), .dispatch 0 stamp0 (.banUserFromRoom R1 U2 [] 9)],
    single (app demoC) 0 .room (roomStream R1) it := by
  intro it hit
  simp at hit
  rcases hit with rfl | rfl | rfl | rfl <;> simp [single] <;> intros <;> first | rfl | contradiction

end RangeDB.Chat

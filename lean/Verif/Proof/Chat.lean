import Verif.Spec.Chat
import Verif.Proof.Cqrs

namespace RangeDB.Chat

open RangeDB.Cqrs

variable {z : Serializer} {C : Codec}

/-- The object that handles a command. -/
def Cmd.which : Cmd → Which
  | .onBoardUser .. | .warnUser .. => .user
  | _ => .room

theorem handlerOf (C : Codec) (c : Cmd) : (app C).handlerOf ((app C).info c).cmdType = some c.which := by
  cases c <;> rfl

/-- Each object has the state type of its aggregate. -/
def Typed (objs : Which → Obj) : Prop :=
  (∃ s, objs .room = .room s) ∧ (∃ s, objs .user = .user s)

theorem fresh_typed : Typed fresh := ⟨⟨_, rfl⟩, ⟨_, rfl⟩⟩

theorem load_room (s : RoomState) (it : Iter) :
    load (aggregate C .room) (.room s) it
      = .room ((it.recs.filterMap C.dec).foldl applyRoom s) := by
  unfold load
  induction it.recs generalizing s with
  | nil => rfl
  | cons r rs ih =>
    simp only [List.foldl_cons]
    cases hd : C.dec r with
    | none =>
      rw [List.filterMap_cons_none hd]
      rw [show (aggregate C .room).apply (.room s) r = .room s by simp [aggregate, hd]]
      exact ih s
    | some e =>
      rw [List.filterMap_cons_some hd, List.foldl_cons]
      rw [show (aggregate C .room).apply (.room s) r = .room (applyRoom s e) by simp [aggregate, hd]]
      exact ih _

theorem load_user (s : UserState) (it : Iter) :
    load (aggregate C .user) (.user s) it
      = .user ((it.recs.filterMap C.dec).foldl applyUser s) := by
  unfold load
  induction it.recs generalizing s with
  | nil => rfl
  | cons r rs ih =>
    simp only [List.foldl_cons]
    cases hd : C.dec r with
    | none =>
      rw [List.filterMap_cons_none hd]
      rw [show (aggregate C .user).apply (.user s) r = .user s by simp [aggregate, hd]]
      exact ih s
    | some e =>
      rw [List.filterMap_cons_some hd, List.foldl_cons]
      rw [show (aggregate C .user).apply (.user s) r = .user (applyUser s e) by simp [aggregate, hd]]
      exact ih _

theorem decide_handled (objs : Which → Obj) (st : IM.State) (c : Cmd) :
    decideEvents (app C) z objs st c
      = ((fun j => if j = c.which then ((aggregate C c.which).handle (load (aggregate C c.which)
          (objs c.which) (IM.eventsByStream z st none 0 ((app C).stream c))) c).1 else objs j),
         ((aggregate C c.which).handle (load (aggregate C c.which)
          (objs c.which) (IM.eventsByStream z st none 0 ((app C).stream c))) c).2) := by
  unfold decideEvents
  rw [handlerOf]
  rfl

theorem decide_room {objs : Which → Obj} {s : RoomState} (h : objs .room = .room s) (st : IM.State)
    (c : Cmd) (hc : c.which = .room) :
    decideEvents (app C) z objs st c
      = (fun j => if j = .room then .room (((IM.eventsByStream z st none 0 ((app C).stream c)).recs.filterMap
            C.dec).foldl applyRoom s) else objs j,
         (handleRoom (((IM.eventsByStream z st none 0 ((app C).stream c)).recs.filterMap C.dec).foldl
            applyRoom s) c).map C.event) := by
  have hd := decide_handled (C := C) (z := z) objs st c
  rw [hc] at hd
  rw [hd, h]
  show ((fun j => if j = Which.room then ((aggregate C .room).handle (load (aggregate C .room) (.room s) _) c).1
    else objs j), ((aggregate C .room).handle (load (aggregate C .room) (.room s) _) c).2) = _
  rw [load_room]
  rfl

theorem decide_user {objs : Which → Obj} {s : UserState} (h : objs .user = .user s) (st : IM.State)
    (c : Cmd) (hc : c.which = .user) :
    decideEvents (app C) z objs st c
      = (fun j => if j = .user then .user (((IM.eventsByStream z st none 0 ((app C).stream c)).recs.filterMap
            C.dec).foldl applyUser s) else objs j,
         (handleUser (((IM.eventsByStream z st none 0 ((app C).stream c)).recs.filterMap C.dec).foldl
            applyUser s) c).map C.event) := by
  have hd := decide_handled (C := C) (z := z) objs st c
  rw [hc] at hd
  rw [hd, h]
  show ((fun j => if j = Which.user then ((aggregate C .user).handle (load (aggregate C .user) (.user s) _) c).1
    else objs j), ((aggregate C .user).handle (load (aggregate C .user) (.user s) _) c).2) = _
  rw [load_user]
  rfl

theorem decide_typed {objs : Which → Obj} (h : Typed objs) (st : IM.State) (c : Cmd) :
    Typed (decideEvents (app C) z objs st c).1 := by
  obtain ⟨⟨s, hs⟩, ⟨u, hu⟩⟩ := h
  cases hc : c.which with
  | room => rw [decide_room hs st c hc]; exact ⟨⟨_, rfl⟩, ⟨u, hu⟩⟩
  | user => rw [decide_user hu st c hc]; exact ⟨⟨s, hs⟩, ⟨_, rfl⟩⟩

theorem serial_typed (items : List (Item Cmd)) (p : Nat) :
    Typed ((Serial.run (app C) z items).objs p) := by
  have key : ∀ (items : List (Item Cmd)) (S : Serial Which Obj), (∀ p, Typed (S.objs p)) →
      ∀ p, Typed ((items.foldl (Serial.step (app C) z) S).objs p) := by
    intro items
    induction items with
    | nil => intro S h; exact h
    | cons it items ih =>
      intro S h
      refine ih _ ?_
      intro p
      cases it with
      | dispatch q stamps c =>
        simp only [Serial.step, dispatch]
        split
        · exact decide_typed (h q) _ _
        · exact h p
      | restart q =>
        simp only [Serial.step]
        split
        · exact fresh_typed
        · exact h p
      | other op => exact h p
  exact key items _ (fun _ => fresh_typed) p

theorem sys_typed (steps : List (SysStep Cmd)) (p : Nat) : Typed ((Sys.run (app C) z steps).objs p) := by
  have key : ∀ (steps : List (SysStep Cmd)) (S : Sys Which Obj), (∀ p, Typed (S.objs p)) →
      ∀ p, Typed ((steps.foldl (Sys.step (app C) z) S).objs p) := by
    intro steps
    induction steps with
    | nil => intro S h; exact h
    | cons st steps ih =>
      intro S h
      refine ih _ ?_
      intro p
      cases st with
      | call q g c =>
        simp only [Sys.step]
        split
        · show Typed (if p = q then _ else S.objs p)
          split
          · exact decide_typed (h q) _ _
          · exact h p
        · exact h p
      | save g t =>
        simp only [Sys.step]
        cases S.pending g <;> exact h p
      | restart q =>
        simp only [Sys.step]
        split
        · exact fresh_typed
        · exact h p
      | other op => exact h p
  exact key steps _ (fun _ => fresh_typed) p

/-! ## What loading a stream does -/

theorem banned_mono (es : List Ev) : ∀ (s : RoomState) (u : Str), u ∈ s.bannedUsers →
    u ∈ (es.foldl applyRoom s).bannedUsers := by
  induction es with
  | nil => intro s u h; exact h
  | cons e es ih =>
    intro s u h
    refine ih _ u ?_
    cases e <;> simp [applyRoom, h]

theorem banned_load (es : List Ev) : ∀ (s : RoomState) (r u x : Str) (t : Nat),
    .userWasBannedFromRoom r u x t ∈ es → u ∈ (es.foldl applyRoom s).bannedUsers := by
  induction es with
  | nil => intro s r u x t h; simp at h
  | cons e es ih =>
    intro s r u x t h
    rcases List.mem_cons.mp h with rfl | h
    · exact banned_mono es _ u (by simp [applyRoom])
    · exact ih _ r u x t h

theorem banned_iff (es : List Ev) : ∀ (s : RoomState) (u : Str),
    u ∈ (es.foldl applyRoom s).bannedUsers ↔
      u ∈ s.bannedUsers ∨ ∃ r x t, Ev.userWasBannedFromRoom r u x t ∈ es := by
  induction es with
  | nil => intro s u; simp
  | cons e es ih =>
    intro s u
    rw [List.foldl_cons, ih]
    cases e with
    | userWasBannedFromRoom r' u' x' t' =>
      simp only [applyRoom, List.mem_cons]
      constructor
      · rintro ((rfl | h) | ⟨r, x, t, h⟩)
        · exact Or.inr ⟨r', x', t', Or.inl rfl⟩
        · exact Or.inl h
        · exact Or.inr ⟨r, x, t, Or.inr h⟩
      · rintro (h | ⟨r, x, t, h | h⟩)
        · exact Or.inl (Or.inr h)
        · cases h; exact Or.inl (Or.inl rfl)
        · exact Or.inr ⟨r, x, t, h⟩
    | _ => simp [applyRoom]

theorem roomOnBoarded_iff (es : List Ev) : ∀ (s : RoomState),
    (es.foldl applyRoom s).isOnBoarded = true ↔
      s.isOnBoarded = true ∨ ∃ r u n, Ev.roomWasOnBoarded r u n ∈ es := by
  induction es with
  | nil => intro s; simp
  | cons e es ih =>
    intro s
    rw [List.foldl_cons, ih]
    cases e <;> simp [applyRoom]
    exact Or.inr ⟨_, _, _, Or.inl ⟨rfl, rfl, rfl⟩⟩

theorem userOnBoarded_iff (es : List Ev) : ∀ (s : UserState),
    (es.foldl applyUser s).isOnBoarded = true ↔
      s.isOnBoarded = true ∨ ∃ u n, Ev.userWasOnBoarded u n ∈ es := by
  induction es with
  | nil => intro s; simp
  | cons e es ih =>
    intro s
    rw [List.foldl_cons, ih]
    cases e <;> simp [applyUser]
    exact Or.inr ⟨_, _, Or.inl ⟨rfl, rfl⟩⟩

/-! ## What a command raises -/

theorem decide_le_one {objs : Which → Obj} (h : Typed objs) (st : IM.State) (c : Cmd) :
    (decideEvents (app C) z objs st c).2 = [] ∨
    (decideEvents (app C) z objs st c).2 = [C.event c.ev] := by
  obtain ⟨⟨s, hs⟩, ⟨u, hu⟩⟩ := h
  cases hc : c.which with
  | room =>
    rw [decide_room hs st c hc]
    cases c <;> simp only [handleRoom, Cmd.ev] <;>
      first
      | (right; rfl)
      | (split <;> first | (left; rfl) | (right; rfl) | (split <;> first | (left; rfl) | (right; rfl)))
      | (simp [Cmd.which] at hc)
  | user =>
    rw [decide_user hu st c hc]
    cases c <;> simp only [handleUser, Cmd.ev] <;>
      first
      | (right; rfl)
      | (split <;> first | (left; rfl) | (right; rfl))
      | (simp [Cmd.which] at hc)

theorem stream_cmd (c : Cmd) : (app C).stream c = getStream c.ev.aggType c.ev.aggId := by
  cases c <;> rfl

theorem mem_decoded {rs : List Record} {r : Record} {e : Ev} (h : r ∈ rs) (hd : C.dec r = some e) :
    e ∈ rs.filterMap C.dec := List.mem_filterMap.mpr ⟨r, h, hd⟩

/-- A banned user does not get in. -/
theorem join_banned {objs : Which → Obj} (h : Typed objs) {s : IM.State} {room user : Str} {r : Record}
    (hr : r ∈ (IM.eventsByStream z s none 0 (roomStream room)).recs) (hb : IsBan C user r) :
    (decideEvents (app C) z objs s (.joinRoom room user)).2 = [] := by
  obtain ⟨⟨st, hs⟩, _⟩ := h
  obtain ⟨rm, reason, timeout, hd⟩ := hb
  rw [decide_room hs s _ rfl]
  have : user ∈ (((IM.eventsByStream z s none 0 ((app C).stream (.joinRoom room user))).recs.filterMap
      C.dec).foldl applyRoom st).bannedUsers := banned_load _ _ rm user reason timeout (mem_decoded hr hd)
  simp only [handleRoom, if_pos this]
  split <;> rfl

/-- An on-boarded user is not on-boarded again. -/
theorem onBoard_again {objs : Which → Obj} (h : Typed objs) {s : IM.State} {user name : Str} {r : Record}
    (hr : r ∈ (IM.eventsByStream z s none 0 (userStream user)).recs) (hb : IsUserOnBoarded C r) :
    (decideEvents (app C) z objs s (.onBoardUser user name)).2 = [] := by
  obtain ⟨_, ⟨st, hs⟩⟩ := h
  obtain ⟨u, n, hd⟩ := hb
  rw [decide_user hs s _ rfl]
  have : (((IM.eventsByStream z s none 0 ((app C).stream (.onBoardUser user name))).recs.filterMap
      C.dec).foldl applyUser st).isOnBoarded = true :=
    (userOnBoarded_iff _ _).mpr (Or.inr ⟨u, n, mem_decoded hr hd⟩)
  simp only [handleUser, if_pos this]
  rfl

/-! ## Histories -/

theorem foreign_stream (L : Log) (hz : z.Lawful) (op : Op) (st : Str) (h : foreign st op) :
    (specStep z L op).stream st = L.stream st := by
  have hno : ∀ (st' : Str) (ers : List EventRecord), st' ≠ st →
      (L.append z.view st' ers).stream st = L.stream st :=
    fun st' ers hne => Log.stream_append_other hz L ers (Ne.symm hne)
  cases op with
  | save st' expected cancelAt ers =>
    simp only [specStep]
    split
    · rfl
    · split
      · exact hno _ _ h
      · rename_i j e _
        cases e <;> simp only [afterFail] <;> first | exact hno _ _ h | rfl
  | delete st' expected cancelled =>
    simp only [specStep]
    split
    · simp only [Log.stream, Log.delete, List.filter_filter]
      apply List.filter_congr
      intro r _
      by_cases hr : r.streamName = st
      · simp [hr]; exact fun e => h e.symm
      · simp [hr]
    · rfl

/-- The general ordering argument: if a command never raises an event that is `bad` after an event that
its stream holds, no stream ever holds such a pair. -/
theorem serial_pairwise (hz : z.Lawful) {good : Ev → Prop} (hl : C.Lawful z good) (st : Str)
    (bad : Ev → Ev → Prop)
    (hbad : ∀ (objs : Which → Obj) (s : IM.State) (c : Cmd), Typed objs →
      (app C).stream c = st → ∀ r ∈ (IM.eventsByStream z s none 0 st).recs, ∀ d, C.dec r = some d →
        bad d c.ev → (decideEvents (app C) z objs s c).2 = [])
    (items : List (Item Cmd)) (hclean : ∀ it ∈ items, Item.Clean z good st it) :
    (IM.eventsByStream z (Serial.run (app C) z items).store none 0 st).recs.Pairwise
      (fun r r' => ¬ ∃ d e, C.dec r = some d ∧ C.dec r' = some e ∧ bad d e) := by
  have key : ∀ (items : List (Item Cmd)) (S : Serial Which Obj) (L : Log),
      (∀ it ∈ items, Item.Clean z good st it) → (∀ p, Typed (S.objs p)) → Inv z S.store L →
      (L.stream st).Pairwise (fun r r' => ¬ ∃ d e, C.dec r = some d ∧ C.dec r' = some e ∧ bad d e) →
      ∃ L, Inv z (items.foldl (Serial.step (app C) z) S).store L ∧
        (L.stream st).Pairwise (fun r r' => ¬ ∃ d e, C.dec r = some d ∧ C.dec r' = some e ∧ bad d e) := by
    intro items
    induction items with
    | nil => intro S L _ _ h hp; exact ⟨L, h, hp⟩
    | cons it items ih =>
      intro S L hc ht h hp
      have hit := hc it (by simp)
      have ih' := fun S L ht h hp => ih S L (fun x hx => hc x (by simp [hx])) ht h hp
      cases it with
      | dispatch q stamps c =>
        obtain ⟨L', saved, _, h2, h3, ⟨news, h4, h5⟩, _⟩ :=
          dispatch_spec hz (app C) stamps (st := ⟨S.objs q, S.store⟩) h c
        refine ih' _ L' ?_ h2 ?_
        · intro p
          simp only [Serial.step, dispatch]
          split
          · exact decide_typed (ht q) _ _
          · exact ht p
        · have hcase : news = [] ∨ ∃ r, news = [r] ∧ Stored z (C.event c.ev) r ∧
              (decideEvents (app C) z (S.objs q) S.store c).2 ≠ [] := by
            rcases decide_le_one (C := C) (z := z) (ht q) S.store c with hd | hd
            · left
              rw [hd] at h3
              have : saved = [] := List.eq_nil_of_sublist_nil h3
              subst this
              cases h5; rfl
            · rw [hd] at h3
              cases h5 with
              | nil => left; rfl
              | cons hs htl =>
                right
                cases h3 with
                | cons _ hn => simp at hn
                | cons_cons _ hn =>
                  have := List.eq_nil_of_sublist_nil hn
                  subst this
                  cases htl
                  exact ⟨_, rfl, hs, by rw [hd]; simp⟩
          rcases hcase with rfl | ⟨r, rfl, hs, hne⟩
          · have : L'.stream st = L.stream st := by simp [Log.stream, h4]
            rw [this]; exact hp
          · by_cases hst : r.streamName = st
            · have : L'.stream st = L.stream st ++ [r] := by
                simp [Log.stream, h4, List.filter_append, hst]
              rw [this, List.pairwise_append]
              refine ⟨hp, List.pairwise_singleton _ _, ?_⟩
              intro a ha b hb
              simp only [List.mem_singleton] at hb
              subst hb
              rintro ⟨d, e, hd, he, hb⟩
              have hce : C.dec b = some c.ev := by
                obtain ⟨g, q', t, rfl⟩ := hs
                exact hl c.ev _ g q' t hit
              rw [hce] at he
              cases he
              have hcs : (app C).stream c = st := by
                rw [stream_cmd, ← hst, stored_stream hz hs]; rfl
              exact hne (hbad (S.objs q) S.store c (ht q) hcs a (by rw [stream_recs h]; exact ha) d hd hb)
            · have : L'.stream st = L.stream st := by
                simp [Log.stream, h4, List.filter_append, hst]
              rw [this]; exact hp
      | restart q =>
        refine ih' _ L ?_ h hp
        intro p
        simp only [Serial.step]
        split
        · exact fresh_typed
        · exact ht p
      | other op =>
        refine ih' _ _ ht ⟨IM.specStep_WF hz h.1 op, IM.step_sim hz h.1 h.2 op hit.1⟩ ?_
        rw [foreign_stream L hz op st hit.2]; exact hp
  obtain ⟨L, h, hp⟩ := key items (Serial.init (app C)) Log.empty hclean (fun _ => fresh_typed) inv_init
    (by simp [Log.stream, Log.empty])
  rw [show (IM.eventsByStream z (Serial.run (app C) z items).store none 0 st).recs = L.stream st from
    stream_recs h st]
  exact hp

end RangeDB.Chat

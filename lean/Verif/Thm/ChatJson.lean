import Verif.Model.ChatJson
import Verif.Thm.Chat
import Verif.Thm.JsonRecord
import Verif.Thm.ListTypes

/-!
# The chat example with the JSON serializer (C127)
-/

namespace RangeDB.Chat

open RangeDB.Json RangeDB.Cqrs

/-- The texts of an event. -/
def Ev.texts : Ev → List Str
  | .roomWasOnBoarded a b c => [a, b, c]
  | .roomWasJoined a b => [a, b]
  | .messageWasSentToRoom a b c => [a, b, c]
  | .privateMessageWasSentToRoom a b c => [a, b, c]
  | .userWasRemovedFromRoom a b c => [a, b, c]
  | .userWasBannedFromRoom a b c _ => [a, b, c]
  | .userWasOnBoarded a b => [a, b]
  | .userWasWarned a b => [a, b]

/-- An event of the program whose texts are UTF-8: a `uint` has 64 bits. -/
def Ev.Textual (e : Ev) : Prop :=
  (∀ x ∈ e.texts, Utf8 x) ∧ ∀ a b c t, e = .userWasBannedFromRoom a b c t → t < 2 ^ 64

theorem decodeEv_json (e : Ev) (h : ∀ a b c t, e = .userWasBannedFromRoom a b c t → t < 2 ^ 64) :
    decodeEv e.name e.json = some e := by
  cases e with
  | userWasBannedFromRoom a b c t =>
    have hp := Dec.parseUint_natText t (h a b c t rfl)
    have h1 : strField [(kRoomID, .str a), (kUserID, .str b), (kReason, .str c), (kTimeout, .num (Dec.natText t))] kRoomID = some a := rfl
    have h2 : strField [(kRoomID, .str a), (kUserID, .str b), (kReason, .str c), (kTimeout, .num (Dec.natText t))] kUserID = some b := rfl
    have h3 : strField [(kRoomID, .str a), (kUserID, .str b), (kReason, .str c), (kTimeout, .num (Dec.natText t))] kReason = some c := rfl
    have h4 : uintField [(kRoomID, .str a), (kUserID, .str b), (kReason, .str c), (kTimeout, .num (Dec.natText t))] kTimeout
        = Dec.parseUint (Dec.natText t) := rfl
    show decodeEv nUserWasBannedFromRoom (.obj [(kRoomID, .str a), (kUserID, .str b), (kReason, .str c), (kTimeout, .num (Dec.natText t))]) = _
    simp only [decodeEv, fields, h1, h2, h3, h4, hp]
    rfl
  | _ => rfl

theorem name_bound (e : Ev) : e.name ∈ boundTypes := by
  cases e <;> simp [Ev.name, boundTypes]

theorem name_valid (e : Ev) : Valid e.name := by
  have : ∀ t ∈ boundTypes, Valid t := by decide
  exact this _ (name_bound e)

theorem aggType_valid (e : Ev) : Valid e.aggType := by
  have h1 : Valid tRoom := by decide
  have h2 : Valid tUser := by decide
  cases e <;> first | exact h1 | exact h2

theorem aggId_utf8 {e : Ev} (h : e.Textual) : Utf8 e.aggId := by
  refine h.1 _ ?_
  cases e <;> simp [Ev.aggId, Ev.texts]

theorem json_wf {e : Ev} (h : ∀ x ∈ e.texts, Utf8 x) : e.json.WF := by
  have h' : ∀ x ∈ e.texts, Valid x := fun x hx => valid_iff_utf8.mpr (h x hx)
  cases e <;> simp only [Ev.texts, List.mem_cons, List.not_mem_nil, or_false, forall_eq_or_imp, forall_eq] at h' <;>
    simp only [Ev.json, Json.WF, WFf, h', true_and, and_true, scanNum_natText] <;> decide

theorem dec_enc {e : Ev} (h : e.Textual) (r : Record) (h1 : r.evType = e.name) (h2 : r.data = e.json.text) :
    chatC.dec r = some e := by
  have hp := parse_text e.json (json_wf h.1) [] (fun _ => Or.inl rfl)
  rw [List.append_nil] at hp
  simp only [chatC, h1, h2, hp]
  exact decodeEv_json e h.2

/-- The codec is lawful for every serializer that shows records as they were saved. -/
theorem chatC_lawful {z : Serializer} (hz : z.view = id) : chatC.Lawful z Ev.Textual := by
  intro e st g q t h
  rw [hz]
  exact dec_enc h _ rfl rfl

/-- What the environment gives: an ID that is text, a time of 64 bits. -/
def GoodStamp (t : Stamp) : Prop := Utf8 t.uuid ∧ t.now < 2 ^ 64

theorem goodEvent {e : Ev} (h : e.Textual) {t : Stamp} (ht : GoodStamp t) :
    GoodEvent chatTypes (toRecord t (chatC.event e)) where
  aggType := aggType_valid e
  aggId := valid_iff_utf8.mpr (aggId_utf8 h)
  evType := name_valid e
  uuid := valid_iff_utf8.mpr ht.1
  now := ht.2
  data := by
    refine ⟨e.json, json_wf h.1, by cases e <;> simp [Ev.json], rfl, ?_⟩
    show chatTypes e.name e.json = _
    simp only [chatTypes, name_bound, if_true, decodeEv_json e h.2]
    rfl
  metadata := ⟨.null, trivial, rfl, rfl⟩

theorem stream_valid {e : Ev} (h : e.Textual) : Valid (getStream e.aggType e.aggId) := by
  refine valid_iff_utf8.mpr ?_
  unfold getStream
  exact Http.Utf8.append (valid_iff_utf8.mp (aggType_valid e))
    (Http.Utf8.append (a := [33]) (Http.utf8_const (by decide)) (aggId_utf8 h))

/-! ## The application on the in-memory store -/

/-- The store with the JSON serializer, the chat events bound. -/
abbrev zChat : Serializer := serializer chatTypes

/-- A history of commands with UTF-8 texts. Others may use the store, with events that JSON keeps (C61), saved
together only into the stream of their aggregate (C07). -/
def GoodItem : Item Cmd → Prop
  | .dispatch _ stamps c => c.ev.Textual ∧ ∀ n, GoodStamp (stamps n)
  | .restart _ => True
  | .other op => GoodOp chatTypes op ∧
    match op with
    | .save st _ _ ers => (∀ er ∈ ers, st = getStream er.event.aggType er.event.aggId) ∨ ers.length ≤ 1
    | .delete .. => True

/-- How many events it can add. -/
def itemSize : Item Cmd → Nat
  | .dispatch .. => 1
  | .restart _ => 0
  | .other op => op.size

theorem eventsByStream_deser (ty : Types) (s : IM.State) (c : Option Nat) (n : Nat) (st : Str) :
    IM.eventsByStream (serializer ty) s c n st = IM.eventsByStream (goodZ ty) s c n st := by
  unfold IM.eventsByStream
  rw [im_recordsByIDs_deser]

theorem decideEvents_deser (objs : Which → Obj) (s : IM.State) (c : Cmd) :
    decideEvents (app chatC) zChat objs s c = decideEvents (app chatC) (goodZ chatTypes) objs s c := by
  unfold decideEvents
  simp only [eventsByStream_deser]

theorem saveEvents_congr {N : Nat} {s : IM.State} (hu : Upto N s) (hN : N + 1 < 2 ^ 64) (stamps : Nat → Stamp)
    (hs : ∀ n, GoodStamp (stamps n)) {e : Ev} (he : e.Textual) (es : List Event)
    (hes : es = [] ∨ es = [chatC.event e]) (n : Nat) :
    Cqrs.saveEvents zChat stamps n s es = Cqrs.saveEvents (goodZ chatTypes) stamps n s es ∧
      Upto (N + 1) (Cqrs.saveEvents (goodZ chatTypes) stamps n s es).1 := by
  rcases hes with rfl | rfl
  · exact ⟨rfl, upto_mono hu (by omega)⟩
  · have h1 : saveOne zChat s (stamps n) (chatC.event e) = saveOne (goodZ chatTypes) s (stamps n) (chatC.event e) :=
      im_saveEvents_congr hu (stream_valid he) none none _
        (by intro er her; simp only [List.mem_singleton] at her; subst her; exact goodEvent he (hs n)) hN
    have h2 : Upto (N + 1) (saveOne (goodZ chatTypes) s (stamps n) (chatC.event e)).state :=
      im_saveEvents_upto hu _ none none [_]
    refine ⟨?_, ?_⟩
    · simp only [Cqrs.saveEvents, h1]
    · simp only [Cqrs.saveEvents]
      split <;> exact h2

theorem dispatch_congr {N : Nat} {st : State Which Obj} (ht : Typed st.objs) (hu : Upto N st.store)
    (hN : N + 1 < 2 ^ 64) (stamps : Nat → Stamp) (hs : ∀ n, GoodStamp (stamps n)) {c : Cmd} (he : c.ev.Textual) :
    dispatch (app chatC) zChat stamps st c = dispatch (app chatC) (goodZ chatTypes) stamps st c ∧
      Upto (N + 1) (dispatch (app chatC) (goodZ chatTypes) stamps st c).1.store := by
  unfold dispatch
  rw [decideEvents_deser]
  have h := saveEvents_congr hu hN stamps hs he _ (decide_le_one (C := chatC) (z := goodZ chatTypes) ht st.store c) 0
  refine ⟨?_, h.2⟩
  simp only [h.1]

theorem guarded_of {it : Item Cmd} (h : GoodItem it) : it.Guarded (goodZ chatTypes) := by
  cases it with
  | dispatch => trivial
  | restart => trivial
  | other op =>
    cases op with
    | save st ex ca ers =>
      rcases h.2 with h | h
      · exact Or.inl h
      · exact Or.inr (Or.inr h)
    | delete => trivial

theorem serial_congr (items : List (Item Cmd)) (hg : ∀ it ∈ items, GoodItem it)
    (hb : (items.map itemSize).sum + 1 < 2 ^ 64) :
    Serial.run (app chatC) zChat items = Serial.run (app chatC) (goodZ chatTypes) items ∧
      Upto (items.map itemSize).sum (Serial.run (app chatC) (goodZ chatTypes) items).store := by
  have key : ∀ (items : List (Item Cmd)) (N : Nat) (S : Serial Which Obj), (∀ it ∈ items, GoodItem it) →
      (∀ p, Typed (S.objs p)) → Upto N S.store → N + (items.map itemSize).sum + 1 < 2 ^ 64 →
      items.foldl (Serial.step (app chatC) zChat) S = items.foldl (Serial.step (app chatC) (goodZ chatTypes)) S ∧
      Upto (N + (items.map itemSize).sum) (items.foldl (Serial.step (app chatC) (goodZ chatTypes)) S).store := by
    intro items
    induction items with
    | nil => intro N S _ _ hu _; exact ⟨rfl, by simpa using hu⟩
    | cons it items ih =>
      intro N S hg ht hu hb
      simp only [List.map_cons, List.sum_cons] at hb ⊢
      have hit := hg it (by simp)
      have step : Serial.step (app chatC) zChat S it = Serial.step (app chatC) (goodZ chatTypes) S it ∧
          (∀ p, Typed ((Serial.step (app chatC) (goodZ chatTypes) S it).objs p)) ∧
          Upto (N + itemSize it) (Serial.step (app chatC) (goodZ chatTypes) S it).store := by
        cases it with
        | dispatch p stamps c =>
          obtain ⟨h1, h2⟩ := dispatch_congr (st := ⟨S.objs p, S.store⟩) (ht p) hu
            (by simp only [itemSize] at hb; omega) stamps hit.2 hit.1
          refine ⟨?_, ?_, h2⟩
          · simp only [Serial.step, h1]
          · intro q
            simp only [Serial.step, dispatch]
            split
            · exact decide_typed (ht p) _ _
            · exact ht q
        | restart p =>
          refine ⟨rfl, ?_, upto_mono hu (by omega)⟩
          intro q
          simp only [Serial.step]
          split
          · exact fresh_typed
          · exact ht q
        | other op =>
          have := im_foldl_congr [op] N S.store hu (by intro o ho; simp only [List.mem_singleton] at ho; subst ho; exact hit.1)
            (by simp only [itemSize] at hb; simp; omega)
          simp only [List.foldl_cons, List.foldl_nil, List.map_cons, List.map_nil, List.sum_cons, List.sum_nil,
            Nat.add_zero] at this
          exact ⟨by simp only [Serial.step, this.1], ht, this.2⟩
      rw [List.foldl_cons, List.foldl_cons, step.1]
      have := ih (N + itemSize it) _ (fun x hx => hg x (by simp [hx])) step.2.1 step.2.2 (by omega)
      rw [Nat.add_assoc] at this
      exact this
  have := key items 0 (Serial.init (app chatC)) hg (fun _ => fresh_typed) upto_init (by omega)
  rw [Nat.zero_add] at this
  exact this

/-- The events that reading a stream of the store shows; `none` is a record that holds no chat event. -/
def shown (s : IM.State) (st : Str) : List (Option Ev) :=
  (IM.eventsByStream zChat s none 0 st).recs.map chatC.dec

/-- What the user of the chat sees of a dispatched command: nothing was raised and nothing has changed, or the one
event of the command was raised, it is shown at the end of its stream exactly as it was raised, and the other streams
show what they did. -/
def Recorded (before : IM.State) (c : Cmd) (after : IM.State) (out : Outcome (List Event)) : Prop :=
  (out = .ok [] ∧ ∀ st, shown after st = shown before st) ∨
  (out = .ok [chatC.event c.ev] ∧
    ∀ st, shown after st = shown before st ++ (if st = getStream c.ev.aggType c.ev.aggId then [some c.ev] else []))

/-- **C127** (full statement): whatever commands are dispatched, by any number of processes, with restarts. -/
def C127_full : Prop :=
  ∀ (items : List (Item Cmd)), (∀ it ∈ items, ∀ op, it ≠ .other op) →
    (∀ p stamps c, Item.dispatch p stamps c ∈ items → ∀ n, GoodStamp (stamps n)) →
    items.length + 1 < 2 ^ 64 →
    ∀ (p : Nat) (stamps : Nat → Stamp), (∀ n, GoodStamp (stamps n)) → ∀ (c : Cmd),
      let S := Serial.run (app chatC) zChat items
      let r := dispatch (app chatC) zChat stamps ⟨S.objs p, S.store⟩ c
      Recorded S.store c r.1.store r.2

/-- **C127 (partial)**: for commands whose texts are UTF-8. -/
theorem C127_partial (items : List (Item Cmd)) (hg : ∀ it ∈ items, GoodItem it)
    (hb : (items.map itemSize).sum + 1 < 2 ^ 64) (p : Nat) (stamps : Nat → Stamp) (hs : ∀ n, GoodStamp (stamps n))
    (c : Cmd) (hc : c.ev.Textual) :
    let S := Serial.run (app chatC) zChat items
    let r := dispatch (app chatC) zChat stamps ⟨S.objs p, S.store⟩ c
    Recorded S.store c r.1.store r.2 := by
  obtain ⟨h1, h2⟩ := serial_congr items hg hb
  rw [h1]
  intro S r
  have ht : Typed (S.objs p) := serial_typed (z := goodZ chatTypes) (C := chatC) items p
  obtain ⟨L, hL⟩ : ∃ L, Inv (goodZ chatTypes) S.store L :=
    serial_inv (goodZ_lawful chatTypes) (app chatC) items (fun it hit => guarded_of (hg it hit))
  have h2 : Upto (items.map itemSize).sum S.store := h2
  have hr : r = dispatch (app chatC) (goodZ chatTypes) stamps ⟨S.objs p, S.store⟩ c :=
    (dispatch_congr (st := ⟨S.objs p, S.store⟩) ht h2 hb stamps hs hc).1
  have hshown : ∀ (s : IM.State) (M : Log), Inv (goodZ chatTypes) s M → ∀ st, shown s st = (M.stream st).map chatC.dec := by
    intro s M hM st
    unfold shown
    rw [eventsByStream_deser, stream_recs hM]
  rw [hr]
  unfold dispatch
  rcases decide_le_one (C := chatC) (z := goodZ chatTypes) ht S.store c with hd | hd
  · left
    simp only [hd, Cqrs.saveEvents, true_and, implies_true]
  · right
    rcases saveOne_spec (goodZ_lawful chatTypes) hL (stamps 0) (chatC.event c.ev) with ⟨_, i2, i3⟩ | ⟨i1, _, _⟩
    · simp only [hd, Cqrs.saveEvents, i2, true_and]
      intro st
      rw [hshown _ _ i3, hshown _ _ hL]
      by_cases hst : st = getStream c.ev.aggType c.ev.aggId
      · subst hst
        rw [if_pos rfl]
        have := Log.stream_append_self (goodZ_lawful chatTypes) L (getStream c.ev.aggType c.ev.aggId)
          [toRecord (stamps 0) (chatC.event c.ev)]
        simp only [Codec.event] at this ⊢
        rw [this, List.map_append]
        congr 1
        simp only [numbered, List.map_cons, List.map_nil, List.cons.injEq, and_true]
        exact chatC_lawful (z := goodZ chatTypes) rfl c.ev _ _ _ _ hc
      · rw [if_neg hst, List.append_nil]
        exact congrArg _ (Log.stream_append_other (goodZ_lawful chatTypes) L _ hst)
    · exfalso
      have h3 := hL.2.gsn
      have h4 := hL.2.streamSeq (getStream c.ev.aggType c.ev.aggId)
      have h5 := h2.1
      have h6 := h2.2 (getStream c.ev.aggType c.ev.aggId)
      have h7 := goodZ_isSome (goodEvent hc (hs 0)) (stream_valid hc) (g := L.last + 1)
        (q := L.streamLen (getStream c.ev.aggType c.ev.aggId) + 1) (by rw [← h3]; omega)
        (by rw [← h4]; unfold IM.streamSeq; omega)
      simp only [Codec.event] at i1 h7
      rw [h7] at i1
      exact absurd i1 (by decide)

private def t0 : Stamp := ⟨[85], 7⟩

private theorem t0_good : GoodStamp t0 := ⟨valid_iff_utf8.mp (by decide), by decide⟩

/-- `général` -/
private def room0 : Str := [103, 195, 169, 110, 195, 169, 114, 97, 108]

private def good0 : List (Item Cmd) :=
  [.dispatch 0 (fun _ => t0) (.onBoardRoom room0 [49] [71]), .dispatch 0 (fun _ => t0) (.joinRoom room0 [50]),
   .restart 0, .dispatch 1 (fun _ => t0) (.sendMessageToRoom room0 [50] [34, 10, 60, 92]),
   .dispatch 0 (fun _ => t0) (.banUserFromRoom room0 [50] [120] 3600)]

private theorem textual0 (e : Ev) (h : ∀ x ∈ e.texts, Valid x)
    (ht : match e with | .userWasBannedFromRoom _ _ _ t => t < 2 ^ 64 | _ => True) : e.Textual := by
  refine ⟨fun x hx => valid_iff_utf8.mp (h x hx), ?_⟩
  rintro a b c t rfl
  exact ht

/-- Non-vacuity: a room is opened, joined, used and a user is banned from it; the next command is refused, the one
after is not. -/
private theorem good0_good : ∀ it ∈ good0, GoodItem it := by
  intro it hit
  simp only [good0, List.mem_cons, List.not_mem_nil, or_false] at hit
  rcases hit with rfl | rfl | rfl | rfl | rfl
  · exact ⟨textual0 _ (by decide) trivial, fun _ => t0_good⟩
  · exact ⟨textual0 _ (by decide) trivial, fun _ => t0_good⟩
  · trivial
  · exact ⟨textual0 _ (by decide) trivial, fun _ => t0_good⟩
  · exact ⟨textual0 _ (by decide) (by decide : 3600 < 2 ^ 64), fun _ => t0_good⟩

example : shown (Serial.run (app chatC) zChat good0).store (roomStream room0) =
    [some (.roomWasOnBoarded room0 [49] [71]), some (.roomWasJoined room0 [50]),
     some (.messageWasSentToRoom room0 [50] [34, 10, 60, 92]),
     some (.userWasBannedFromRoom room0 [50] [120] 3600)] := by decide +kernel

example : (dispatch (app chatC) zChat (fun _ => t0) ⟨(Serial.run (app chatC) zChat good0).objs 0,
    (Serial.run (app chatC) zChat good0).store⟩ (.joinRoom room0 [50])).2 = .ok [] := by decide +kernel

example : (dispatch (app chatC) zChat (fun _ => t0) ⟨(Serial.run (app chatC) zChat good0).objs 0,
    (Serial.run (app chatC) zChat good0).store⟩ (.joinRoom room0 [51])).2
    = .ok [chatC.event (.roomWasJoined room0 [51])] := by decide +kernel

/-- **C127 (partial)**: bans hold (C46) in a chat whose events are stored as JSON, as long as texts are UTF-8, commands
do not overlap, and nobody else writes to the room's stream. -/
theorem C127_bans_partial (items : List (Item Cmd)) (hg : ∀ it ∈ items, GoodItem it)
    (hb : (items.map itemSize).sum + 1 < 2 ^ 64) (room user : Str)
    (hf : ∀ op, Item.other op ∈ items → foreign (roomStream room) op) :
    (shown (Serial.run (app chatC) zChat items).store (roomStream room)).Pairwise
      (fun e e' => ¬ ((∃ rm reason timeout, e = some (.userWasBannedFromRoom rm user reason timeout)) ∧
        ∃ rm, e' = some (.roomWasJoined rm user))) := by
  rw [(serial_congr items hg hb).1]
  unfold shown
  rw [eventsByStream_deser, List.pairwise_map]
  refine (C46_serial_partial (goodZ_lawful chatTypes) (chatC_lawful rfl) items room user ?_)
  intro it hit
  cases it with
  | dispatch p stamps c => exact (hg _ hit).1
  | restart => trivial
  | other op => exact ⟨guarded_of (hg _ hit), hf op hit⟩

example : ∀ op, Item.other op ∈ good0 → foreign (roomStream room0) op := by
  intro op h; simp [good0] at h

/-- A room is opened and the user with the ID `\xff` is banned from it. -/
private def bad0 : List (Item Cmd) :=
  [.dispatch 0 (fun _ => t0) (.onBoardRoom [82] [49] [71]), .dispatch 0 (fun _ => t0) (.banUserFromRoom [82] [255] [120] 9)]

/-- **C127**: a user whose ID is not UTF-8 is not kept out by their ban: the ban that was returned to the caller names
somebody else when it is read, and the user joins. -/
theorem C127_ban_void :
    (dispatch (app chatC) zChat (fun _ => t0) ⟨(Serial.run (app chatC) zChat (bad0.take 1)).objs 0,
      (Serial.run (app chatC) zChat (bad0.take 1)).store⟩ (.banUserFromRoom [82] [255] [120] 9)).2
      = .ok [chatC.event (.userWasBannedFromRoom [82] [255] [120] 9)] ∧
    shown (Serial.run (app chatC) zChat bad0).store (roomStream [82]) =
      [some (.roomWasOnBoarded [82] [49] [71]), some (.userWasBannedFromRoom [82] [239, 191, 189] [120] 9)] ∧
    (dispatch (app chatC) zChat (fun _ => t0) ⟨(Serial.run (app chatC) zChat bad0).objs 1,
      (Serial.run (app chatC) zChat bad0).store⟩ (.joinRoom [82] [255])).2
      = .ok [chatC.event (.roomWasJoined [82] [255])] :=
  ⟨by decide +kernel, by decide +kernel, by decide +kernel⟩

/-- **C127 is false.** -/
theorem C127_false : ¬ C127_full := by
  intro h
  have h1 := h (bad0.take 1) (by intro it hit op; simp [bad0] at hit; subst hit; simp)
    (by
      intro p stamps c hc n
      simp only [bad0, List.take_succ_cons, List.take_zero, List.mem_singleton, Item.dispatch.injEq] at hc
      rw [hc.2.1]; exact t0_good) (by decide) 0 (fun _ => t0) (fun _ => t0_good) (.banUserFromRoom [82] [255] [120] 9)
  rcases h1 with ⟨h1, _⟩ | ⟨_, h2⟩
  · rw [C127_ban_void.1] at h1
    simp at h1
  · have h3 := h2 (roomStream [82])
    revert h3
    decide +kernel

end RangeDB.Chat

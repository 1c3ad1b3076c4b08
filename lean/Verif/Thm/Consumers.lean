import Verif.Proof.Consumers
import Verif.Thm.Encrypted
import Verif.Thm.JsonRecord

/-!
# C128, C129: whoever reads a store with a loop

C128 is about subscriptions that cannot read the past, C129 about the users of an encrypted store after a subject has been
deleted. The full statements are false.
-/

namespace RangeDB.Use

open RangeDB.Key RangeDB.Cry RangeDB.ES

variable {ε α σ : Type}

/-! ## C128 -/

/-- A subscription that was started without an error could read what it was to deliver. `get1` and `get2` are what the store
yields from each number on, at the first and at the second read. -/
def C128_full : Prop :=
  ∀ (get1 get2 : Nat → Iter) (accept : Record → Bool) (g : Nat),
    (startFrom (readPast get1 accept) (readPast get2 accept) g).result = .ok →
    (get1 g).err = none ∧ (get2 (lastOf g (get1 g).recs + 1)).err = none

/-- **C128**, exactly: with a consumer that accepts everything `StartFrom` returns nil and is registered, whatever errors the
two reads ended with, and has delivered the records before the errors. -/
theorem C128_exact (get1 get2 : Nat → Iter) (accept : Record → Bool) (ha : ∀ r, accept r = true) (g : Nat) :
    startFrom (readPast get1 accept) (readPast get2 accept) g =
      let l := (get1 g).recs
      let m := (get2 (lastOf g l + 1)).recs
      ⟨⟨lastOf (lastOf g l) m, l ++ m⟩, .ok, true⟩ := by
  have h : ∀ (it : Iter) (s : Sub), overPlain (fun _ => false) (subBody accept) it s =
      .over ⟨lastOf s.last it.recs, s.out ++ it.recs⟩ it.err := by
    intro it s
    have := fold_sub accept it.recs (fun r _ => ha r) [] it.err false s
    rw [overPlain_eq]
    rw [List.append_nil] at this
    rw [this]
    rfl
  simp only [startFrom, readPast, h, List.nil_append]

/-- **C128**, exactly, for every consumer: the first record it refuses is the last one it is offered, `StartFrom` returns the
consumer's error, and the subscription is not registered, be it in the first or in the second read. -/
theorem C128_refused (get1 get2 : Nat → Iter) (accept : Record → Bool) (g : Nat) :
    startFrom (readPast get1 accept) (readPast get2 accept) g =
      let l := (get1 g).recs
      let m := (get2 (lastOf g l + 1)).recs
      if l.all accept = false then ⟨⟨lastOf g (offered accept l), offered accept l⟩, .consumerErr, false⟩
      else if m.all accept = false then
        ⟨⟨lastOf (lastOf g l) (offered accept m), l ++ offered accept m⟩, .consumerErr, false⟩
      else ⟨⟨lastOf (lastOf g l) m, l ++ m⟩, .ok, true⟩ := by
  have h : ∀ (it : Iter) (s : Sub), overPlain (fun _ => false) (subBody accept) it s =
      if it.recs.all accept then .over ⟨lastOf s.last it.recs, s.out ++ it.recs⟩ it.err
      else .stopped ⟨lastOf s.last (offered accept it.recs), s.out ++ offered accept it.recs⟩ := by
    intro it s
    rw [overPlain_eq, fold_sub_any]
  simp only [startFrom, readPast, h, List.nil_append]
  cases hl : (get1 g).recs.all accept with
  | false => simp
  | true =>
    simp only [if_true, Bool.true_eq_false, if_false]
    cases hm : (get2 (lastOf g (get1 g).recs + 1)).recs.all accept with
    | false => simp
    | true => simp

open Demo in
example :
    startFrom (readPast (fun n => IM.events demoAll (IM.run demoAll [.save sA none none [evA [1], evA [2], evA [3]]]) none n)
        (fun r => r.data ≠ [2]))
      (readPast (fun _ => ⟨[], none⟩) (fun r => r.data ≠ [2])) 0 =
      ⟨⟨2, [mkRecord sA 1 1 (evA [1]), mkRecord sA 2 2 (evA [2])]⟩, .consumerErr, false⟩ := by decide +kernel

/-- For every consumer, no error of a read is ever returned. -/
theorem C128_silent (get1 get2 : Nat → Iter) (accept : Record → Bool) (g : Nat) (e : Err) :
    (startFrom (readPast get1 accept) (readPast get2 accept) g).result ≠ .readErr e := by
  have h : ∀ (recs : List (Option Record)) (err : Option Err) (s s' : Sub) (e : Err),
      fold (fun _ => false) (subBody accept) s recs err false ≠ .seen s' e := by
    intro recs err
    induction recs with
    | nil => intro s s' e; simp [fold]
    | cons r recs ih =>
      intro s s' e
      simp only [fold, Bool.false_eq_true, if_false]
      cases subBody accept s r with
      | go a => exact ih a s' e
      | stop a => simp
      | panic => simp
  simp only [startFrom, readPast, overPlain_eq]
  split
  · simp
  · rename_i s e' hs
    exact absurd hs (h _ _ _ _ _)
  · simp
  · split
    · simp
    · rename_i s e' hs
      exact absurd hs (h _ _ _ _ _)
    · simp
    · simp

/-- The same with an encrypted store: the errors of the parent and of the decryption are not returned. -/
theorem C128_silent_encrypted (C : Codec) (K : Store σ) (enc : Encryptor) (w1 w2 : World σ) (get1 get2 : Nat → Iter)
    (accept : Record → Bool) (g : Nat) (e : RErr) :
    (startFrom (readPastEncrypted C K enc w1 get1 accept) (readPastEncrypted C K enc w2 get2 accept) g).result ≠ .readErr e := by
  have h : ∀ (recs : List (Option Record)) (err : Option RErr) (p : Bool) (s s' : Sub) (e : RErr),
      fold (fun _ => false) (subBody accept) s recs err p ≠ .seen s' e := by
    intro recs err p
    induction recs with
    | nil => intro s s' e; cases p <;> simp [fold]
    | cons r recs ih =>
      intro s s' e
      simp only [fold, Bool.false_eq_true, if_false]
      cases subBody accept s r with
      | go a => exact ih a s' e
      | stop a => simp
      | panic => simp
  simp only [startFrom, readPastEncrypted, overEncrypted_eq]
  split
  · simp
  · rename_i s e' hs
    exact absurd hs (h _ _ _ _ _ _)
  · simp
  · split
    · simp
    · rename_i s e' hs
      exact absurd hs (h _ _ _ _ _ _)
    · simp
    · simp

/-- **C128 is false**: the store that answers every read with an error. -/
theorem C128_false : ¬ C128_full := by
  intro h
  have := h (fun _ => ⟨[], some .deserialize⟩) (fun _ => ⟨[], some .deserialize⟩) (fun _ => true) 0
    (by rw [C128_exact _ _ _ (fun _ => rfl)])
  simp at this

/-- **C128**, what holds: if both reads end without an error, everything they yield is delivered in order, once each, and the
subscription goes on from there. Missing: reads that end with an error. -/
theorem C128_partial (l m : List Record) (get1 get2 : Nat → Iter) (accept : Record → Bool) (ha : ∀ r, accept r = true) (g : Nat)
    (h1 : get1 g = ⟨l, none⟩) (h2 : get2 (lastOf g l + 1) = ⟨m, none⟩) :
    startFrom (readPast get1 accept) (readPast get2 accept) g = ⟨⟨lastOf (lastOf g l) m, l ++ m⟩, .ok, true⟩ := by
  rw [C128_exact get1 get2 accept ha g]
  simp only [h1, h2]

open Demo in
example :
    startFrom (readPast (fun n => IM.events demoAll (IM.run demoAll [.save sA none none [evA [1], evA [2]]]) none n) (fun _ => true))
      (readPast (fun n => IM.events demoAll
        (IM.run demoAll [.save sA none none [evA [1], evA [2]], .save sA none none [evA [3]]]) none n) (fun _ => true)) 2 =
      ⟨⟨3, [mkRecord sA 2 2 (evA [2]), mkRecord sA 3 3 (evA [3])]⟩, .ok, true⟩ := by decide +kernel

/-- What this means for the in-memory store with its JSON serializer: once an event with the data `null` has been saved (the
HTTP API makes one of a request without data), every subscription that is started from any number is registered without an
error and delivers none of the events that were stored since, however many there are (if none of the later saves has
panicked, after which every call waits for ever). -/
theorem C128_lost (ty : Json.Types) (ops : List Op) (hg : ∀ op ∈ ops, Json.GoodOp ty op)
    (hb : (ops.map Op.size).sum < 2 ^ 63) (st : Str) (er : EventRecord) (hd : er.event.data = Json.nullText)
    (hm : ∃ m : Json.Json, m.WF ∧ er.metadata = m.text) (hnow : er.now < 2 ^ 64) (k : Nat)
    (hok : (IM.saveEvents (Json.serializer ty) (IM.run (Json.serializer ty) ops) st none none [er]).out = .ok k)
    (later : List Op) (hs : ∀ op ∈ later, IM.isSave op = true) (g : Nat) (accept : Record → Bool) (ha : ∀ r, accept r = true) :
    let now := later.foldl (IM.step (Json.serializer ty))
      (IM.saveEvents (Json.serializer ty) (IM.run (Json.serializer ty) ops) st none none [er]).state
    let get := fun n => IM.events (Json.serializer ty) now none n
    let x := startFrom (readPast get accept) (readPast get accept) g
    x.result = .ok ∧ x.registered = true ∧
      ∀ r ∈ x.sub.out, r ∈ (IM.events (Json.serializer ty) (IM.run (Json.serializer ty) ops) none 0).recs := by
  intro now get x
  have hget : ∀ n, get n = ⟨(IM.events (Json.serializer ty) (IM.run (Json.serializer ty) ops) none n).recs, some .deserialize⟩ :=
    fun n => Json.C61_null_poisons ty ops hg hb st er hd hm hnow k hok later hs n
  have hx : x = _ := C128_exact get get accept ha g
  obtain ⟨h1, _⟩ := Json.im_run_congr ops hg (by omega)
  obtain ⟨L, hL⟩ := IM.run_E (Json.goodZ_lawful ty) ops
  have hrecs : ∀ n, (IM.events (Json.serializer ty) (IM.run (Json.serializer ty) ops) none n).recs =
      L.recs.filter (fun r => r.gsn ≥ n) := by
    intro n
    rw [h1, Json.im_events_deser, IM.events_E hL]; rfl
  have hsub : ∀ n, ∀ r ∈ (get n).recs, r ∈ L.recs := by
    intro n r hr
    rw [hget n] at hr
    simp only [hrecs n] at hr
    exact (List.mem_filter.mp hr).1
  have h0 : (IM.events (Json.serializer ty) (IM.run (Json.serializer ty) ops) none 0).recs = L.recs := by
    rw [hrecs 0]; simp
  rw [hx, h0]
  refine ⟨rfl, rfl, fun r hr => ?_⟩
  rcases List.mem_append.mp hr with hr | hr
  · exact hsub _ r hr
  · exact hsub _ r hr

example :
    let z := Json.serializer Json.unbound
    let get := fun n => IM.events z (IM.run z [.save [65, 33, 49] none none [Json.demoEr Json.goodData],
      .save [65, 33, 49] none none [Json.demoEr Json.nullText], .save [65, 33, 49] none none [Json.demoEr Json.goodData]]) none n
    let x := startFrom (readPast get (fun _ => true)) (readPast get (fun _ => true)) 0
    x.result = .ok ∧ x.registered = true ∧ x.sub.out.map Record.gsn = [1] := by decide +kernel

/-! ## C129 -/

/-- A history of an encrypted store that meets the conditions of C31: lawful data and engines, keys and nonces that are
bytes, times that fit. -/
structure Story (C : Codec) (enc : Encryptor) (z : Serializer) (keys nonces : Str) (ops : List HOp) : Prop where
  codec : C.Lawful
  engine : enc.Lawful
  serializer : z.Lawful
  faithful : Faithful z
  keys : Bytes keys
  nonces : Bytes nonces
  wf : WellFormed C ops
  timed : ∀ c, HOp.world (.call c) ∈ ops → Timed c

/-- The records from `g` on as an unencrypted store with the same history has them. -/
def unencrypted (C : Codec) (K : Store σ) (enc : Encryptor) (z : Serializer) (m0 : σ) (keys nonces : Str) (ops : List HOp)
    (g : Nat) : List Record :=
  (IM.events z (IM.run z (plainOps C K enc z (start m0 keys nonces) ops)) none g).recs

/-- The loop `enough`/`body` over all events from `g` on of the encrypted store after the history. -/
def over (C : Codec) (K : Store σ) (enc : Encryptor) (z : Serializer) (m0 : σ) (keys nonces : Str) (ops : List HOp) (g : Nat)
    (enough : α → Bool) (body : α → Option Record → Body α) (a : α) : End α RErr :=
  let s := hrun C K enc z (start m0 keys nonces) ops
  overEncrypted C K enc enough body s.world (IM.events z s.parent none g) a

/-- Whether a record belongs to a subject that is deleted after the history. -/
def gone (C : Codec) (K : Store σ) (enc : Encryptor) (z : Serializer) (m0 : σ) (keys nonces : Str) (ops : List HOp) :
    Record → Bool :=
  shredded C K (hrun C K enc z (start m0 keys nonces) ops).world

/-- **C129**, the basis: every loop over an encrypted store goes through the records before the first one of a deleted
subject, then, if there is one, through a nil record; only then the error is `ErrKeyWasDeleted`. -/
theorem C129_loop {K : Store σ} {m0 : σ} (hU : UpToShredded K m0) {C : Codec} {enc : Encryptor} {z : Serializer}
    {keys nonces : Str} {ops : List HOp} (h : Story C enc z keys nonces ops) (g : Nat) (enough : α → Bool)
    (body : α → Option Record → Body α) (a : α) :
    over C K enc z m0 keys nonces ops g enough body a =
      fold enough body a (seenBy (gone C K enc z m0 keys nonces ops) (unencrypted C K enc z m0 keys nonces ops g))
        (if (unencrypted C K enc z m0 keys nonces ops g).any (gone C K enc z m0 keys nonces ops)
          then some (.crypto .wasDeleted) else none) false := by
  have h1 := (hU C enc z keys nonces ops h.codec h.engine h.serializer h.faithful h.keys h.nonces h.wf h.timed).1 none g
  have herr : (IM.events z (IM.run z (plainOps C K enc z (start m0 keys nonces) ops)) none g).err = none := by
    obtain ⟨L, hL⟩ := IM.run_E h.serializer (plainOps C K enc z (start m0 keys nonces) ops)
    rw [IM.events_E hL]; rfl
  have h2 : (readAll C K enc (hrun C K enc z (start m0 keys nonces) ops).world
      (IM.events z (hrun C K enc z (start m0 keys nonces) ops).parent none g)).2 =
      decrypted (gone C K enc z m0 keys nonces ops)
        (IM.events z (IM.run z (plainOps C K enc z (start m0 keys nonces) ops)) none g) := h1
  simp only [over, overEncrypted_eq, h2]
  simp only [decrypted, seenBy, unencrypted]
  rw [herr]
  rfl

section

variable {K : Store σ} {m0 : σ} (hU : UpToShredded K m0) {C : Codec} {enc : Encryptor} {z : Serializer}
  {keys nonces : Str} {ops : List HOp} (h : Story C enc z keys nonces ops) (g : Nat)

include hU h

/-- The gRPC server: the call sends the records before the first one of a deleted subject, or before the first one that cannot
be sent, in which case it fails. If it gets to a record of a deleted subject the process ends. -/
theorem C129_grpc (trailing : Bool) (send : Record → Bool) :
    let recs := unencrypted C K enc z m0 keys nonces ops g
    let sh := gone C K enc z m0 keys nonces ops
    let readable := recs.takeWhile (fun r => ! sh r)
    reply trailing (over C K enc z m0 keys nonces ops g (fun _ => false) (sendBody send) []) =
      (readable.takeWhile send,
        if readable.all send then (if recs.any sh then .crash else .ok) else .failed) := by
  intro recs sh readable
  rw [C129_loop hU h]
  simp only [seenBy]
  rw [fold_send_any]
  show reply trailing (if readable.all send = true then fold _ _ _ (if recs.any sh = true then [none] else []) _ _ else _) = _
  cases hs : readable.all send with
  | false => simp [reply, readable, recs, sh]
  | true =>
    have ht : readable.takeWhile send = readable := takeWhile_all _ _ hs
    simp only [if_true, ht, List.nil_append]
    by_cases ha : recs.any sh = true
    · simp [ha, fold, sendBody, reply, readable, recs, sh]
    · rw [show (unencrypted C K enc z m0 keys nonces ops g).any (gone C K enc z m0 keys nonces ops) = recs.any sh from rfl]
      rw [if_neg ha, if_neg ha, if_neg ha]
      cases trailing <;> rfl

omit hU h in
/-- The gRPC server on an unencrypted store that yields `it`: it sends the records before the first one that cannot be sent, in
which case the call fails. Otherwise only `EventsByStream` (`trailing`) reports the error with which the read ended. -/
theorem C129_grpc_plain (trailing : Bool) (send : Record → Bool) (it : Iter) :
    reply trailing (overPlain (fun _ => false) (sendBody send) it []) =
      (it.recs.takeWhile send,
        if it.recs.all send then
          (match it.err with
            | some e => if trailing then .err e else .ok
            | none => .ok)
        else .failed) := by
  have := fold_send_any send it.recs [] it.err false []
  rw [List.append_nil] at this
  rw [overPlain_eq, this]
  cases hs : it.recs.all send with
  | false => simp [reply]
  | true =>
    have ht : it.recs.takeWhile send = it.recs := takeWhile_all _ _ hs
    simp only [if_true, ht, List.nil_append, fold, Bool.false_eq_true, if_false, reply]
    cases trailing <;> cases it.err <;> rfl

/-- A subscription from `g` at the gRPC or WebSocket server, whose `GetRecords` is `Events` of the encrypted store
(config.go:30-32, server.go:291-300, websocket_api.go:121-133): it delivers the records before the first one of a deleted subject and then panics, before it is
registered. -/
theorem C129_subscription (accept : Record → Bool) (ha : ∀ r, accept r = true) (read2 : Nat → Sub → End Sub RErr)
    (hgone : (unencrypted C K enc z m0 keys nonces ops g).any (gone C K enc z m0 keys nonces ops) = true) :
    let s := hrun C K enc z (start m0 keys nonces) ops
    let x := startFrom (readPastEncrypted C K enc s.world (fun n => IM.events z s.parent none n) accept) read2 g
    x.result = .panicked ∧ x.registered = false ∧
      x.sub.out = (unencrypted C K enc z m0 keys nonces ops g).takeWhile (fun r => ! gone C K enc z m0 keys nonces ops r) := by
  intro s x
  have h1 : readPastEncrypted C K enc s.world (fun n => IM.events z s.parent none n) accept g ⟨g, []⟩ = .panicked
      ⟨lastOf g ((unencrypted C K enc z m0 keys nonces ops g).takeWhile (fun r => ! gone C K enc z m0 keys nonces ops r)),
        (unencrypted C K enc z m0 keys nonces ops g).takeWhile (fun r => ! gone C K enc z m0 keys nonces ops r)⟩ := by
    have := C129_loop hU h g (fun _ => false) (subBody accept) ⟨g, []⟩
    refine this.trans ?_
    simp only [seenBy]
    rw [fold_sub accept _ (fun r _ => ha r)]
    simp [hgone, fold, subBody, lastOf]
  simp only [x, startFrom, h1, and_self]

/-- The JSON and ND-JSON exports write the records before the first one of a deleted subject, then `null`, and report no
error. -/
theorem C129_export (fm : Json.Format) (hfm : fm ≠ .msgpack) (marshal : Record → Option Str) (f : Record → Str)
    (hf : ∀ r, marshal r = some (f r)) :
    let recs := unencrypted C K enc z m0 keys nonces ops g
    let sh := gone C K enc z m0 keys nonces ops
    exported fm (over C K enc z m0 keys nonces ops g (fun _ => false) (exportBody fm marshal) ⟨[], false⟩) =
      (fm.opening ++ fm.between.intercalate ((recs.takeWhile (fun r => ! sh r)).map f ++
        (if recs.any sh then [Json.nullText] else [])) ++ fm.closing, .ok) := by
  intro recs sh
  rw [C129_loop hU h]
  simp only [seenBy]
  rw [fold_export fm marshal f _ (fun r _ => hf r)]
  show exported fm (fold _ _ _ (if recs.any sh = true then [none] else []) _ _) = _
  rw [← joined_text, joined_append]
  by_cases ha : recs.any sh = true
  · cases fm with
    | msgpack => exact absurd rfl hfm
    | json => simp [ha, fold, exportBody, exported, joined, recs, sh]
    | ndjson => simp [ha, fold, exportBody, exported, joined, recs, sh]
  · simp [ha, fold, exported, joined, recs, sh]

/-- The MessagePack export ends the process at the first record of a deleted subject. -/
theorem C129_msgpack (marshal : Record → Option Str) (f : Record → Str) (hf : ∀ r, marshal r = some (f r)) :
    let recs := unencrypted C K enc z m0 keys nonces ops g
    let sh := gone C K enc z m0 keys nonces ops
    (exported .msgpack (over C K enc z m0 keys nonces ops g (fun _ => false) (exportBody .msgpack marshal) ⟨[], false⟩)).2 =
      if recs.any sh then .crash else .ok := by
  intro recs sh
  rw [C129_loop hU h]
  simp only [seenBy]
  rw [fold_export .msgpack marshal f _ (fun r _ => hf r)]
  show (exported .msgpack (fold _ _ _ (if recs.any sh = true then [none] else []) _ _)).2 = _
  by_cases ha : recs.any sh = true
  · simp [ha, fold, exportBody, exported]
  · simp [ha, fold, exported]

/-- A page of `n` records: the first `n` of what a reader sees, with a nil record where the first record of a deleted subject
is. -/
theorem C129_page (n : Nat) :
    page (over C K enc z m0 keys nonces ops g (pageEnough n) pageBody []) =
      some ((seenBy (gone C K enc z m0 keys nonces ops) (unencrypted C K enc z m0 keys nonces ops g)).take n) := by
  rw [C129_loop hU h, fold_page]
  simp

/-- **C129**, what holds: as long as no record in the range belongs to a deleted subject, every loop does with an encrypted
store what it does with an unencrypted one. Missing: ranges with such a record. -/
theorem C129_partial (hnone : ∀ r ∈ unencrypted C K enc z m0 keys nonces ops g, gone C K enc z m0 keys nonces ops r = false)
    (enough : α → Bool) (body : α → Option Record → Body α) (a : α) :
    over C K enc z m0 keys nonces ops g enough body a =
      fold enough body a ((unencrypted C K enc z m0 keys nonces ops g).map some) none false := by
  have ha : (unencrypted C K enc z m0 keys nonces ops g).any (gone C K enc z m0 keys nonces ops) = false := by
    rw [List.any_eq_false]; intro r hr; simp [hnone r hr]
  have ht : (unencrypted C K enc z m0 keys nonces ops g).takeWhile (fun r => ! gone C K enc z m0 keys nonces ops r) =
      unencrypted C K enc z m0 keys nonces ops g := by
    generalize unencrypted C K enc z m0 keys nonces ops g = l at hnone
    induction l with
    | nil => rfl
    | cons r l ih => simp [List.takeWhile, hnone r (by simp), ih (fun x hx => hnone x (by simp [hx]))]
  rw [C129_loop hU h]
  simp [seenBy, ha, ht]

end

/-- Deleting a subject makes its records unreadable and nothing else: reading through the gRPC server, exports,
subscriptions and pages goes on working. -/
def C129_full : Prop :=
  ∀ (C : Codec) (enc : Encryptor) (z : Serializer) (keys nonces : Str) (ops : List HOp) (g : Nat),
    Story C enc z keys nonces ops →
    (reply false (over C mem enc z Mem.new keys nonces ops g (fun _ => false) (sendBody (fun _ => true)) [])).2 ≠ .crash ∧
    (exported .msgpack (over C mem enc z Mem.new keys nonces ops g (fun _ => false)
      (exportBody .msgpack (fun _ => some [])) ⟨[], false⟩)).2 ≠ .crash ∧
    ∀ n l, page (over C mem enc z Mem.new keys nonces ops g (pageEnough n) pageBody []) = some l → none ∉ l

theorem story31 : Story codec0 (gcm toyAead) demoAll (tape0 64) (tape0 96) hist31 :=
  ⟨codec0_lawful, gcm_lawful toyAead_lawful, demoAll_lawful, demoAll_faithful, tape0_bytes _ (by decide),
    tape0_bytes _ (by decide), hist31_wf, hist31_timed⟩

/-- **C129 is false**: the gRPC server is ended by a client that reads the events after subject 1 has been deleted. -/
theorem C129_false : ¬ C129_full := by
  intro h
  have := (h codec0 (gcm toyAead) demoAll (tape0 64) (tape0 96) hist31 0 story31).1
  revert this
  decide +kernel

open Demo in
/-- The MessagePack export of the same history ends the process too, and the page of three has a nil record. -/
theorem C129_false_others :
    (exported .msgpack (over codec0 mem (gcm toyAead) demoAll Mem.new (tape0 64) (tape0 96) hist31 0 (fun _ => false)
      (exportBody .msgpack (fun _ => some [])) ⟨[], false⟩)).2 = .crash ∧
    page (over codec0 mem (gcm toyAead) demoAll Mem.new (tape0 64) (tape0 96) hist31 0 (pageEnough 3) pageBody []) =
      some [some (mkRecord sA 1 1 (evA [8])), none] := by decide +kernel

/-- The conditions of the theorems above are met by this history, with a deleted subject when it is read from 0 and without
one when it is read from 3. -/
example :
    (unencrypted codec0 mem (gcm toyAead) demoAll Mem.new (tape0 64) (tape0 96) hist31 0).any
      (gone codec0 mem (gcm toyAead) demoAll Mem.new (tape0 64) (tape0 96) hist31) = true ∧
    (∀ r ∈ unencrypted codec0 mem (gcm toyAead) demoAll Mem.new (tape0 64) (tape0 96) hist31 3,
      gone codec0 mem (gcm toyAead) demoAll Mem.new (tape0 64) (tape0 96) hist31 r = false) ∧
    (unencrypted codec0 mem (gcm toyAead) demoAll Mem.new (tape0 64) (tape0 96) hist31 3).length = 2 := by decide +kernel

example : UpToShredded mem Mem.new ∧ UpToShredded dyn (fun _ => none) := C31_partial

end RangeDB.Use

import Verif.Proof.Remote
import Verif.Thm.Http

/-!
# The remote store: C42, C65, C66
-/

namespace RangeDB.Rem

open RangeDB.Json RangeDB.Http

/-! ## C42: the remote store behaves as the server's store -/

/-- **C42**, invalid batches: an empty batch, and a batch in which an event of one aggregate follows an event of another
one, are rejected before anything reaches the server. (The in-memory store saves the first events of such a batch, see
C06.) -/
theorem C42_invalid_batch {σ : Type} (other : Err → Str)
    (store : σ → Str → Option Nat → List EventRecord → σ × Outcome Nat) (fl : Str → Option Str) (s : σ) (stream : Str)
    (expected : Option Nat) (ers : List EventRecord) (h : ers = [] ∨ Mixed ers) :
    ∃ c, save other store fl s stream expected ers = (s, .err c) ∧
      (ers = [] → c = .store .missingEvents) := by
  rcases h with rfl | h
  · exact ⟨_, rfl, fun _ => rfl⟩
  · have hmain : ∀ (ers : List EventRecord) (t i : Str), Mixed ers → ∃ c, clientEvents t i ers = .error c := by
      intro ers
      induction ers with
      | nil => rintro t i ⟨l, a, b, r, h, _⟩; simp at h
      | cons er ers ih =>
        rintro t i ⟨l, a, b, r, h, hab⟩
        simp only [clientEvents]
        by_cases h1 : t ≠ [] ∧ t ≠ er.event.aggType
        · exact ⟨_, if_pos h1⟩
        rw [if_neg h1]
        by_cases h2 : i ≠ [] ∧ i ≠ er.event.aggId
        · exact ⟨_, if_pos h2⟩
        rw [if_neg h2]
        have htail : ∃ c, clientEvents er.event.aggType er.event.aggId ers = .error c := by
          cases l with
          | nil =>
            simp only [List.nil_append, List.cons.injEq] at h
            obtain ⟨rfl, rfl⟩ := h
            simp only [clientEvents]
            rcases hab with hab | hab
            · exact ⟨_, if_pos hab⟩
            · by_cases h3 : er.event.aggType ≠ [] ∧ er.event.aggType ≠ b.event.aggType
              · exact ⟨_, if_pos h3⟩
              · rw [if_neg h3, if_pos hab]; exact ⟨_, rfl⟩
          | cons x l =>
            simp only [List.cons_append, List.cons.injEq] at h
            exact ih _ _ ⟨l, a, b, r, h.2, hab⟩
        obtain ⟨c, hc⟩ := htail
        cases marshalValue er.event.data with
        | none => exact ⟨_, rfl⟩
        | some d =>
          cases marshalValue er.metadata with
          | none => exact ⟨_, rfl⟩
          | some m => simp only [hc]; exact ⟨_, rfl⟩
    have hlen : ¬ ers.length < 1 := by
      obtain ⟨l, a, b, r, rfl, _⟩ := h
      simp
    obtain ⟨c, hc⟩ := hmain ers [] [] h
    refine ⟨c, by simp only [save, if_neg hlen, hc], fun he => ?_⟩
    obtain ⟨l, a, b, r, he', _⟩ := h
    rw [he] at he'
    simp at he'

/-- **C42**, saving: a batch of events of one aggregate that can be sent is given to the server's store, once, and the
state after the call is the one that the store leaves. The client gets the sequence number that the store returned; an
error if and only if it returned one; and, from `OptimisticSave`, an unexpected-sequence-number error exactly if the store
returned it, with the same numbers. Missing: batches that cannot be sent without loss (C66) or at all (names that are not
UTF-8). -/
theorem C42_save_partial {σ : Type} (other : Err → Str) (hq : Quiet other)
    (store : σ → Str → Option Nat → List EventRecord → σ × Outcome Nat) (fl : Str → Option Str) (s : σ) (stream : Str)
    (expected : Option Nat) (ers : List EventRecord) (hst : Valid stream) (hne : ers ≠ []) (hs : OneAggregate ers)
    (h : ∀ er ∈ ers, Sendable fl er) :
    let p := store s stream expected (ers.map arrives)
    let q := save other store fl s stream expected ers
    q.1 = p.1 ∧
    (∀ n, q.2 = .ok n ↔ p.2 = .ok n) ∧
    ((∃ c, q.2 = .err c) ↔ ∃ e, p.2 = .err e) ∧
    (∀ x y, expected.isSome → x < 2 ^ 64 → y < 2 ^ 64 → p.2 = .err (.unexpected x y) →
      q.2 = .err (.store (.unexpected x y))) ∧
    (∀ x y, q.2 = .err (.store (.unexpected x y)) → ∃ x' y', p.2 = .err (.unexpected x' y')) := by
  intro p q
  have hq' : q = (p.1, match p.2 with
      | .ok n => .ok n
      | .err e => .err (saveError expected.isSome (tCode ++ (tInternalDesc ++ (tUnableSave ++ errText other e))))
      | .panic => .none
      | .blocked => .none) := by
    have hlen : ¬ ers.length < 1 := by cases ers with
      | nil => simp at hne
      | cons => simp
    show save other store fl s stream expected ers = _
    simp only [save, if_neg hlen, clientEvents_ok [] [] ers (fun _ _ => Or.inl rfl) (fun _ _ => Or.inl rfl) hs h,
      messages_sendable ers h, hst, decide_true, Bool.and_self, Bool.not_true, Bool.false_eq_true, if_false, serverSave,
      serverEvents_ok ers h]
    show (p.1, _) = (p.1, _)
    rw [Prod.mk.injEq]
    refine ⟨rfl, ?_⟩
    show (match (match p.2 with
        | .ok n => some (.ok n)
        | .err e => some (.error (tInternalDesc ++ (tUnableSave ++ errText other e)))
        | .panic => none
        | .blocked => none : Reply Nat) with
      | some (.ok n) => CResult.ok n
      | some (.error t) => .err (saveError expected.isSome (tCode ++ t))
      | none => .none) = _
    cases p.2 <;> rfl
  rw [hq']
  refine ⟨rfl, ?_, ?_, ?_, ?_⟩
  · intro n
    cases p.2 <;> simp
  · cases p.2 <;> simp
  · intro x y hx h1 h2 hp
    rw [hp]
    simp only [saveError, internal_canceled hq, Bool.false_eq_true, if_false, hx, internal_unexpected, Bool.true_and,
      (errText_unexpected hq _).mpr ⟨x, y, rfl⟩, if_true, internal_parse x y h1 h2]
  · intro x y hxy
    cases hp : p.2 with
    | err e =>
      rw [hp] at hxy
      simp only [saveError, internal_canceled hq, Bool.false_eq_true, if_false, internal_unexpected] at hxy
      by_cases hc : (expected.isSome && contains (errText other e) tErrUnexpected) = true
      · rw [Bool.and_eq_true] at hc
        obtain ⟨x', y', rfl⟩ := (errText_unexpected hq e).mp hc.2
        exact ⟨x', y', rfl⟩
      · rw [if_neg hc] at hxy; simp at hxy
    | _ => rw [hp] at hxy; simp at hxy

/-- **C42**, names that are not UTF-8: nothing is sent. (The server's store would take them: see C62.) -/
theorem C42_invalid_name {σ : Type} (other : Err → Str)
    (store : σ → Str → Option Nat → List EventRecord → σ × Outcome Nat) (fl : Str → Option Str) (s : σ) (stream : Str)
    (expected : Option Nat) (ers : List EventRecord) (h : ¬ Valid stream) :
    ∃ c, save other store fl s stream expected ers = (s, .err c) := by
  unfold save
  by_cases h1 : ers.length < 1
  · rw [if_pos h1]; exact ⟨_, rfl⟩
  rw [if_neg h1]
  cases clientEvents [] [] ers with
  | error e => exact ⟨_, rfl⟩
  | ok es => simp [h]

/-- **C42**, deleting: the client gets what the server's store returned. -/
theorem C42_delete {σ : Type} (other : Err → Str) (hq : Quiet other) (store : σ → Str → Nat → σ × Outcome Unit) (s : σ)
    (stream : Str) (expected : Nat) (hst : Valid stream) :
    let p := store s stream expected
    let q := delete other store s stream expected
    q.1 = p.1 ∧
    (q.2 = .ok () ↔ p.2 = .ok ()) ∧
    ((∃ c, q.2 = .err c) ↔ ∃ e, p.2 = .err e) ∧
    (q.2 = .err (.store .notFound) ↔ p.2 = .err .notFound) ∧
    (∀ x y, x < 2 ^ 64 → y < 2 ^ 64 → p.2 = .err (.unexpected x y) → q.2 = .err (.store (.unexpected x y))) ∧
    (∀ x y, q.2 = .err (.store (.unexpected x y)) → ∃ x' y', p.2 = .err (.unexpected x' y')) := by
  intro p q
  have hq' : q = (p.1, match p.2 with
      | .ok _ => .ok ()
      | .err e =>
        .err (if contains (tCode ++ (tUnknownDesc ++ errText other e)) tErrNotFound then .store .notFound
          else if contains (tCode ++ (tUnknownDesc ++ errText other e)) tErrUnexpected then
            .store (.unexpected (Txt.parseUnexpected (tCode ++ (tUnknownDesc ++ errText other e))).1
              (Txt.parseUnexpected (tCode ++ (tUnknownDesc ++ errText other e))).2)
          else .rpc (tCode ++ (tUnknownDesc ++ errText other e)))
      | .panic => .none
      | .blocked => .none) := by
    show delete other store s stream expected = _
    simp only [delete, hst, decide_true, Bool.not_true, Bool.false_eq_true, if_false, unknown_canceled hq]
    rfl
  rw [hq']
  have hnf : ∀ e, e ≠ .notFound → contains (tCode ++ (tUnknownDesc ++ errText other e)) tErrNotFound = false := by
    intro e he
    cases hc : contains (tCode ++ (tUnknownDesc ++ errText other e)) tErrNotFound with
    | false => rfl
    | true => exact absurd ((unknown_notFound hq e).mp hc) he
  refine ⟨rfl, ?_, ?_, ?_, ?_, ?_⟩
  · cases p.2 <;> simp
  · cases p.2 <;> simp
  · cases hp : p.2 with
    | err e =>
      by_cases he : e = .notFound
      · subst he
        simp only [(unknown_notFound hq .notFound).mpr rfl, if_true]
      · simp only [hnf e he, Bool.false_eq_true, if_false]
        split <;> simp [he]
    | _ => simp
  · intro x y hx hy hp
    rw [hp]
    simp only [hnf (.unexpected x y) (by simp), Bool.false_eq_true, if_false, unknown_unexpected,
      (errText_unexpected hq _).mpr ⟨x, y, rfl⟩, if_true, unknown_parse x y hx hy]
  · intro x y hxy
    cases hp : p.2 with
    | err e =>
      rw [hp] at hxy
      by_cases he : e = .notFound
      · subst he
        simp only [(unknown_notFound hq .notFound).mpr rfl, if_true] at hxy
        simp at hxy
      · simp only [hnf e he, Bool.false_eq_true, if_false, unknown_unexpected] at hxy
        by_cases hc : contains (errText other e) tErrUnexpected = true
        · obtain ⟨x', y', rfl⟩ := (errText_unexpected hq e).mp hc
          exact ⟨x', y', rfl⟩
        · rw [if_neg hc] at hxy; simp at hxy
    | _ => rw [hp] at hxy; simp at hxy

/-- **C42**, counting. -/
theorem C42_total {σ : Type} (other : Err → Str) (store : σ → Str → Outcome Nat) (s : σ) (stream : Str)
    (hst : Valid stream) (n : Nat) : total other store s stream = .ok n ↔ store s stream = .ok n := by
  unfold total
  simp only [hst, decide_true, Bool.not_true, Bool.false_eq_true, if_false]
  cases store s stream <;> simp

/-- **C42**, reading a stream: the client gets the records of the server's store, in order, and an error if and only if
the store reported one, a missing stream as such. Missing: records that the client does not read as they are (C66). -/
theorem C42_stream_partial (other : Err → Str) (hq : Quiet other) (ty : Types) (fl : Str → Option Str) (it : Iter)
    (h : ∀ r ∈ it.recs, Readable ty fl r) :
    (eventsByStream other ty fl it).recs = it.recs ∧
    ((eventsByStream other ty fl it).err = none ↔ it.err = none) ∧
    ((eventsByStream other ty fl it).err = some (.store .notFound) ↔ it.err = some .notFound) := by
  obtain ⟨recs, err⟩ := it
  have h1 : eventsByStream other ty fl ⟨recs, err⟩ =
      ⟨recs, statusError (err.map (fun e => tUnknownDesc ++ errText other e))⟩ := by
    unfold eventsByStream read
    simp only [RecordIterator.new]
    rw [serve_ok other true err recs (fun r hr => (h r hr).servable) .zero rfl]
    exact receive_ok _ _ h
  rw [h1]
  refine ⟨rfl, ?_, ?_⟩
  · cases err with
    | none => simp [statusError, receive]
    | some e => simp [statusError, receive]
  · cases err with
    | none => simp [statusError, receive]
    | some e =>
      simp only [statusError, receive, Option.map_some, unknown_canceled hq, Bool.false_eq_true, if_false,
        Option.some.injEq]
      by_cases he : e = .notFound
      · subst he
        simp only [(unknown_notFound hq .notFound).mpr rfl, if_true]
      · have : contains (tCode ++ (tUnknownDesc ++ errText other e)) tErrNotFound = false := by
          cases hc : contains (tCode ++ (tUnknownDesc ++ errText other e)) tErrNotFound with
          | false => rfl
          | true => exact absurd ((unknown_notFound hq e).mp hc) he
        simp [this, he]

/-! The premises can be met. -/

def demoOther : Err → Str := fun _ => [100, 98]

theorem demoOther_quiet : Quiet demoOther := by
  intro e
  show contains [100, 98] tErrUnexpected = false ∧ contains [100, 98] tErrCanceled = false ∧
    contains [100, 98] Http.tNotFound = false
  decide

/-- A client's type that prints the fields of its data in the order k, b, and no others. -/
def demoTy : Types := fun _ v =>
  match v with
  | .obj [(_, x), (_, y)] => some (Json.obj [([107], y), ([98], x)]).text
  | v => some v.canon.text

def demoRemData : Json := .obj [([107], .num [49]), ([98], .str [226, 130, 172])]

def demoRemEr : EventRecord := ⟨⟨[65], [49], [69], demoRemData.text⟩, (Json.obj [([117], .num [50])]).text, [117], 7⟩

theorem demoRemEr_roundTrips : RoundTrips demoTy demoFl demoRemEr where
  aggType := show Valid [65] by decide
  aggId := show Valid [49] by decide
  evType := show Valid [69] by decide
  uuid := show Valid [117] by decide
  now := show 7 < 2 ^ 64 by decide
  data := ⟨demoRemData, by simp only [demoRemData, Json.WF, WFf]; decide, by simp [demoRemData],
    by unfold Exact; decide +kernel, rfl, by decide +kernel⟩
  metadata := ⟨.obj [([117], .num [50])], by simp only [Json.WF, WFf]; decide, by unfold Exact; decide +kernel, rfl, rfl⟩

example : (save demoOther (imSave (serializer unbound)) demoFl IM.init [65, 33, 49] (some 3) [demoRemEr]).2 =
    .err (.store (.unexpected 3 0)) := by decide +kernel

example : OneAggregate [demoRemEr, demoRemEr] := by
  intro a ha b hb
  simp only [List.mem_cons, List.not_mem_nil, or_false, or_self] at ha hb
  simp [ha, hb]

example : Mixed [demoRemEr, { demoRemEr with event := { demoRemEr.event with aggType := [66] } }] :=
  ⟨[], demoRemEr, _, [], rfl, Or.inl ⟨show [65] ≠ [] by decide, show [65] ≠ [66] by decide⟩⟩

/-! ## C66: data and metadata survive the remote store -/

/-- **C66** where it holds, server with the in-memory store: after any history of good events on the server that the
client can read, a successful remote `Save` or `OptimisticSave` of events that round-trip is read back by the client's
`Events`: exactly these events, with the data and the metadata that the client gave, behind the earlier ones.
Missing: `null` data, numbers that are not exact in `float64` (data), metadata likewise. -/
theorem C66_inmemory_partial (other : Err → Str) (hq : Quiet other) (ty : Types) (fl : Str → Option Str) (ops : List Op)
    (hg : ∀ op ∈ ops, GoodOp unbound op) (stream : Str) (hst : Valid stream) (expected : Option Nat)
    (ers : List EventRecord) (hs : OneAggregate ers) (h : ∀ er ∈ ers, RoundTrips ty fl er)
    (hb : (ops.map Op.size).sum + ers.length < 2 ^ 64)
    (hold : (events other ty fl (IM.events (serializer unbound) (IM.run (serializer unbound) ops) none 0)).err = none)
    (s' : IM.State) (k : Nat)
    (hok : save other (imSave (serializer unbound)) fl (IM.run (serializer unbound) ops) stream expected ers =
      (s', .ok k)) :
    ∃ n g, events other ty fl (IM.events (serializer unbound) s' none 0) =
      ⟨(events other ty fl (IM.events (serializer unbound) (IM.run (serializer unbound) ops) none 0)).recs ++
        numbered stream g n ers, none⟩ := by
  have hne : ers ≠ [] := by
    rintro rfl
    simp [save] at hok
  obtain ⟨h1, h2, _⟩ := C42_save_partial other hq (imSave (serializer unbound)) fl (IM.run (serializer unbound) ops) stream
    expected ers hst hne hs (fun er her => (h er her).sendable)
  rw [hok] at h1 h2
  have hk := (h2 k).mp rfl
  have hlen : (ers.map arrives).length = ers.length := by simp
  have hgs : GoodOp unbound (.save stream expected none (ers.map arrives)) := by
    refine ⟨hst, ?_⟩
    intro er her
    obtain ⟨x, hx, rfl⟩ := List.mem_map.mp her
    exact (h x hx).good
  simp only [imSave] at h1 hk
  obtain ⟨n, g, e1, e2⟩ := C61_inmemory_partial unbound ops hg stream expected none _ hgs (by omega) k hk
  rw [← h1] at e2
  obtain ⟨c1, c2⟩ := im_run_congr ops hg (by omega)
  have hsto : Stored (goodZ unbound) s' := by
    rw [h1, c1, im_saveEvents_congr c2 hst expected none _ hgs.2 (by omega)]
    exact stored_save (stored_run _ ops) _ _ _ _
  have hnew := im_events_good hsto none 0
  rw [← im_events_deser, e2] at hnew
  have hserve : ∀ (rs : List Record), (∀ r ∈ rs, Good unbound r) → ∀ err, events other ty fl ⟨rs, err⟩ =
      receive ty fl none rs := by
    intro rs hrs err
    unfold events read
    simp only [RecordIterator.new]
    rw [serve_ok other false err rs (fun r hr => good_servable (hrs r hr)) .zero rfl]
    rfl
  have hold' : IM.events (serializer unbound) (IM.run (serializer unbound) ops) none 0 =
      ⟨(IM.events (serializer unbound) (IM.run (serializer unbound) ops) none 0).recs, none⟩ := by
    rw [← e1]
  refine ⟨n, g, ?_⟩
  rw [hold', hserve _ (fun r hr => hnew r (List.mem_append_left _ hr))] at hold
  rw [e2, hserve _ hnew, hold', hserve _ (fun r hr => hnew r (List.mem_append_left _ hr)),
    receive_append _ _ _ hold, receive_map _ _ _ (numbered_map stream ers h g n)]
  simp [statusError, receive]

example : (save demoOther (imSave (serializer unbound)) demoFl
    (IM.run (serializer unbound) [.save [65, 33, 49] none none [demoEr goodData]]) [65, 33, 49] (some 1)
      [demoRemEr, demoRemEr]).2 = .ok 3 ∧
    (events demoOther demoTy demoFl (IM.events (serializer unbound)
      (IM.run (serializer unbound) [.save [65, 33, 49] none none [demoEr goodData]]) none 0)).err = none := by
  decide +kernel

/-- The records of a LevelDB store with a history of good events are good. -/
theorem ld_events_good (ops : List Op) (hg : ∀ op ∈ ops, GoodOp unbound op) (hn : ∀ op ∈ ops, op.NamesIn N)
    (hb : (ops.map Op.size).sum < 2 ^ 64) (it : Iter)
    (h : LD.events (serializer unbound) (LD.run (serializer unbound) ops) none 0 = .ok it) :
    it.err = none ∧ ∀ r ∈ it.recs, Good unbound r := by
  rw [ld_run_congr (ty := unbound) ops hg hn hb, ld_events_deser] at h
  have hmux : (LD.run (goodZ unbound) ops).muxHeld = false := by
    cases hx : (LD.run (goodZ unbound) ops).muxHeld with
    | false => rfl
    | true => simp [LD.events, hx] at h
  obtain ⟨hsim, _⟩ := LD.run_simA (goodZ_lawful unbound) _ hn hb
  have hrd := ((LD.C11_reads (goodZ_lawful unbound) _ hn hb).1 (hsim.mux.symm.trans hmux)).1 none 0 (by omega)
  rw [hrd] at h
  obtain ⟨recs, err⟩ := it
  simp only [cut, Outcome.ok.injEq, Iter.mk.injEq] at h
  refine ⟨h.2.symm, ?_⟩
  intro x hx
  simp only at hx
  rw [← h.1] at hx
  exact aRun_good unbound _ x (List.mem_filter.mp hx).1

/-- **C66** where it holds, server with the LevelDB store. -/
theorem C66_leveldb_partial (other : Err → Str) (hq : Quiet other) (ty : Types) (fl : Str → Option Str) (ops : List Op)
    (hg : ∀ op ∈ ops, GoodOp unbound op) (hn : ∀ op ∈ ops, op.NamesIn N) (stream : Str) (hst : Valid stream)
    (hsep : N.streams stream) (expected : Option Nat) (ers : List EventRecord) (hs : OneAggregate ers)
    (h : ∀ er ∈ ers, RoundTrips ty fl er ∧ N.types er.event.aggType)
    (hb : (ops.map Op.size).sum + ers.length < 2 ^ 64) (old : Iter)
    (hold : LD.events (serializer unbound) (LD.run (serializer unbound) ops) none 0 = .ok old)
    (hclient : (events other ty fl old).err = none) (s' : LD.State) (k : Nat)
    (hok : save other (ldSave (serializer unbound)) fl (LD.run (serializer unbound) ops) stream expected ers =
      (s', .ok k)) :
    ∃ n g new, LD.events (serializer unbound) s' none 0 = .ok new ∧
      events other ty fl new = ⟨(events other ty fl old).recs ++ numbered stream g n ers, none⟩ := by
  have hne : ers ≠ [] := by
    rintro rfl
    simp [save] at hok
  obtain ⟨h1, h2, _⟩ := C42_save_partial other hq (ldSave (serializer unbound)) fl (LD.run (serializer unbound) ops) stream
    expected ers hst hne hs (fun er her => (h er her).1.sendable)
  rw [hok] at h1 h2
  have hk := (h2 k).mp rfl
  have hlen : (ers.map arrives).length = ers.length := by simp
  have hgs : GoodOp unbound (.save stream expected none (ers.map arrives)) := by
    refine ⟨hst, ?_⟩
    intro er her
    obtain ⟨x, hx, rfl⟩ := List.mem_map.mp her
    exact (h x hx).1.good
  have hno : (Op.save stream expected none (ers.map arrives)).NamesIn N := by
    refine ⟨hsep, ?_⟩
    intro er her
    obtain ⟨x, hx, rfl⟩ := List.mem_map.mp her
    exact (h x hx).2
  simp only [ldSave] at h1 hk
  obtain ⟨g, e2⟩ := C61_leveldb_partial unbound ops hg hn stream expected none _ hgs hno (by omega) old
    (LD.getStreamSequenceNumber (LD.run (serializer unbound) ops).db stream) hold
    (by simp [LD.totalEventsInStream]) k hk
  rw [← h1] at e2
  refine ⟨LD.getStreamSequenceNumber (LD.run (serializer unbound) ops).db stream, g, _, e2, ?_⟩
  have hrun : s' = LD.run (serializer unbound) (ops ++ [.save stream expected none (ers.map arrives)]) := by
    rw [h1, LD.run, LD.run, List.foldl_append]
    rfl
  have hnew := (ld_events_good (ops ++ [.save stream expected none (ers.map arrives)])
    (by
      intro op hop
      rcases List.mem_append.mp hop with hop | hop
      · exact hg op hop
      · rw [List.mem_singleton.mp hop]; exact hgs)
    (by
      intro op hop
      rcases List.mem_append.mp hop with hop | hop
      · exact hn op hop
      · rw [List.mem_singleton.mp hop]; exact hno)
    (by
      simp only [List.map_append, List.sum_append, List.map_cons, List.map_nil, Op.size, List.sum_cons, List.sum_nil]
      omega) _ (by rw [← hrun]; exact e2)).2
  have hserve : ∀ (rs : List Record), (∀ r ∈ rs, Good unbound r) → ∀ err, events other ty fl ⟨rs, err⟩ =
      receive ty fl none rs := by
    intro rs hrs err
    unfold events read
    simp only [RecordIterator.new]
    rw [serve_ok other false err rs (fun r hr => good_servable (hrs r hr)) .zero rfl]
    rfl
  have hoe : events other ty fl old = receive ty fl none old.recs :=
    hserve old.recs (fun r hr => hnew r (List.mem_append_left _ hr)) old.err
  rw [hoe] at hclient ⊢
  rw [hserve _ hnew, receive_append _ _ _ hclient,
    receive_map _ _ _ (numbered_map stream ers (fun er her => (h er her).1) g _)]
  simp [statusError, receive]

example : (save demoOther (ldSave (serializer unbound)) demoFl
    (LD.run (serializer unbound) [.save [65, 33, 49] none none [demoEr goodData]]) [65, 33, 49] (some 1)
      [demoRemEr, demoRemEr]).2 = .ok 3 := by decide +kernel

/-- The full claim, for one event and an empty store: what the client saves, the client reads. -/
def C66_full (fl : Str → Option Str) : Prop :=
  ∀ (other : Err → Str) (stream : Str) (er : EventRecord) (s' : IM.State) (k : Nat),
    save other (imSave (serializer unbound)) fl IM.init stream none [er] = (s', .ok k) →
    (events other unbound fl (IM.events (serializer unbound) s' none 0)).recs.map (fun r => (r.data, r.metadata)) =
      [(er.event.data, er.metadata)]

/-- An event whose data is a number. -/
def numEr (n : Nat) : EventRecord := ⟨⟨[65], [49], [69], Dec.natText n⟩, nullText, [117], 7⟩

theorem natText_wf (n : Nat) : (Json.num (Dec.natText n)).WF := by simp only [Json.WF]; exact scanNum_natText n

theorem natText_parse (n : Nat) : parse (Dec.natText n) = some (.num (Dec.natText n), []) :=
  parse_wf_text (natText_wf n)

/-- A remote save of a number: the server's store gets the number that `float64` makes of it. -/
theorem save_num (other : Err → Str) (fl : Str → Option Str) (n m : Nat) (hf : fl (Dec.natText n) = some (Dec.natText m)) :
    (save other (imSave (serializer unbound)) fl IM.init [65, 33, 49] none [numEr n]) =
      ((imSave (serializer unbound) IM.init [65, 33, 49] none [numEr m]).1,
        match (imSave (serializer unbound) IM.init [65, 33, 49] none [numEr m]).2 with
        | .ok n => .ok n
        | .err e => .err (saveError false (tCode ++ (tInternalDesc ++ (tUnableSave ++ errText other e))))
        | .panic => .none
        | .blocked => .none) := by
  have m1 : marshalValue (Dec.natText n) = some (.num (Dec.natText n)) := by
    simp [marshalValue, natText_parse]
  have m2 : marshalValue nullText = some .null := by
    have := marshalValue_text .null (by simp [Json.WF]); simpa [Json.text] using this
  have hu : unmarshal fl (Dec.natText n) = some (Dec.natText m) := by
    simp [unmarshal, natText_parse, skipWs, decodeAny, allNums, hf, Json.any, Json.text]
  have hn : unmarshal fl nullText = some nullText := by
    exact unmarshal_text (fl := fl) (d := .null) (by simp [Json.WF]) rfl
  have c1 : clientEvents [] [] [numEr n] = .ok [⟨[65], [49], [69], Dec.natText n, nullText, [117], 7⟩] := by
    simp [clientEvents, numEr, m1, m2, Json.text]
  have v1 : Valid (Dec.natText n) := text_valid (natText_wf n)
  have c2 : PbEvent.sendable ⟨[65], [49], [69], Dec.natText n, nullText, [117], 7⟩ = true := by
    simp only [PbEvent.sendable, v1, decide_true, Bool.and_true]
    show (decide (Valid [65]) && decide (Valid [49]) && decide (Valid [69]) && decide (Valid nullText)) = true
    decide
  have c3 : serverEvents fl [⟨[65], [49], [69], Dec.natText n, nullText, [117], 7⟩] = .ok [numEr m] := by
    simp only [serverEvents, hu, if_neg (show nullText ≠ [] by decide), hn]
    rfl
  have vst : Valid [65, 33, 49] := by decide
  simp only [save, List.length_cons, List.length_nil, c1, vst, decide_true, List.all_cons, List.all_nil, c2, Bool.and_self,
    Bool.not_true, Bool.false_eq_true, if_false, serverSave, c3]
  rw [if_neg (by omega), Prod.mk.injEq]
  refine ⟨rfl, ?_⟩
  cases (imSave (serializer unbound) IM.init [65, 33, 49] none [numEr m]).2 <;> rfl

/-- **C66 is false**: an integer above 2^53 is changed by the server. The save is reported as successful, and the client
reads another number. -/
theorem C66_numbers_changed (other : Err → Str) (fl : Str → Option Str) (hl : FloatLaw fl) :
    ∃ s', save other (imSave (serializer unbound)) fl IM.init [65, 33, 49] none [numEr (2 ^ 53 + 1)] = (s', .ok 1) ∧
      (events other unbound fl (IM.events (serializer unbound) s' none 0)).recs.map (·.data) = [Dec.natText (2 ^ 53)] := by
  refine ⟨(imSave (serializer unbound) IM.init [65, 33, 49] none [numEr (2 ^ 53)]).1, ?_, ?_⟩
  · rw [save_num other fl _ _ hl.rounds]
    have : (imSave (serializer unbound) IM.init [65, 33, 49] none [numEr (2 ^ 53)]).2 = .ok 1 := by decide +kernel
    rw [this]
  · have h1 : IM.events (serializer unbound) (imSave (serializer unbound) IM.init [65, 33, 49] none [numEr (2 ^ 53)]).1
        none 0 = ⟨[⟨[65, 33, 49], [65], [49], 1, 1, 7, [117], [69], Dec.natText (2 ^ 53), nullText⟩], none⟩ := by
      decide +kernel
    rw [h1]
    have hr : ∀ r ∈ [(⟨[65, 33, 49], [65], [49], 1, 1, 7, [117], [69], Dec.natText (2 ^ 53), nullText⟩ : Record)],
        Readable unbound fl r := by
      intro r hr
      rw [List.mem_singleton] at hr
      subst hr
      exact ⟨show Valid [65, 33, 49] by decide, show Valid [65] by decide, show Valid [49] by decide,
        show Valid [117] by decide, show Valid [69] by decide,
        ⟨.num (Dec.natText (2 ^ 53)), natText_wf _, rfl, rfl⟩,
        ⟨.null, by simp [Json.WF], rfl, rfl, rfl⟩⟩
    unfold events read
    simp only [RecordIterator.new]
    rw [serve_ok other false none _ (fun r h => (hr r h).servable) .zero rfl]
    simp only [receive_ok _ _ hr]
    rfl

theorem C66_false (fl : Str → Option Str) (hl : FloatLaw fl) : ¬ C66_full fl := by
  intro h
  obtain ⟨s', h1, h2⟩ := C66_numbers_changed demoOther fl hl
  have h3 := congrArg (List.map Prod.fst) (h demoOther [65, 33, 49] (numEr (2 ^ 53 + 1)) s' 1 h1)
  rw [List.map_map] at h3
  have h4 : (events demoOther unbound fl (IM.events (serializer unbound) s' none 0)).recs.map (·.data) =
      [Dec.natText (2 ^ 53 + 1)] := h3
  rw [h2] at h4
  simp only [List.cons.injEq, and_true] at h4
  have := Dec.natText_inj h4
  omega

/-- A client whose event type holds a `uint64`. -/
def uint64Ty : Types := fun _ v =>
  match v with
  | .num t => (Dec.parseUint t).map Dec.natText
  | _ => none

/-- **C66 is false**, for typed events: the largest `uint64` leaves the server as a number that no `uint64` holds. The
save is reported as successful, and from then on every remote read by a client with the bound type ends before it with an
error: neither this event nor any later one can be read. -/
theorem C66_uint64_hides (other : Err → Str) (fl : Str → Option Str)
    (hf : fl (Dec.natText (2 ^ 64 - 1)) = some (Dec.natText 18446744073709552000)) :
    ∃ s', save other (imSave (serializer unbound)) fl IM.init [65, 33, 49] none [numEr (2 ^ 64 - 1)] = (s', .ok 1) ∧
      events other uint64Ty fl (IM.events (serializer unbound)
        (imSave (serializer unbound) s' [66, 33, 49] none [numEr 5]).1 none 0) = ⟨[], some .codec⟩ := by
  refine ⟨(imSave (serializer unbound) IM.init [65, 33, 49] none [numEr 18446744073709552000]).1, ?_, ?_⟩
  · rw [save_num other fl _ _ hf]
    have : (imSave (serializer unbound) IM.init [65, 33, 49] none [numEr 18446744073709552000]).2 = .ok 1 := by
      decide +kernel
    rw [this]
  · have h1 : IM.events (serializer unbound) (imSave (serializer unbound)
        (imSave (serializer unbound) IM.init [65, 33, 49] none [numEr 18446744073709552000]).1 [66, 33, 49] none
          [numEr 5]).1 none 0 =
        ⟨[⟨[65, 33, 49], [65], [49], 1, 1, 7, [117], [69], Dec.natText 18446744073709552000, nullText⟩,
          ⟨[66, 33, 49], [65], [49], 2, 1, 7, [117], [69], Dec.natText 5, nullText⟩], none⟩ := by
      decide +kernel
    rw [h1]
    have hs : ∀ r ∈ [(⟨[65, 33, 49], [65], [49], 1, 1, 7, [117], [69], Dec.natText 18446744073709552000, nullText⟩ : Record),
        ⟨[66, 33, 49], [65], [49], 2, 1, 7, [117], [69], Dec.natText 5, nullText⟩], Servable r := by
      intro r hr
      simp only [List.mem_cons, List.not_mem_nil, or_false] at hr
      rcases hr with rfl | rfl
      · exact ⟨show Valid [65, 33, 49] by decide, show Valid [65] by decide, show Valid [49] by decide,
          show Valid [117] by decide, show Valid [69] by decide, ⟨.num _, natText_wf _, rfl⟩,
          ⟨.null, by simp [Json.WF], rfl⟩⟩
      · exact ⟨show Valid [66, 33, 49] by decide, show Valid [65] by decide, show Valid [49] by decide,
          show Valid [117] by decide, show Valid [69] by decide, ⟨.num _, natText_wf _, rfl⟩,
          ⟨.null, by simp [Json.WF], rfl⟩⟩
    unfold events read
    simp only [RecordIterator.new]
    rw [serve_ok other false none _ hs .zero rfl]
    have : toRecord uint64Ty fl
        ⟨[65, 33, 49], [65], [49], 1, 1, 7, [117], [69], Dec.natText 18446744073709552000, nullText⟩ = none := by
      have : decodeData uint64Ty [69] (Dec.natText 18446744073709552000) = none := by decide +kernel
      simp [toRecord, this]
    simp only [receive, this]

/-- **C66 is false** for metadata, whatever the types that the client has bound: a record whose metadata holds an integer
above 2^53 reaches the client with other metadata, also if it was saved locally on the server. -/
theorem C66_metadata_changed (other : Err → Str) (ty : Types) (fl : Str → Option Str) (hl : FloatLaw fl) (r : Record)
    (h : Readable ty fl { r with metadata := nullText }) (hm : r.metadata = Dec.natText (2 ^ 53 + 1)) :
    eventsByStream other ty fl ⟨[r], none⟩ = ⟨[{ r with metadata := Dec.natText (2 ^ 53) }], none⟩ := by
  have hs : Servable r :=
    ⟨h.streamName, h.aggType, h.aggId, h.eventId, h.evType, by obtain ⟨d, hd, ed, _⟩ := h.data; exact ⟨d, hd, ed⟩,
      ⟨.num (Dec.natText (2 ^ 53 + 1)), natText_wf _, hm⟩⟩
  unfold eventsByStream read
  simp only [RecordIterator.new]
  rw [serve_ok other true none [r] (by simpa using hs) .zero rfl]
  have hto : toRecord ty fl r = some { r with metadata := Dec.natText (2 ^ 53) } := by
    obtain ⟨d, hd, ed, hty⟩ := h.data
    simp only at ed hty
    have hu : unmarshal fl (Dec.natText (2 ^ 53 + 1)) = some (Dec.natText (2 ^ 53)) := by
      simp only [unmarshal, natText_parse, skipWs, decodeAny, allNums, hl.rounds, Json.any, Json.text, if_true,
        Option.isSome_some, Option.map_some, Option.getD_some, List.dropWhile_nil]
    have hne : Dec.natText (2 ^ 53 + 1) ≠ nullText := by decide +kernel
    unfold toRecord
    rw [hm, if_pos hne, hu, ed, decodeData_text hd, hty]
    simp [ed]
  simp [receive, hto]

/-! ## C65: remote reads report errors -/

/-- The full claim: a remote `Events` or `EventsByAggregateTypes` that ends without an error has delivered all that the
server's store had to deliver. -/
def C65_full (other : Err → Str) (ty : Types) (fl : Str → Option Str) : Prop :=
  ∀ it : Iter, (events other ty fl it).err = none → it.err = none

/-- **C65 is false**: whatever error the server's store reports after whatever records, the client of `Events` gets these
records and no error. -/
theorem C65_error_lost (other : Err → Str) (ty : Types) (fl : Str → Option Str) (recs : List Record)
    (h : ∀ r ∈ recs, Readable ty fl r) (e : Err) : events other ty fl ⟨recs, some e⟩ = ⟨recs, none⟩ := by
  unfold events read
  simp only [RecordIterator.new]
  rw [serve_ok other false (some e) recs (fun r hr => (h r hr).servable) .zero rfl]
  exact receive_ok _ _ h

theorem C65_false (other : Err → Str) (ty : Types) (fl : Str → Option Str) : ¬ C65_full other ty fl := by
  intro h
  have h1 := h ⟨[], some .db⟩ (by rw [C65_error_lost other ty fl [] (by simp)])
  simp at h1

/-- The defect is reachable: an event with `null` data on the server, saved locally and accepted, makes remote reads end
early and without an error, whereas a local read reports it. -/
theorem C65_reachable :
    let s := IM.run (serializer unbound) [Op.save [65, 33, 49] none none [demoEr goodData],
      .save [65, 33, 50] none none [demoEr nullText], .save [65, 33, 51] none none [demoEr goodData]]
    (IM.events (serializer unbound) s none 0).err = some .deserialize ∧
    (events demoOther unbound demoFl (IM.events (serializer unbound) s none 0)).recs.length = 1 ∧
    (events demoOther unbound demoFl (IM.events (serializer unbound) s none 0)).err = none := by
  decide +kernel

/-- **C42**, reading all events or those of some aggregate types: the client gets the records of the server's store, in
order. Missing: records that the client does not read as they are (C66), and the error, if there is one (C65). -/
theorem C42_events_partial (other : Err → Str) (ty : Types) (fl : Str → Option Str) (it : Iter)
    (h : ∀ r ∈ it.recs, Readable ty fl r) : events other ty fl it = ⟨it.recs, none⟩ := by
  obtain ⟨recs, err⟩ := it
  cases err with
  | some e => exact C65_error_lost other ty fl recs h e
  | none =>
    unfold events read
    simp only [RecordIterator.new]
    rw [serve_ok other false none recs (fun r hr => (h r hr).servable) .zero rfl]
    exact receive_ok _ _ h

/-- The full claim for saves: the server's store is left as a direct call would leave it, and a direct call that
succeeds succeeds. -/
def C42_full (other : Err → Str) (fl : Str → Option Str) : Prop :=
  ∀ (ops : List Op) (stream : Str) (ers : List EventRecord),
    let s := IM.run (serializer unbound) ops
    let p := imSave (serializer unbound) s stream none ers
    let q := save other (imSave (serializer unbound)) fl s stream none ers
    q.1.records = p.1.records ∧ (∀ n, p.2 = .ok n → q.2 = .ok n)

/-- **C42 is false** as it stands: a stream name that is not UTF-8 is taken by the store and refused on the way. -/
theorem C42_false (other : Err → Str) (fl : Str → Option Str) : ¬ C42_full other fl := by
  intro h
  obtain ⟨c, hc⟩ := C42_invalid_name other (imSave (serializer unbound)) fl (IM.run (serializer unbound) []) [255] none
    [demoEr goodData] (by decide)
  have h2 := (h [] [255] [demoEr goodData]).2 1 (by decide +kernel)
  rw [hc] at h2
  simp at h2

/-- **C65** where it holds: `EventsByStream` reports an error, whatever the records are, if the server's store did. -/
theorem C65_stream_partial (other : Err → Str) (ty : Types) (fl : Str → Option Str) (it : Iter)
    (h : (eventsByStream other ty fl it).err = none) : it.err = none := by
  obtain ⟨recs, err⟩ := it
  cases err with
  | none => rfl
  | some e =>
    exfalso
    have hserve : ∀ (recs : List Record) (cur : ResultRecord), cur.err = none →
        (serve other true ((Iter.results ⟨recs, some e⟩).length + 1) ⟨Iter.results ⟨recs, some e⟩, cur⟩).2 ≠ none := by
      intro recs
      induction recs with
      | nil =>
        intro cur hcur
        simp [Iter.results, serve, RecordIterator.next, hcur, RecordIterator.error]
      | cons r recs ih =>
        intro cur hcur
        have hres : Iter.results ⟨r :: recs, some e⟩ = ⟨some r, none⟩ :: Iter.results ⟨recs, some e⟩ := by
          simp [Iter.results]
        rw [hres, List.length_cons, serve]
        simp only [RecordIterator.next, hcur, ne_eq, not_true_eq_false, if_false, Option.isSome_some,
          RecordIterator.error, RecordIterator.record]
        cases toPb r with
        | none => simp
        | some p =>
          simp only
          by_cases hp : sendable p = true
          · rw [if_pos hp]
            exact ih ⟨some r, none⟩ rfl
          · rw [if_neg hp]; simp
    have hrec : ∀ (l : List Record) (st : Option Str), st ≠ none → (receive ty fl st l).err ≠ none := by
      intro l
      induction l with
      | nil =>
        intro st hst
        cases st with
        | none => simp at hst
        | some t => simp [receive]
      | cons r l ih =>
        intro st hst
        simp only [receive]
        cases toRecord ty fl r with
        | none => simp
        | some x => exact ih st hst
    exact hrec _ _ (hserve recs .zero rfl) h

end RangeDB.Rem

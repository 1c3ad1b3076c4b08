import Verif.Proof.Http
import Verif.Proof.JsonGood
import Verif.Thm.JsonRecord
import Verif.Thm.Text

/-!
# Theorems: the HTTP API (C41, C63)
-/

namespace RangeDB.Http

open RangeDB.Json

/-- The request cannot be handled: wrong content type, a body that does not start with a JSON array of events, or an
expected sequence number that is not a 64-bit decimal. -/
def Malformed (fl : Str → Option Str) (r : SaveRequest) : Prop :=
  r.contentType ≠ tContentType ∨ decodeBody fl r.body = none ∨ (r.expected ≠ [] ∧ Dec.parseUint r.expected = none)

/-- The call of the store that the request stands for: without header `Save`, with header `OptimisticSave`, with the
events of the body in their order. -/
def Asks (fl : Str → Option Str) (env : Nat → Str × Nat) (r : SaveRequest) (expected : Option Nat)
    (ers : List EventRecord) : Prop :=
  (r.expected = [] ∧ expected = none ∨ r.expected ≠ [] ∧ ∃ n, expected = some n ∧ Dec.parseUint r.expected = some n) ∧
  ∃ es, decodeBody fl r.body = some es ∧ ers = toEventRecords env 0 es

theorem prepareSave_error (fl : Str → Option Str) (env : Nat → Str × Nat) (r : SaveRequest) :
    (∃ resp, prepareSave fl env r = .error resp) ↔ Malformed fl r := by
  unfold prepareSave Malformed
  by_cases h1 : r.contentType ≠ tContentType
  · simp [h1]
  · rw [if_neg h1]
    cases h2 : decodeBody fl r.body with
    | none => simp
    | some es =>
      by_cases h3 : r.expected ≠ []
      · simp only [if_pos h3]
        cases h4 : Dec.parseUint r.expected with
        | none => simp [h3]
        | some n => simp [h1]
      · simp only [if_neg h3]
        simp [h1, h3]

theorem prepareSave_status {fl : Str → Option Str} {env : Nat → Str × Nat} {r : SaveRequest} {resp : Response}
    (h : prepareSave fl env r = .error resp) : resp.status = 400 := by
  unfold prepareSave at h
  by_cases h1 : r.contentType ≠ tContentType
  · rw [if_pos h1] at h; cases h; rfl
  · rw [if_neg h1] at h
    cases h2 : decodeBody fl r.body with
    | none => simp only [h2] at h; cases h; rfl
    | some es =>
      simp only [h2] at h
      by_cases h3 : r.expected ≠ []
      · simp only [if_pos h3] at h
        cases h4 : Dec.parseUint r.expected with
        | none => simp only [h4] at h; cases h; rfl
        | some n => simp [h4] at h
      · simp [if_neg h3] at h

theorem prepareSave_ok {fl : Str → Option Str} {env : Nat → Str × Nat} {r : SaveRequest} {e : Option Nat}
    {ers : List EventRecord} (h : prepareSave fl env r = .ok (e, ers)) : Asks fl env r e ers := by
  unfold prepareSave at h
  by_cases h1 : r.contentType ≠ tContentType
  · simp [h1] at h
  · rw [if_neg h1] at h
    cases h2 : decodeBody fl r.body with
    | none => simp [h2] at h
    | some es =>
      simp only [h2] at h
      by_cases h3 : r.expected ≠ []
      · simp only [if_pos h3] at h
        cases h4 : Dec.parseUint r.expected with
        | none => simp [h4] at h
        | some n =>
          simp only [h4, Except.ok.injEq, Prod.mk.injEq] at h
          exact ⟨.inr ⟨h3, n, h.1.symm, h4⟩, es, h2, h.2.symm⟩
      · simp only [if_neg h3, Except.ok.injEq, Prod.mk.injEq] at h
        exact ⟨.inl ⟨by simpa using h3, h.1.symm⟩, es, h2, h.2.symm⟩

theorem handleSave_201 {σ : Type} {save : σ → Str → Option Nat → List EventRecord → σ × Outcome Nat}
    {fl : Str → Option Str} {env : Nat → Str × Nat} {s s' : σ} {r : SaveRequest} {resp : Response}
    (h : handleSave save fl env s r = (s', some resp)) (h201 : resp.status = 201) :
    ∃ e ers n, Asks fl env r e ers ∧ save s r.stream e ers = (s', .ok n) := by
  unfold handleSave at h
  cases hp : prepareSave fl env r with
  | error x =>
    simp only [hp, Prod.mk.injEq, Option.some.injEq] at h
    have := prepareSave_status hp
    rw [h.2, h201] at this
    simp at this
  | ok p =>
    obtain ⟨e, ers⟩ := p
    simp only [hp, Prod.mk.injEq] at h
    obtain ⟨h1, h2⟩ := h
    cases ho : (save s r.stream e ers).2 with
    | ok n => exact ⟨e, ers, n, prepareSave_ok hp, Prod.ext h1 ho⟩
    | err x =>
      rw [ho] at h2
      cases x <;> simp only [saveReply, Option.some.injEq] at h2 <;> rw [← h2] at h201 <;> simp [failed] at h201
    | panic => rw [ho] at h2; simp [saveReply] at h2
    | blocked => rw [ho] at h2; simp [saveReply] at h2

/-! ## C41: saving -/

/-- **C41**, malformed requests: they, and only they, are answered with 400, and the store is not touched. -/
theorem C41_save_malformed {σ : Type} (save : σ → Str → Option Nat → List EventRecord → σ × Outcome Nat)
    (fl : Str → Option Str) (env : Nat → Str × Nat) (s : σ) (r : SaveRequest) :
    (Malformed fl r → ∃ resp, handleSave save fl env s r = (s, some resp) ∧ resp.status = 400) ∧
    (∀ s' resp, handleSave save fl env s r = (s', some resp) → resp.status = 400 → Malformed fl r) := by
  constructor
  · intro h
    obtain ⟨resp, hp⟩ := (prepareSave_error fl env r).mpr h
    exact ⟨resp, by simp only [handleSave, hp], prepareSave_status hp⟩
  · intro s' resp h hs
    apply (prepareSave_error fl env r).mp
    unfold handleSave at h
    cases hp : prepareSave fl env r with
    | error resp => exact ⟨resp, rfl⟩
    | ok p =>
      simp only [hp, Prod.mk.injEq] at h
      have h2 := h.2
      cases ho : (save s r.stream p.1 p.2).2 with
      | ok n => rw [ho] at h2; simp only [saveReply, Option.some.injEq] at h2; rw [← h2] at hs; simp at hs
      | err e =>
        rw [ho] at h2
        cases e <;> simp only [saveReply, Option.some.injEq] at h2 <;> rw [← h2] at hs <;> simp [failed] at hs
      | panic => rw [ho] at h2; simp [saveReply] at h2
      | blocked => rw [ho] at h2; simp [saveReply] at h2

/-- **C41**, well-formed requests: the store is called once, with what the request asks for; the state is the one the
call leaves, and the response is 201 with the new sequence number if the call succeeded, 409 with both numbers if it
reported an unexpected sequence number, 500 if it reported anything else, and none if it did not return. -/
theorem C41_save_status {σ : Type} (save : σ → Str → Option Nat → List EventRecord → σ × Outcome Nat)
    (fl : Str → Option Str) (env : Nat → Str × Nat) (s : σ) (r : SaveRequest) (hwf : ¬ Malformed fl r) :
    ∃ expected ers s' out, Asks fl env r expected ers ∧ save s r.stream expected ers = (s', out) ∧
      (handleSave save fl env s r).1 = s' ∧
      match out with
      | .ok n => ∃ resp, (handleSave save fl env s r).2 = some resp ∧ resp.status = 201 ∧ resp.Is (okSaved n)
      | .err (.unexpected e a) => ∃ resp message, (handleSave save fl env s r).2 = some resp ∧ resp.status = 409 ∧
          resp.Is (notOk message) ∧ (e < 2 ^ 64 → a < 2 ^ 64 → Txt.parseUnexpected message = (e, a))
      | .err _ => ∃ resp, (handleSave save fl env s r).2 = some resp ∧ resp.status = 500 ∧ resp.Is (notOk tInternal)
      | _ => (handleSave save fl env s r).2 = none := by
  cases hp : prepareSave fl env r with
  | error resp => exact absurd ((prepareSave_error fl env r).mp ⟨resp, hp⟩) hwf
  | ok p =>
    obtain ⟨e, ers⟩ := p
    have h500 : (failed 500 tInternal).Is (notOk tInternal) := failed_is _ _ (by decide)
    refine ⟨e, ers, (save s r.stream e ers).1, (save s r.stream e ers).2, prepareSave_ok hp, rfl, ?_, ?_⟩
    · simp only [handleSave, hp]
    · have hr : (handleSave save fl env s r).2 = saveReply (save s r.stream e ers).2 := by simp only [handleSave, hp]
      rw [hr]
      cases ho : (save s r.stream e ers).2 with
      | ok n => exact ⟨_, rfl, rfl, saved_is n⟩
      | err x =>
        cases x with
        | unexpected x a =>
          refine ⟨_, _, rfl, rfl, failed_is _ _ (plain_unexpected x a), ?_⟩
          intro hx ha
          have hnil : ¬ Txt.marker <:+: [] := by
            rintro ⟨p, q, h⟩
            have := congrArg List.length h
            simp [Txt.marker] at this
          have := Txt.C36_error_text x a hx ha [] hnil
          simpa using this
        | _ => exact ⟨_, rfl, rfl, h500⟩
      | panic => rfl
      | blocked => rfl

/-- A request with one event. -/
def demoReq (expected : Str) (data : Json) : SaveRequest :=
  ⟨tContentType, expected, [65, 33, 49], bodyOf [⟨[65], [49], [69], data, .null⟩]⟩

/-- A `float64` law that can be met: 2^53 + 1 rounds, other literals stay. -/
def demoFl (t : Str) : Option Str :=
  if t = Dec.natText (2 ^ 53 + 1) then some (Dec.natText (2 ^ 53))
  else if scanNum t = some (t, []) then some t else none

theorem demoFl_law : FloatLaw demoFl where
  literal := by
    intro t u h
    unfold demoFl at h
    split at h
    · rw [← Option.some.inj h]; exact scanNum_natText _
    · split at h
      · rename_i h2; rw [← Option.some.inj h]; exact h2
      · simp at h
  exact := by
    intro n hn
    unfold demoFl
    rw [if_neg (fun h => by have := Dec.natText_inj h; omega), if_pos (scanNum_natText n)]
  rounds := by unfold demoFl; rw [if_pos rfl]

def demoEnv : Nat → Str × Nat := fun i => ([117, 48 + i], 7 + i)

def demoData : Json := .obj [([107], .str [226, 130, 172, 34]), ([110], .num [49, 46, 53])]

example : ¬ Malformed demoFl (demoReq [50] demoData) := by
  rintro (h | h | h)
  · exact h rfl
  · exact absurd h (by
      have : (decodeBody demoFl (demoReq [50] demoData).body).isSome = true := by decide +kernel
      intro hn; rw [hn] at this; simp at this)
  · exact absurd h.2 (by decide)

/-- All the outcomes of the table, on the in-memory store: created, conflict, no events, not JSON, bad header. -/
example :
    ((handleSave (imSave (serializer unbound)) demoFl demoEnv IM.init (demoReq [] demoData)).2.map (·.status),
     (handleSave (imSave (serializer unbound)) demoFl demoEnv IM.init (demoReq [50] demoData)).2.map (·.status),
     (handleSave (imSave (serializer unbound)) demoFl demoEnv IM.init ⟨tContentType, [], [65], [91, 93]⟩).2.map (·.status),
     (handleSave (imSave (serializer unbound)) demoFl demoEnv IM.init ⟨tContentType, [], [65], [91]⟩).2.map (·.status),
     (handleSave (imSave (serializer unbound)) demoFl demoEnv IM.init (demoReq [45, 49] demoData)).2.map (·.status)) =
    (some 201, some 409, some 500, some 400, some 400) := by decide +kernel

/-- **C41**, optimistic concurrency through the API: with a header, 201 is answered only if the stream held exactly
that many events. -/
theorem C41_header_cas (z : Serializer) (fl : Str → Option Str) (env : Nat → Str × Nat) (ops : List Op)
    (r : SaveRequest) (hh : r.expected ≠ []) (s' : IM.State) (resp : Response)
    (h : handleSave (imSave z) fl env (IM.run z ops) r = (s', some resp)) (h201 : resp.status = 201) :
    ∃ n, Dec.parseUint r.expected = some n ∧ IM.totalEventsInStream (IM.run z ops) r.stream false = .ok n := by
  obtain ⟨e, ers, k, ha, hs⟩ := handleSave_201 h h201
  rcases ha.1 with ⟨h0, _⟩ | ⟨_, n, rfl, hn⟩
  · exact absurd h0 hh
  · simp only [imSave, Prod.mk.injEq] at hs
    exact ⟨n, hn, IM.C05_success_only_if_match ops r.stream n k none ers hs.2⟩

/-- **C41**, atomicity on the LevelDB store: any response but 201 means that nothing was changed. -/
theorem C41_leveldb_not_saved (z : Serializer) (fl : Str → Option Str) (env : Nat → Str × Nat) (s s' : LD.State)
    (r : SaveRequest) (resp : Response) (h : handleSave (ldSave z) fl env s r = (s', some resp))
    (hs : resp.status ≠ 201) : s' = s := by
  unfold handleSave at h
  cases hp : prepareSave fl env r with
  | error x => simp only [hp, Prod.mk.injEq] at h; exact h.1.symm
  | ok p =>
    simp only [hp, ldSave, Prod.mk.injEq] at h
    obtain ⟨h1, h2⟩ := h
    rw [← h1]
    unfold LD.saveEvents at h2 ⊢
    by_cases hl : p.2.length < 1
    · rw [if_pos hl]
    rw [if_neg hl] at h2 ⊢
    by_cases hm : s.muxHeld = true
    · rw [if_pos hm]
    rw [if_neg hm] at h2 ⊢
    by_cases ht : s.txOpen = true
    · rw [if_pos ht] at h2; simp [saveReply] at h2
    rw [if_neg ht] at h2 ⊢
    cases ho : LD.saveLoop z r.stream none 0 s.db [] [] p.1 [] 0 p.2 with
    | error e => rfl
    | ok q =>
      simp only [ho, saveReply, Option.some.injEq] at h2
      rw [← h2] at hs
      simp at hs

/-- On the in-memory store that is false: a batch whose second event has another aggregate type is answered with 500,
but its first event has been saved. -/
theorem C41_inmemory_half_saved :
    let r : SaveRequest := ⟨tContentType, [], [65, 33, 49],
      bodyOf [⟨[65], [49], [69], demoData, .null⟩, ⟨[66], [49], [69], demoData, .null⟩]⟩
    let p := handleSave (imSave (serializer unbound)) demoFl demoEnv IM.init r
    p.2 = some (failed 500 tInternal) ∧
    (IM.events (serializer unbound) p.1 none 0).recs.length = 1 := by decide +kernel

/-! ## C41: deleting -/

/-- **C41**, deleting: a header that is not a number gives 400 and leaves the store alone. Otherwise the store is asked
to delete the stream with that expected number, 0 if there is no header, and the response is 200 if it did, 409 with
both numbers, 404, or 500. -/
theorem C41_delete_status {σ : Type} (del : σ → Str → Nat → σ × Outcome Unit) (s : σ) (stream header : Str) :
    (header ≠ [] ∧ Dec.parseUint header = none →
      ∃ resp, handleDelete del s stream header = (s, some resp) ∧ resp.status = 400 ∧ resp.Is (notOk tInvalidExpected)) ∧
    (∀ n, (header = [] ∧ n = 0 ∨ header ≠ [] ∧ Dec.parseUint header = some n) →
      ∃ s' out, del s stream n = (s', out) ∧ (handleDelete del s stream header).1 = s' ∧
      match out with
      | .ok _ => ∃ resp, (handleDelete del s stream header).2 = some resp ∧ resp.status = 200 ∧ resp.Is (okDeleted n)
      | .err (.unexpected e a) => ∃ resp message, (handleDelete del s stream header).2 = some resp ∧ resp.status = 409 ∧
          resp.Is (notOk message) ∧ (e < 2 ^ 64 → a < 2 ^ 64 → Txt.parseUnexpected message = (e, a))
      | .err .notFound => ∃ resp, (handleDelete del s stream header).2 = some resp ∧ resp.status = 404 ∧
          resp.Is (notOk tNotFound)
      | .err _ => ∃ resp, (handleDelete del s stream header).2 = some resp ∧ resp.status = 500 ∧
          resp.Is (notOk tInternal)
      | _ => (handleDelete del s stream header).2 = none) := by
  constructor
  · rintro ⟨h1, h2⟩
    exact ⟨failed 400 tInvalidExpected, by simp [handleDelete, expectedFromRequest, h1, h2], rfl, failed_is _ _ (by decide)⟩
  · intro n hn
    have he : expectedFromRequest header = some n := by
      rcases hn with ⟨h, rfl⟩ | ⟨h1, h2⟩
      · simp [expectedFromRequest, h]
      · simp [expectedFromRequest, h1, h2]
    refine ⟨(del s stream n).1, (del s stream n).2, rfl, by simp only [handleDelete, he], ?_⟩
    simp only [handleDelete, he]
    cases ho : (del s stream n).2 with
    | ok u => exact ⟨_, rfl, rfl, deleted_is n⟩
    | err x =>
      cases x with
      | unexpected x a =>
        refine ⟨_, _, rfl, rfl, failed_is _ _ (plain_unexpected x a), ?_⟩
        intro hx ha
        have hnil : ¬ Txt.marker <:+: [] := by
          rintro ⟨p, q, h⟩
          have := congrArg List.length h
          simp [Txt.marker] at this
        have := Txt.C36_error_text x a hx ha [] hnil
        simpa using this
      | notFound => exact ⟨_, rfl, rfl, failed_is _ _ (by decide)⟩
      | _ => exact ⟨_, rfl, rfl, failed_is _ _ (by decide)⟩
    | panic => rfl
    | blocked => rfl

/-! ## C63: what is posted is what is got -/

/-- After any history of good events: a request that is answered with 201, whatever its body and header, if it has no
event with `null` data, leaves a store whose `/all-events.json` is the old events and then exactly the events of the
body, and no error. -/
theorem C63_any_body_partial (fl : Str → Option Str) (hl : ∀ t u, fl t = some u → scanNum u = some (u, []))
    (env : Nat → Str × Nat) (henv : ∀ i, Valid (env i).1 ∧ (env i).2 < 2 ^ 64) (ops : List Op)
    (hg : ∀ op ∈ ops, GoodOp unbound op) (r : SaveRequest) (hst : Valid r.stream) (es : List EventIn)
    (hes : decodeBody fl r.body = some es) (hnn : ∀ e ∈ es, e.data ≠ .null)
    (hb : (ops.map Op.size).sum + es.length < 2 ^ 64) (s' : IM.State) (resp : Response)
    (h : handleSave (imSave (serializer unbound)) fl env (IM.run (serializer unbound) ops) r = (s', some resp))
    (h201 : resp.status = 201) :
    ∃ n g, readJson unbound (writeEvents .json (IM.events (serializer unbound) s' none 0)).body =
      ⟨(IM.events (serializer unbound) (IM.run (serializer unbound) ops) none 0).recs ++
        numbered r.stream g n (toEventRecords env 0 es), none⟩ := by
  obtain ⟨e, ers, k, ha, hs⟩ := handleSave_201 h h201
  obtain ⟨_, es', he1, he2⟩ := ha
  rw [hes, Option.some.injEq] at he1
  subst he1
  simp only [imSave, Prod.mk.injEq] at hs
  have hev : ∀ er ∈ ers, GoodEvent unbound er := by
    rw [he2]
    exact toEventRecords_good henv es (fun x hx => ⟨decodeBody_ok hl hes x hx, hnn x hx⟩) 0
  have hlen : ers.length = es.length := by rw [he2]; exact toEventRecords_length env es 0
  have hgood : GoodOp unbound (.save r.stream e none ers) := ⟨hst, hev⟩
  obtain ⟨n, g, h1, h2⟩ := C61_inmemory_partial unbound ops hg r.stream e none ers hgood (by omega) k hs.2
  rw [hs.1] at h2
  obtain ⟨c1, c2⟩ := im_run_congr ops hg (by omega)
  have hsto : Stored (goodZ unbound) s' := by
    rw [← hs.1, c1, im_saveEvents_congr c2 hst e none ers hev (by omega)]
    exact stored_save (stored_run _ ops) _ _ _ _
  have hall := im_events_good hsto none 0
  rw [← im_events_deser, h2] at hall
  refine ⟨n, g, ?_⟩
  rw [h2, writeEvents, ← he2]
  exact (C44_json_partial unbound _ hall).2

/-- **C63**, in-memory store: the same in terms of what the client sends. The events come back with the names, the data
and the metadata that were sent (an object with its fields in the order of their names), one after the other, in the
stream of the request. Missing: `null` data, numbers that are not exact in `float64`. -/
theorem C63_inmemory_partial (fl : Str → Option Str) (hl : FloatLaw fl)
    (env : Nat → Str × Nat) (henv : ∀ i, Valid (env i).1 ∧ (env i).2 < 2 ^ 64) (ops : List Op)
    (hg : ∀ op ∈ ops, GoodOp unbound op) (stream header : Str) (hst : Valid stream) (es : List Sent)
    (hes : ∀ e ∈ es, e.Good fl) (hb : (ops.map Op.size).sum + es.length < 2 ^ 64) (s' : IM.State) (resp : Response)
    (h : handleSave (imSave (serializer unbound)) fl env (IM.run (serializer unbound) ops)
      ⟨tContentType, header, stream, bodyOf es⟩ = (s', some resp)) (h201 : resp.status = 201) :
    ∃ n g, readJson unbound (writeEvents .json (IM.events (serializer unbound) s' none 0)).body =
      ⟨(IM.events (serializer unbound) (IM.run (serializer unbound) ops) none 0).recs ++
        numbered stream g n (sentRecords env 0 es), none⟩ := by
  have hd : decodeBody fl (bodyOf es) = some (es.map Sent.decoded) := by
    have := decodeBody_sent es hes []
    rwa [List.append_nil] at this
  have := C63_any_body_partial fl hl.literal env henv ops hg ⟨tContentType, header, stream, bodyOf es⟩ hst
    (es.map Sent.decoded) hd (by
      intro e he
      rw [List.mem_map] at he
      obtain ⟨x, hx, rfl⟩ := he
      exact fun hn => (hes x hx).notNull (Json.any_null.mp hn)) (by simpa using hb) s' resp h h201
  rw [toEventRecords_sent] at this
  exact this

/-- **C63**, LevelDB store: the same. -/
theorem C63_leveldb_partial (fl : Str → Option Str) (hl : FloatLaw fl)
    (env : Nat → Str × Nat) (henv : ∀ i, Valid (env i).1 ∧ (env i).2 < 2 ^ 64) (ops : List Op)
    (hg : ∀ op ∈ ops, GoodOp unbound op) (hn : ∀ op ∈ ops, op.NamesIn N) (stream header : Str) (hst : Valid stream)
    (hsep : N.streams stream) (es : List Sent) (hes : ∀ e ∈ es, e.Good fl ∧ N.types e.aggType)
    (hb : (ops.map Op.size).sum + es.length < 2 ^ 64) (old : Iter)
    (hold : LD.events (serializer unbound) (LD.run (serializer unbound) ops) none 0 = .ok old)
    (s' : LD.State) (resp : Response)
    (h : handleSave (ldSave (serializer unbound)) fl env (LD.run (serializer unbound) ops)
      ⟨tContentType, header, stream, bodyOf es⟩ = (s', some resp)) (h201 : resp.status = 201) :
    ∃ n g new, LD.events (serializer unbound) s' none 0 = .ok new ∧
      readJson unbound (writeEvents .json new).body =
        ⟨old.recs ++ numbered stream g n (sentRecords env 0 es), none⟩ := by
  have hd : decodeBody fl (bodyOf es) = some (es.map Sent.decoded) := by
    have := decodeBody_sent es (fun e he => (hes e he).1) []
    rwa [List.append_nil] at this
  obtain ⟨e, ers, k, ha, hs⟩ := handleSave_201 h h201
  obtain ⟨_, es', he1, he2⟩ := ha
  rw [hd, Option.some.injEq] at he1
  subst he1
  have hgoods := fun x hx => decodeBody_ok hl.literal hd x hx
  have hev : ∀ er ∈ ers, GoodEvent unbound er := by
    rw [he2]
    refine toEventRecords_good henv _ (fun x hx => ⟨hgoods x hx, ?_⟩) 0
    rw [List.mem_map] at hx
    obtain ⟨y, hy, rfl⟩ := hx
    exact fun hn => (hes y hy).1.notNull (Json.any_null.mp hn)
  rw [toEventRecords_sent] at he2
  have hmem : ∀ (es : List Sent) i er, er ∈ sentRecords env i es → ∃ x ∈ es, er.event.aggType = x.aggType := by
    intro es
    induction es with
    | nil => intro i er h; simp [sentRecords] at h
    | cons x xs ih =>
      intro i er h
      rcases List.mem_cons.mp h with h | h
      · exact ⟨x, by simp, by rw [h]⟩
      · obtain ⟨y, hy, hy2⟩ := ih _ _ h
        exact ⟨y, List.mem_cons_of_mem _ hy, hy2⟩
  have hno : (Op.save stream e none ers).NamesIn N := by
    refine ⟨hsep, ?_⟩
    intro er her
    rw [he2] at her
    obtain ⟨x, hx, hx2⟩ := hmem es 0 er her
    rw [hx2]
    exact (hes x hx).2
  have hlen : ers.length = es.length := by
    have : ∀ (es : List Sent) i, (sentRecords env i es).length = es.length := by
      intro es
      induction es with
      | nil => intro i; rfl
      | cons x xs ih => intro i; simp [sentRecords, ih]
    rw [he2, this]
  simp only [ldSave, Prod.mk.injEq] at hs
  obtain ⟨g, h2⟩ := C61_leveldb_partial unbound ops hg hn stream e none ers ⟨hst, hev⟩ hno (by omega) old
    (LD.getStreamSequenceNumber (LD.run (serializer unbound) ops).db stream) hold
    (by simp [LD.totalEventsInStream]) k hs.2
  rw [hs.1] at h2
  refine ⟨LD.getStreamSequenceNumber (LD.run (serializer unbound) ops).db stream, g, _, h2, ?_⟩
  rw [writeEvents, he2]
  refine (C44_json_partial unbound _ ?_).2
  -- the new state is that of a longer history
  have hrun : s' = LD.run (serializer unbound) (ops ++ [.save stream e none ers]) := by
    rw [← hs.1, LD.run, LD.run, List.foldl_append]
    rfl
  have hops : ∀ op ∈ ops ++ [.save stream e none ers], GoodOp unbound op := by
    intro op hop
    rcases List.mem_append.mp hop with hop | hop
    · exact hg op hop
    · rw [List.mem_singleton.mp hop]; exact ⟨hst, hev⟩
  have hnms : ∀ op ∈ ops ++ [.save stream e none ers], op.NamesIn N := by
    intro op hop
    rcases List.mem_append.mp hop with hop | hop
    · exact hn op hop
    · rw [List.mem_singleton.mp hop]; exact hno
  have hsum : ((ops ++ [Op.save stream e none ers]).map Op.size).sum < 2 ^ 64 := by
    simp only [List.map_append, List.sum_append, List.map_cons, List.map_nil, Op.size, List.sum_cons, List.sum_nil]
    omega
  have hc := ld_run_congr (ty := unbound) _ hops hnms hsum
  have h3 := h2
  rw [hrun, hc, ld_events_deser] at h3
  have hmux : (LD.run (goodZ unbound) (ops ++ [.save stream e none ers])).muxHeld = false := by
    cases hx : (LD.run (goodZ unbound) (ops ++ [.save stream e none ers])).muxHeld with
    | false => rfl
    | true => simp [LD.events, hx] at h3
  obtain ⟨hsim, _⟩ := LD.run_simA (goodZ_lawful unbound) _ hnms hsum
  have hrd := ((LD.C11_reads (goodZ_lawful unbound) _ hnms hsum).1 (hsim.mux.symm.trans hmux)).1 none 0 (by omega)
  rw [hrd] at h3
  simp only [cut, Outcome.ok.injEq, Iter.mk.injEq, and_true] at h3
  intro x hx
  rw [← he2, ← h3] at hx
  exact aRun_good unbound _ x (List.mem_filter.mp hx).1

/-- The premises can be met: two events, one after the other. -/
theorem demo_sent_good : Sent.Good demoFl ⟨[65], [49], [69], demoData, .null⟩ where
  aggType := show Valid [65] by decide
  aggId := show Valid [49] by decide
  evType := show Valid [69] by decide
  data := by simp only [demoData, Json.WF, WFf]; decide
  notNull := by simp [demoData]
  metadata := by simp [Json.WF]
  exactData := by unfold Exact; decide +kernel
  exactMetadata := rfl

example : ((handleSave (imSave (serializer unbound)) demoFl demoEnv
    (IM.run (serializer unbound) [.save [65, 33, 49] none none [demoEr goodData]]) (demoReq [49] demoData)).2.map
      (·.status)) = some 201 := by decide +kernel

/-- The full claim: whatever the client posts and is told was created, a read returns, unchanged. -/
def C63_full (fl : Str → Option Str) : Prop :=
  ∀ (stream : Str) (e : Sent), Valid stream → Valid e.aggType → Valid e.aggId → Valid e.evType → e.data.WF →
    e.metadata.WF → ∀ (s' : IM.State) (resp : Response),
    handleSave (imSave (serializer unbound)) fl demoEnv IM.init ⟨tContentType, [], stream, bodyOf [e]⟩ = (s', some resp) →
    resp.status = 201 →
    (readJson unbound (writeEvents .json (IM.events (serializer unbound) s' none 0)).body).recs.map (·.data) =
      [e.data.canon.text]

/-- **C63 is false**, first reason: integers above 2^53 are changed. The request is answered with 201, and what is read
back is another number. -/
theorem C63_numbers_changed (fl : Str → Option Str) (hl : FloatLaw fl) :
    ∃ (s' : IM.State) (resp : Response),
      handleSave (imSave (serializer unbound)) fl demoEnv IM.init (demoReq [] (.num (Dec.natText (2 ^ 53 + 1)))) =
        (s', some resp) ∧ resp.status = 201 ∧
      (readJson unbound (writeEvents .json (IM.events (serializer unbound) s' none 0)).body).recs.map (·.data) =
        [Dec.natText (2 ^ 53)] := by
  have hd : decodeBody fl (demoReq [] (.num (Dec.natText (2 ^ 53 + 1)))).body =
      some [⟨[65], [49], [69], .num (Dec.natText (2 ^ 53)), .null, false⟩] := by
    have hw : (Json.arr [Sent.json ⟨[65], [49], [69], .num (Dec.natText (2 ^ 53 + 1)), .null⟩]).WF := by
      simp only [Sent.json, Json.WF, WFs, WFf]
      exact ⟨⟨by decide, by decide, by decide, by decide, by decide, by decide, by decide, scanNum_natText _,
        by decide, trivial, trivial⟩, trivial⟩
    have hp := parse_text _ hw [] (by simp [Follows, Json.isNum])
    rw [List.append_nil] at hp
    simp only [decodeBody, demoReq, bodyOf, List.map_cons, List.map_nil, hp, decodeEvents]
    have k1 : sameName kAggregateType kAggregateType = true := by decide
    have k2 : sameName kAggregateID kAggregateType = false := by decide
    have k3 : sameName kAggregateID kAggregateID = true := by decide
    have k4 : sameName kEventType kAggregateType = false := by decide
    have k5 : sameName kEventType kAggregateID = false := by decide
    have k6 : sameName kEventType kEventType = true := by decide
    have k7 : sameName kData kAggregateType = false := by decide
    have k8 : sameName kData kAggregateID = false := by decide
    have k9 : sameName kData kEventType = false := by decide
    have k10 : sameName kData kData = true := by decide
    have k11 : sameName kMetadata kAggregateType = false := by decide
    have k12 : sameName kMetadata kAggregateID = false := by decide
    have k13 : sameName kMetadata kEventType = false := by decide
    have k14 : sameName kMetadata kData = false := by decide
    have k15 : sameName kMetadata kMetadata = true := by decide
    have d1 : decodeAny fl (.num (Dec.natText (2 ^ 53 + 1))) = some (.num (Dec.natText (2 ^ 53))) := by
      simp only [decodeAny, allNums, hl.rounds, Option.isSome_some, if_true, Json.any, Option.getD_some]
    have d2 : decodeAny fl .null = some .null := rfl
    simp only [decodeEvent, Sent.json, List.foldl, EventIn.field, k1, k2, k3, k4, k5, k6, k7, k8, k9, k10, k11, k12, k13,
      k14, k15, if_true, Bool.false_eq_true, if_false, EventIn.setStr, EventIn.setAny, d1, d2, EventIn.zero]
  have hp : prepareSave fl demoEnv (demoReq [] (.num (Dec.natText (2 ^ 53 + 1)))) =
      .ok (none, toEventRecords demoEnv 0 [⟨[65], [49], [69], .num (Dec.natText (2 ^ 53)), .null, false⟩]) := by
    unfold prepareSave
    rw [hd]
    rfl
  have hsave : (imSave (serializer unbound) IM.init [65, 33, 49] none
      (toEventRecords demoEnv 0 [⟨[65], [49], [69], .num (Dec.natText (2 ^ 53)), .null, false⟩])).2 = .ok 1 := by
    decide +kernel
  refine ⟨(imSave (serializer unbound) IM.init [65, 33, 49] none
      (toEventRecords demoEnv 0 [⟨[65], [49], [69], .num (Dec.natText (2 ^ 53)), .null, false⟩])).1,
    ⟨201, tSavedHead ++ (Dec.natText 1 ++ [125])⟩, ?_, rfl, ?_⟩
  · unfold handleSave
    rw [hp]
    simp only [demoReq, hsave, saveReply]
  · decide +kernel

theorem C63_false (fl : Str → Option Str) (hl : FloatLaw fl) : ¬ C63_full fl := by
  intro h
  obtain ⟨s', resp, h1, h2, h3⟩ := C63_numbers_changed fl hl
  have := h [65, 33, 49] ⟨[65], [49], [69], .num (Dec.natText (2 ^ 53 + 1)), .null⟩ (by decide) (by decide) (by decide)
    (by decide) (by simp only [Json.WF]; exact scanNum_natText _) (by simp [Json.WF]) s' resp h1 h2
  rw [h3] at this
  simp only [Json.canon, Json.any, Json.text, id, List.cons.injEq, and_true] at this
  have := Dec.natText_inj this
  omega

example : FloatLaw demoFl := demoFl_law

/-- **C63 is false**, second reason: a request without data is answered with 201, and hides all later events: the reads
are answered with 200 and are cut off before it, without an error. Here three requests are answered with 201 and
`/all-events.json` holds one event, as a text without closing bracket, which is read without an error. -/
theorem C63_missing_data_hides :
    let post := fun (s : IM.State) (body : Str) =>
      handleSave (imSave (serializer unbound)) demoFl demoEnv s ⟨tContentType, [], [65, 33, 49], body⟩
    let noData : Str := (Json.arr [.obj [(kAggregateType, .str [65]), (kAggregateID, .str [49]), (kEventType, .str [69])]]).text
    let good := bodyOf [⟨[65], [49], [69], demoData, .null⟩]
    let p1 := post IM.init good
    let p2 := post p1.1 noData
    let p3 := post p2.1 good
    let out := writeEvents .json (IM.events (serializer unbound) p3.1 none 0)
    p1.2.map (·.status) = some 201 ∧ p2.2.map (·.status) = some 201 ∧ p3.2.map (·.status) = some 201 ∧
    out.status = 200 ∧ (readJson unbound out.body).recs.length = 1 ∧ (readJson unbound out.body).err = none := by
  decide +kernel

/-! ## C64: the links to the aggregate types -/

/-- A letter or `-`. -/
def LinkByte (c : Nat) : Prop := (97 ≤ c ∧ c ≤ 122) ∨ (65 ≤ c ∧ c ≤ 90) ∨ c = 45

/-- The full claim: the link of an aggregate type leads to the events of that type. -/
def C64_full : Prop := ∀ name : Str, name ≠ [] → typesOfPath name = some [name]

/-- **C64**: the link leads to the events of exactly that type if, and only if, the name consists of letters and `-`. -/
theorem C64_self_link_partial (name : Str) :
    typesOfPath name = some [name] ↔ name ≠ [] ∧ ∀ c ∈ name, LinkByte c := by
  have hb : ∀ c, typeByte c = true ↔ LinkByte c ∨ c = 44 := by
    intro c
    simp only [typeByte, btw, LinkByte, Bool.or_eq_true, Bool.and_eq_true, decide_eq_true_eq]
    omega
  unfold typesOfPath
  constructor
  · intro h
    split at h
    · rename_i hc
      refine ⟨hc.1, ?_⟩
      intro c hmem
      have hall := List.all_eq_true.mp hc.2 c hmem
      rcases (hb c).mp hall with h1 | h1
      · exact h1
      · exfalso
        subst h1
        have hcut : Txt.cut [44] name ≠ none := by
          intro hn
          rw [Txt.cut_none] at hn
          obtain ⟨a, b, hab⟩ := List.append_of_mem hmem
          exact hn a b (by rw [hab]; simp)
        cases hx : Txt.cut [44] name with
        | none => exact hcut hx
        | some p =>
          obtain ⟨a, b⟩ := p
          rw [Txt.split_some (by simp) hx] at h
          simp only [Option.some.injEq, List.cons.injEq] at h
          have := Txt.cut_some hx
          rw [← h.1] at this
          have hl := congrArg List.length this
          simp at hl
    · simp at h
  · rintro ⟨h1, h2⟩
    have h44 : (44 : Nat) ∉ name := by
      intro hm
      have := h2 44 hm
      unfold LinkByte at this
      omega
    rw [if_pos ⟨h1, List.all_eq_true.mpr (fun c hc => (hb c).mpr (.inl (h2 c hc)))⟩, Txt.split_none (Txt.cut_byte_none h44)]

example : typesOfPath [117, 115, 101, 114, 45, 88] = some [[117, 115, 101, 114, 45, 88]] := by decide

/-- **C64 is false**: the link of `user2` is not found, and the link of `a,b` leads to the types `a` and `b`. -/
theorem C64_false : ¬ C64_full := fun h => absurd (h [117, 115, 101, 114, 50] (by simp)) (by decide)

theorem C64_wrong_links :
    typesOfPath [117, 115, 101, 114, 50] = none ∧ typesOfPath [97, 44, 98] = some [[97], [98]] := by decide

end RangeDB.Http

import Verif.Proof.Interfaces
import Verif.Spec.Live
import Verif.Thm.Http

/-! Helper lemmas for C163. -/

namespace RangeDB.Srv

open RangeDB.Json RangeDB.Http RangeDB.Rem

variable {fl : Str → Option Str} {N : Names} {σ : Type}

theorem handle_op (save : σ → Str → Option Nat → List EventRecord → σ × Outcome Nat) (del : σ → Str → Nat → σ × Outcome Unit)
    (other : Err → Str) (s : σ) (r : Request) :
    r.handle save del other fl s = match r.op fl with
      | some (.save st e _ ers) => (save s st e ers).1
      | some (.delete st n _) => (del s st n).1
      | none => s := by
  cases r with
  | post q env =>
    simp only [Request.handle, Request.op, handleSave]
    cases prepareSave fl env q with
    | error x => rfl
    | ok p => rfl
  | deletePath st header =>
    simp only [Request.handle, Request.op, handleDelete]
    cases expectedFromRequest header with
    | none => rfl
    | some n => rfl
  | message st e es =>
    simp only [Request.handle, Request.op, serverSave]
    split
    · cases serverEvents fl es with
      | error t => rfl
      | ok ers => rfl
    · rfl
  | deleteMessage st n =>
    simp only [Request.handle, Request.op, Rem.delete]
    cases hv : decide (Valid st) <;> rfl

/-- The call of a request to save. -/
theorem op_saves {r : Request} {st : Str} {e c : Option Nat} {ers : List EventRecord} (h : r.op fl = some (.save st e c ers)) :
    st = r.stream ∧ c = none ∧ ers = r.events fl ∧ r.saves = true := by
  cases r with
  | post q env =>
    simp only [Request.op] at h
    cases hp : prepareSave fl env q with
    | error x => simp [hp] at h
    | ok p =>
      obtain ⟨e', ers'⟩ := p
      simp only [hp, Option.some.injEq, Op.save.injEq] at h
      obtain ⟨es, h1, h2⟩ := prepareSave_ok hp
      refine ⟨h.1.symm, h.2.2.1.symm, ?_, rfl⟩
      simp only [Request.events, h1]
      rw [← h.2.2.2, h2]
  | deletePath st header =>
    simp only [Request.op] at h
    cases hx : expectedFromRequest header <;> simp [hx] at h
  | message st e es =>
    simp only [Request.op] at h
    split at h
    · cases hp : serverEvents fl es with
      | error x => simp [hp] at h
      | ok ers' =>
        simp only [hp, Option.some.injEq, Op.save.injEq] at h
        refine ⟨h.1.symm, h.2.2.1.symm, ?_, rfl⟩
        simp only [Request.events, hp]
        exact h.2.2.2.symm
    · simp at h
  | deleteMessage st n =>
    simp only [Request.op] at h
    split at h <;> simp at h

theorem op_delete {r : Request} {st : Str} {n : Nat} {c : Bool} (h : r.op fl = some (.delete st n c)) : r.saves = false := by
  cases r with
  | post q env =>
    simp only [Request.op] at h
    cases hp : prepareSave fl env q <;> simp [hp] at h
  | deletePath st header => rfl
  | message st e es =>
    simp only [Request.op] at h
    split at h
    · cases hp : serverEvents fl es <;> simp [hp] at h
    · simp at h
  | deleteMessage st n => rfl

/-- A request is accepted if it leads to a call that succeeds. -/
theorem accepted_op (save : σ → Str → Option Nat → List EventRecord → σ × Outcome Nat) (other : Err → Str) (s : σ) (r : Request) :
    r.Accepted save other fl s ↔ ∃ e k, r.op fl = some (.save r.stream e none (r.events fl)) ∧
      (save s r.stream e (r.events fl)).2 = .ok k := by
  cases r with
  | post q env =>
    simp only [Request.Accepted, Request.op, Request.stream, handleSave]
    cases hp : prepareSave fl env q with
    | error x =>
      have := prepareSave_status hp
      constructor
      · rintro ⟨resp, h1, h2⟩
        simp only [Option.some.injEq] at h1
        rw [h1, h2] at this
        simp at this
      · rintro ⟨e, k, h, _⟩
        simp at h
    | ok p =>
      obtain ⟨e, ers⟩ := p
      obtain ⟨es, h1, h2⟩ := prepareSave_ok hp
      have hev : Request.events fl (.post q env) = ers := by simp only [Request.events, h1, h2]
      rw [hev]
      constructor
      · rintro ⟨resp, h3, h4⟩
        refine ⟨e, ?_⟩
        cases ho : (save s q.stream e ers).2 with
        | ok k => exact ⟨k, rfl, rfl⟩
        | err x =>
          exfalso
          simp only [ho] at h3
          cases x <;> simp only [saveReply, Option.some.injEq] at h3 <;> rw [← h3] at h4 <;> simp [failed] at h4
        | panic => simp [ho, saveReply] at h3
        | blocked => simp [ho, saveReply] at h3
      · rintro ⟨e', k, h3, h4⟩
        simp only [Option.some.injEq, Op.save.injEq, true_and, and_true] at h3
        subst h3
        simp only [h4, saveReply]
        exact ⟨_, rfl, rfl⟩
  | deletePath st header =>
    simp only [Request.Accepted, false_iff]
    rintro ⟨e, k, h, _⟩
    have := (op_saves h).2.2.2
    simp [Request.saves] at this
  | message st e es =>
    simp only [Request.Accepted, Request.op, Request.stream, serverSave]
    constructor
    · rintro ⟨h1, h2, k, h3⟩
      rw [if_pos (by rw [h2]; simpa using h1)]
      cases hp : serverEvents fl es with
      | error t => simp [hp] at h3
      | ok ers =>
        have hev : Request.events fl (.message st e es) = ers := by simp only [Request.events, hp]
        rw [hev]
        refine ⟨e, k, rfl, ?_⟩
        simp only [hp] at h3
        split at h3 <;> simp_all
    · rintro ⟨e', k, h3, h4⟩
      split at h3
      · rename_i hv
        rw [Bool.and_eq_true, decide_eq_true_eq] at hv
        cases hp : serverEvents fl es with
        | error t => simp [hp] at h3
        | ok ers =>
          have hev : Request.events fl (.message st e es) = ers := by simp only [Request.events, hp]
          rw [hev] at h3 h4
          simp only [hp, Option.some.injEq, Op.save.injEq, true_and, and_true] at h3
          subst h3
          refine ⟨hv.1, hv.2, k, ?_⟩
          simp only [h4]
      · simp at h3
  | deleteMessage st n =>
    simp only [Request.Accepted, false_iff]
    rintro ⟨e, k, h, _⟩
    have := (op_saves h).2.2.2
    simp [Request.saves] at this

/-- What is told does not depend on what was told before, and the store is the same as without a list. -/
theorem imTold_split (other : Err → Str) (s : IM.State) (l : List Record) (r : Request) :
    imTold other fl (s, l) r = (r.handle (imSave (serializer unbound)) imDelete other fl s, l ++ (imTold other fl (s, []) r).2) := by
  simp only [imTold, handle_op]
  cases r.op fl with
  | none => simp
  | some op => cases op <;> simp [imTell, imSave, quietly]

theorem ldTold_split (other : Err → Str) (s : LD.State) (l : List Record) (r : Request) :
    ldTold other fl (s, l) r =
      (r.handle (ldSave (serializer unbound)) (ldDelete (serializer unbound)) other fl s, l ++ (ldTold other fl (s, []) r).2) := by
  simp only [ldTold, handle_op]
  cases r.op fl with
  | none => simp
  | some op => cases op <;> simp [ldTell, ldSave, quietly]

theorem imServe_snoc (other : Err → Str) (rs : List Request) (r : Request) :
    imServe other fl (rs ++ [r]) = r.handle (imSave (serializer unbound)) imDelete other fl (imServe other fl rs) := by
  simp [imServe]

theorem ldServe_snoc (other : Err → Str) (rs : List Request) (r : Request) :
    ldServe other fl (rs ++ [r]) =
      r.handle (ldSave (serializer unbound)) (ldDelete (serializer unbound)) other fl (ldServe other fl rs) := by
  simp [ldServe]

theorem im_quiet {z : Serializer} {s : IM.State} {st : Str} {e c : Option Nat} {ers : List EventRecord}
    (h : ∀ k, (IM.saveEvents z s st e c ers).out ≠ .ok k) : (IM.saveEvents z s st e c ers).broadcast = [] := by
  revert h
  unfold IM.saveEvents
  split
  · intro _; rfl
  · split
    · intro _; rfl
    · split
      · intro h; exact absurd rfl (h _)
      · intro _; rfl
      · intro _; rfl
      · intro _; rfl

theorem ld_quiet {z : Serializer} {s : LD.State} {st : Str} {e c : Option Nat} {ers : List EventRecord}
    (h : ∀ k, (LD.saveEvents z s st e c ers).out ≠ .ok k) :
    (LD.saveEvents z s st e c ers).broadcast = [] ∧
      ((LD.saveEvents z s st e c ers).state = s ∨ (LD.saveEvents z s st e c ers).state.muxHeld = true) := by
  revert h
  unfold LD.saveEvents
  split
  · intro _; exact ⟨rfl, .inl rfl⟩
  · split
    · intro _; exact ⟨rfl, .inl rfl⟩
    · split
      · intro _; exact ⟨rfl, .inr rfl⟩
      · split
        · intro _; exact ⟨rfl, .inl rfl⟩
        · intro h; exact absurd rfl (h _)

theorem fine_shown' {r : Record} (hg : Good unbound r) (hr : Readable unbound fl r) : Shown fl r := by
  refine ⟨?_, r, ?_, toRecord_ok hr⟩
  · obtain ⟨b, h1, h2⟩ := good_roundTrip hg
    have := h2 []
    rw [List.append_nil] at this
    exact ⟨b, h1, by rw [deserialize, this]; rfl⟩
  · obtain ⟨d, hd, ed⟩ := hr.servable.data
    obtain ⟨m, hm, em⟩ := hr.servable.metadata
    simp only [grpcMessage, toPb_ok hd hm ed em, hr.servable.sendable, if_true]

end RangeDB.Srv

import Verif.Spec.Reboot
import Verif.Proof.Live
import Verif.Proof.Restarts
import Verif.Thm.Interfaces

/-! # Lemmas for `Thm/Reboot.lean` -/

namespace RangeDB.Srv

open RangeDB.Json RangeDB.Http RangeDB.Rem

variable {fl : Str → Option Str} {N : Names}

/-- The abstract state of a server whose store is `s`. -/
structure Holds (N : Names) (fl : Str → Option Str) (s : LD.State) (A : AState) : Prop where
  sim : LD.SimA N (goodZ unbound) s A
  fine : ∀ r ∈ A.log.recs, Fine fl r

theorem holds_init : Holds N fl LD.init .init := ⟨LD.simA_init, by simp [AState.init, Log.empty]⟩

theorem Holds.reopen {s : LD.State} {A : AState} (h : Holds N fl s A) : Holds N fl (LD.reopen s.db) A.reopened :=
  ⟨h.sim.reopen, h.fine⟩

theorem aStep_same {A : AState} (hA : ∀ r ∈ A.log.recs, Same fl r.metadata) (op : Op)
    (he : ∀ er ∈ evs op, Same fl er.metadata) : ∀ r ∈ (aStep (goodZ unbound) A op).log.recs, Same fl r.metadata := by
  have hnum : ∀ (ers : List EventRecord) (st : Str) (g q : Nat), (∀ er ∈ ers, Same fl er.metadata) →
      ∀ r ∈ numbered st g q ers, Same fl r.metadata := by
    intro ers
    induction ers with
    | nil => intro st g q _ r hr; simp [numbered] at hr
    | cons er ers ih =>
      intro st g q he r hr
      rcases List.mem_cons.mp hr with rfl | hr
      · exact he er (by simp)
      · exact ih st _ _ (fun x hx => he x (by simp [hx])) r hr
  cases op with
  | save st expected cancelAt ers =>
    simp only [aStep]
    split
    · exact hA
    · split
      · exact hA
      · cases hb : batchProblem (goodZ unbound) A.log st expected cancelAt ers with
        | some e => exact hA
        | none =>
          simp only [Log.append]
          intro r hr
          rw [List.mem_append] at hr
          rcases hr with hr | hr
          · exact hA r hr
          · have e : (goodZ unbound).view = id := rfl
            rw [e, List.map_id] at hr
            exact hnum ers st _ _ he r hr
  | delete st expected c =>
    simp only [aStep]
    split
    · exact hA
    · split
      · exact hA
      · split
        · exact hA
        · intro r hr
          exact hA r (List.mem_filter.mp hr).1

theorem aStep_keeps {z : Serializer} {A : AState} {op : Op} {r : Record} (hr : r ∈ A.log.recs)
    (hk : ∀ e c, op ≠ .delete r.streamName e c) : r ∈ (aStep z A op).log.recs := by
  cases op with
  | save st expected cancelAt ers =>
    simp only [aStep]
    split
    · exact hr
    · split
      · exact hr
      · split
        · simp [Log.append, hr]
        · exact hr
  | delete st expected cancelled =>
    simp only [aStep]
    split
    · exact hr
    · split
      · exact hr
      · split
        · exact hr
        · have hne : r.streamName ≠ st := by
            rintro rfl
            exact hk expected cancelled rfl
          simp [Log.delete, hr, hne]

/-- On a store that holds good records the JSON serializer does what the restricted one does. -/
theorem save_congr {s : LD.State} {A : AState} (h : LD.SimA N (goodZ unbound) s A) {st : Str} (hs : Valid st)
    (expected cancelAt : Option Nat) (ers : List EventRecord) (hno : (Op.save st expected cancelAt ers).NamesIn N)
    (he : ∀ er ∈ ers, GoodEvent unbound er) (hb : A.log.last + ers.length < 2 ^ 64) :
    LD.saveEvents (serializer unbound) s st expected cancelAt ers = LD.saveEvents (goodZ unbound) s st expected cancelAt ers := by
  refine ld_saveEvents_refine (goodZ_refines unbound) rfl _ st expected cancelAt ers ?_
  rw [LD.simA_save (goodZ_lawful unbound) h st expected cancelAt ers hno hb]
  unfold aSaveOut
  split
  · simp
  · split
    · simp
    · split
      · simp
      · rename_i j e hp
        have := batchProblem_good (ty := unbound) h.wf hs expected cancelAt ers he hb j
        simp only [ne_eq, Outcome.err.injEq]
        rintro rfl
        exact this hp

theorem step_congr {s : LD.State} {A : AState} (h : LD.SimA N (goodZ unbound) s A) {op : Op} (hg : GoodOp unbound op)
    (hno : op.NamesIn N) (hb : A.log.last + op.size < 2 ^ 64) :
    LD.step (serializer unbound) s op = LD.step (goodZ unbound) s op := by
  cases op with
  | save st e c ers => simp only [LD.step]; rw [save_congr h hg.1 e c ers hno hg.2 hb]
  | delete st e c => simp only [LD.step]; rw [ld_delete_deser (z1 := serializer unbound) (z2 := goodZ unbound) rfl]

/-- A call of the store that a request leads to. -/
theorem holds_step (hl : ∀ t u, fl t = some u → scanNum u = some (u, []))
    (hi : ∀ t u, fl t = some u → fl u = some u) {s : LD.State} {A : AState} (h : Holds N fl s A) {r : Request}
    (hr : r.Given fl) (hn : N.streams r.stream ∧ ∀ er ∈ r.events fl, N.types er.event.aggType) {op : Op}
    (hop : r.op fl = some op) (hb : A.log.last + (r.events fl).length < 2 ^ 64) :
    Holds N fl (LD.step (serializer unbound) s op) (aStep (goodZ unbound) A op) ∧
      (aStep (goodZ unbound) A op).log.last ≤ A.log.last + (r.events fl).length := by
  obtain ⟨h1, h2, h3, h4⟩ := op_facts hl hi hr hop
  have hb' : A.log.last + op.size < 2 ^ 64 := by omega
  rw [step_congr h.sim h1 (h4 N hn) hb']
  have := LD.step_simA (goodZ_lawful unbound) h.sim op (h4 N hn) hb'
  refine ⟨⟨this.1, fun x hx => ⟨aStep_good (fun y hy => (h.fine y hy).1) op x hx,
    aStep_same (fun y hy => (h.fine y hy).2) op h2 x hx⟩⟩, by omega⟩

theorem op_stream {r : Request} {st : Str} {n : Nat} {c : Bool} (h : r.op fl = some (.delete st n c)) : r.stream = st := by
  cases r with
  | post q env =>
    simp only [Request.op] at h
    cases hp : prepareSave fl env q <;> simp [hp] at h
  | deletePath st' header =>
    simp only [Request.op] at h
    cases hx : expectedFromRequest header <;> simp [hx] at h
    exact h.1
  | message st' e es =>
    simp only [Request.op] at h
    split at h
    · cases hp : serverEvents fl es <;> simp [hp] at h
    · simp at h
  | deleteMessage st' k =>
    simp only [Request.op] at h
    split at h
    · simp at h; exact h.1
    · simp at h

theorem reopen_reopen (db : KV.DB) : LD.reopen (LD.reopen db).db = LD.reopen db := rfl

/-- Being killed leaves what was on the disk, or what the call of the request leaves there. -/
theorem killed_cases (other : Err → Str) (s : LD.State) (r : Request) (n : Nat) :
    (Turn.killed r n).after other fl s = LD.reopen s.db ∨
      ∃ op, r.op fl = some op ∧ (Turn.killed r n).after other fl s = LD.reopen (LD.step (serializer unbound) s op).db := by
  simp only [Turn.after, handle_op]
  cases hop : r.op fl with
  | none => exact Or.inl rfl
  | some op =>
    cases op with
    | save st e c ers =>
      obtain ⟨_, rfl, _, _⟩ := op_saves hop
      simp only []
      rcases LD.crashed_cases (z := serializer unbound) s (.save st e none ers) n with h | h
      · exact Or.inl (by rw [h]; rfl)
      · exact Or.inr ⟨_, rfl, by rw [h]; rfl⟩
    | delete st k c =>
      have hc : c = false := by
        cases r with
        | post q env =>
          simp only [Request.op] at hop
          cases hp : prepareSave fl env q <;> simp [hp] at hop
        | deletePath st' header =>
          simp only [Request.op] at hop
          cases hx : expectedFromRequest header <;> simp [hx] at hop
          exact hop.2.2
        | message st' e es =>
          simp only [Request.op] at hop
          split at hop
          · cases hp : serverEvents fl es <;> simp [hp] at hop
          · simp at hop
        | deleteMessage st' k' =>
          simp only [Request.op] at hop
          split at hop
          · simp at hop; exact hop.2.2
          · simp at hop
      subst hc
      simp only []
      rcases LD.crashed_cases (z := serializer unbound) s (.delete st k false) n with h | h
      · exact Or.inl (by rw [h]; rfl)
      · exact Or.inr ⟨_, rfl, by rw [h]; rfl⟩

theorem serve_cases (other : Err → Str) (s : LD.State) (r : Request) :
    (Turn.serve r).after other fl s = match r.op fl with
      | some op => LD.step (serializer unbound) s op
      | none => s := ld_handle _ other s r

/-- One part of the life. -/
theorem turn_holds (hl : ∀ t u, fl t = some u → scanNum u = some (u, []))
    (hi : ∀ t u, fl t = some u → fl u = some u) (other : Err → Str) {s : LD.State} {A : AState} (h : Holds N fl s A)
    (t : Turn) (ht : t.Given N fl) (hb : A.log.last + t.size fl < 2 ^ 64) :
    ∃ A', Holds N fl (t.after other fl s) A' ∧ A'.log.last ≤ A.log.last + t.size fl ∧
      (t.starts = true → A'.stuck = false ∧ A'.leaked = false) ∧
      (A'.log = A.log ∨ ∃ r op, t.request = some r ∧ r.op fl = some op ∧ A'.log = (aStep (goodZ unbound) A op).log) := by
  cases t with
  | serve r =>
    have hr := ht r rfl
    rw [serve_cases]
    cases hop : r.op fl with
    | none => exact ⟨A, h, by omega, by simp [Turn.starts], Or.inl rfl⟩
    | some op =>
      have := holds_step hl hi h hr.1 hr.2 hop hb
      exact ⟨_, this.1, this.2, by simp [Turn.starts], Or.inr ⟨r, op, rfl, hop, rfl⟩⟩
  | restart => exact ⟨_, h.reopen, by simp [AState.reopened], fun _ => ⟨rfl, rfl⟩, Or.inl rfl⟩
  | killed r n =>
    have hr := ht r rfl
    rcases killed_cases other s r n with hc | ⟨op, hop, hc⟩
    · rw [hc]
      exact ⟨_, h.reopen, by simp [AState.reopened], fun _ => ⟨rfl, rfl⟩, Or.inl rfl⟩
    · rw [hc]
      have := holds_step hl hi h hr.1 hr.2 hop hb
      exact ⟨_, this.1.reopen, this.2, fun _ => ⟨rfl, rfl⟩, Or.inr ⟨r, op, rfl, hop, rfl⟩⟩

theorem turns_hold (hl : ∀ t u, fl t = some u → scanNum u = some (u, []))
    (hi : ∀ t u, fl t = some u → fl u = some u) (other : Err → Str) : ∀ (ts : List Turn) {s : LD.State} {A : AState},
    Holds N fl s A → (∀ t ∈ ts, t.Given N fl) → A.log.last + (ts.map (Turn.size fl)).sum < 2 ^ 64 →
    ∃ A', Holds N fl (ts.foldl (Turn.after other fl) s) A' ∧ A'.log.last ≤ A.log.last + (ts.map (Turn.size fl)).sum ∧
      ∀ x ∈ A.log.recs, (∀ t ∈ ts, t.Keeps x.streamName) → x ∈ A'.log.recs
  | [], s, A, h, _, _ => ⟨A, h, by simp, fun x hx _ => hx⟩
  | t :: ts, s, A, h, ht, hb => by
    simp only [List.map_cons, List.sum_cons] at hb ⊢
    obtain ⟨A1, h1, h2, _, h3⟩ := turn_holds hl hi other h t (ht t (by simp)) (by omega)
    obtain ⟨A2, i1, i2, i3⟩ := turns_hold hl hi other ts h1 (fun x hx => ht x (by simp [hx])) (by omega)
    refine ⟨A2, i1, by omega, fun x hx hk => i3 x ?_ (fun u hu => hk u (by simp [hu]))⟩
    rcases h3 with h3 | ⟨r, op, hr, hop, h3⟩
    · rw [h3]; exact hx
    · rw [h3]
      refine aStep_keeps hx ?_
      rintro e c rfl
      exact hk t (by simp) r hr (op_delete hop) (op_stream hop)

theorem life_holds (hl : ∀ t u, fl t = some u → scanNum u = some (u, []))
    (hi : ∀ t u, fl t = some u → fl u = some u) (other : Err → Str) (ts : List Turn) (ht : ∀ t ∈ ts, t.Given N fl)
    (hb : (ts.map (Turn.size fl)).sum < 2 ^ 64) :
    ∃ A, Holds N fl (ldLife other fl ts) A ∧ A.log.last ≤ (ts.map (Turn.size fl)).sum := by
  obtain ⟨A, h1, h2, _⟩ := turns_hold hl hi other ts (holds_init (N := N)) ht (by simpa [AState.init, Log.empty] using hb)
  exact ⟨A, h1, by simpa [AState.init, Log.empty] using h2⟩

theorem holds_events {s : LD.State} {A : AState} (h : Holds N fl s A) (g : Nat) (hg : g < 2 ^ 64) :
    LD.events (serializer unbound) s none g =
      if A.stuck then .blocked else .ok ⟨A.log.recs.filter (fun r => r.gsn ≥ g), none⟩ := by
  rw [ld_events_deser, LD.simA_events h.sim none g hg]
  rfl

theorem holds_all {s : LD.State} {A : AState} (h : Holds N fl s A) {it : Iter}
    (hit : LD.events (serializer unbound) s none 0 = .ok it) : it = ⟨A.log.recs, none⟩ ∧ A.stuck = false := by
  rw [holds_events h 0 (by decide)] at hit
  split at hit
  · simp at hit
  · rename_i hk
    simp only [ge_iff_le, Nat.zero_le, decide_true, Outcome.ok.injEq] at hit
    refine ⟨?_, by simpa using hk⟩
    rw [← hit]
    congr 1
    exact List.filter_eq_self.mpr (by simp)

theorem prefix_deser (db : KV.DB) (n : Nat) (k : Str) : LD.getEventsByPrefix (serializer unbound) db none k n =
    LD.getEventsByPrefix (goodZ unbound) db none k n := by
  have hloop : ∀ (l : KV.DB) (m : Nat), LD.prefixLoop (serializer unbound) none n m l =
      LD.prefixLoop (goodZ unbound) none n m l := by
    intro l
    induction l with
    | nil => intro m; rfl
    | cons x l ih =>
      intro m
      have e : (serializer unbound).deser = (goodZ unbound).deser := rfl
      simp only [LD.prefixLoop, e, ih]
  simp only [LD.getEventsByPrefix, hloop]

theorem types_deser (s : LD.State) (g : Nat) (types : List Str) :
    LD.eventsByAggregateTypes (serializer unbound) s (fun _ => none) g types =
      LD.eventsByAggregateTypes (goodZ unbound) s (fun _ => none) g types := by
  unfold LD.eventsByAggregateTypes LD.getEventsByLookup
  simp only [ld_lookupLoop_deser]

end RangeDB.Srv

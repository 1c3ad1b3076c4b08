import Verif.Spec.PostgresSequential
import Verif.Thm.Postgres
import Verif.Proof.JsonStore

/-! # Calls of the PostgreSQL store one after the other -/

namespace RangeDB.PG

open RangeDB.Json

/-! ## The calls themselves -/

theorem go_returned {cfg : Config} {s : State} {p : Nat} {c : Call} {o : Outcome Nat} (h : s.procs p = .returned c o) :
    ∀ n, runFrom cfg s (List.replicate n (p, .go)) = s := by
  intro n
  induction n with
  | zero => rfl
  | succ n ih =>
    rw [List.replicate_succ, runFrom_cons]
    have : step cfg s p .go = s := by simp only [step, h]
    rw [this, ih]

/-- What a call leaves as it was. -/
structure Left (p : Nat) (s s' : State) : Prop where
  others : ∀ q, q ≠ p → s'.procs q = s.procs q
  locks : ∀ k, s'.locks k = none

theorem turn_save_empty {cfg : Config} {s : State} {p : Nat} {st : Str} {e : Option Nat}
    (hq : Quiet s) (hl : ∀ k, s.locks k = none) (hc : s.conns < cfg.cap) :
    let s' := runFrom cfg s (turn p (.save st e []))
    s'.procs p = .returned (.save st e []) (.err .missingEvents) ∧ Left p s s' ∧ s'.conns = s.conns ∧
      s'.nextGsn = s.nextGsn ∧ s'.table = s.table ∧ handed cfg s' = handed cfg s := by
  intro s'
  have h1 : s' = rollback (setProc { s with conns := s.conns + 1 } p (.begun (.save st e []))) p (.save st e [])
      .missingEvents := by
    show runFrom cfg s _ = _
    rw [turn, runFrom_cons, step_call _ (hq p) hc]
    show runFrom cfg _ ((p, .go) :: List.replicate 3 (p, .go)) = _
    rw [runFrom_cons]
    generalize hs1 : setProc { s with conns := s.conns + 1 } p (.begun (.save st e [])) = s1
    have hp : s1.procs p = .begun (.save st e []) := by rw [← hs1, setProc_same]
    have : step cfg s1 p .go = rollback s1 p (.save st e []) .missingEvents := by simp [step, hp]
    rw [this]
    exact go_returned (setProc_same _ _ _) 3
  rw [h1]
  refine ⟨by simp [rollback], ⟨?_, ?_⟩, ?_, rfl, rfl, rfl⟩
  · intro q hqp; simp [rollback, setProc, endTx, hqp]
  · intro k; simp [rollback, setProc, endTx, hl]
  · simp [rollback, setProc, endTx]

theorem turn_save_unexpected {cfg : Config} {s : State} {p : Nat} {st : Str} {k : Nat} {ers : List EventRecord}
    (hq : Quiet s) (hl : ∀ k, s.locks k = none) (hc : s.conns < cfg.cap) (hne : ers ≠ []) (hk : lastSeq s st ≠ k) :
    let s' := runFrom cfg s (turn p (.save st (some k) ers))
    s'.procs p = .returned (.save st (some k) ers) (.err (.unexpected k (lastSeq s st))) ∧ Left p s s' ∧
      s'.conns = s.conns ∧ s'.nextGsn = s.nextGsn ∧ s'.table = s.table ∧ handed cfg s' = handed cfg s := by
  intro s'
  have hsplit : turn p (.save st (some k) ers) = [(p, .call (.save st (some k) ers)), (p, .go)] ++ ((p, .go) ::
      List.replicate (ers.length + 2) (p, .go)) := by
    simp [turn, Call.turns, List.replicate_succ]
  generalize hs1 : setProc { s with conns := s.conns + 1, locks := fun k => if k = fnv32a st then some p else s.locks k } p
        (.locked st (some k) ers) = s1
  have h1 : s' = rollback s1 p (.save st (some k) ers) (.unexpected k (lastSeq s st)) := by
    show runFrom cfg s _ = _
    rw [hsplit, runFrom_append, alone_locked (hq p) hc (hl _) hne, runFrom_cons, hs1]
    have hp : s1.procs p = .locked st (some k) ers := by rw [← hs1, setProc_same]
    have hls : lastSeq s1 st = lastSeq s st := by rw [← hs1]; rfl
    have : step cfg s1 p .go = rollback s1 p (.save st (some k) ers) (.unexpected k (lastSeq s st)) := by
      simp only [step, hp, hls, if_pos hk]
    rw [this]
    exact go_returned (setProc_same _ _ _) _
  rw [h1, ← hs1]
  refine ⟨by simp [rollback], ⟨?_, ?_⟩, ?_, rfl, rfl, rfl⟩
  · intro q hqp; simp [rollback, setProc, endTx, hqp]
  · intro j
    simp only [rollback, setProc, endTx]
    by_cases hj : j = fnv32a st
    · simp [hj]
    · simp [hj, hl]
  · simp [rollback, setProc, endTx]

theorem notifyRows_all {ty : Types} (rows : List Record) (h : ∀ r ∈ rows, decodeRow ty r = some r) :
    notifyRows ty rows = (rows, true) := by
  induction rows with
  | nil => rfl
  | cons r rows ih =>
    simp only [notifyRows, h r (by simp), ih (fun x hx => h x (by simp [hx]))]

theorem turn_save_ok {cfg : Config} {s : State} {p : Nat} {st : Str} {e : Option Nat} {ers : List EventRecord}
    {rs : List Record} {g n : Nat} {t i : Str} (hu : cfg.uuid = true)
    (hq : Quiet s) (hl : ∀ k, s.locks k = none) (hc : s.conns < cfg.cap) (hne : ers ≠ []) (hn : lastSeq s st = n)
    (he : ∀ k, e = some k → k = n) (hg : s.nextGsn = g) (hlen : rs.length = ers.length)
    (ht : (ers.map (·.event.aggType)).headD [] = t) (hi : (ers.map (·.event.aggId)).headD [] = i)
    (hb : toBatch true st t i n ers = .ok rs) (hd : ∀ r ∈ withGsns g rs, decodeRow cfg.ty r = some r) :
    let s' := runFrom cfg s (turn p (.save st e ers))
    s'.procs p = .returned (.save st e ers) (.ok (n + ers.length)) ∧ Left p s s' ∧
      s'.conns = s.conns ∧ s'.nextGsn = g + ers.length ∧ s'.table = insertRows s.table (withGsns g rs) ∧
      handed cfg s' = handed cfg s ++ withGsns g rs := by
  intro s'
  have hsplit : turn p (.save st e ers) = [(p, .call (.save st e ers)), (p, .go)] ++ ([(p, .go)] ++
      (List.replicate rs.length (p, .go) ++ [(p, .go), (p, .go)])) := by
    rw [hlen]
    have e : (List.replicate (ers.length + 4) ((p, Move.go) : Nat × Move)) =
        List.replicate 2 (p, Move.go) ++ (List.replicate ers.length (p, Move.go) ++ List.replicate 2 (p, Move.go)) := by
      rw [List.replicate_append_replicate, List.replicate_append_replicate]
      congr 1; omega
    simp only [turn, Call.turns, e]
    rfl
  generalize hs1 : setProc { s with conns := s.conns + 1, locks := fun k => if k = fnv32a st then some p else s.locks k } p
        (.locked st e ers) = s1
  have hs' : s' = step cfg (step cfg (runFrom cfg (runFrom cfg s1 [(p, .go)]) (List.replicate rs.length (p, .go))) p .go) p
      .go := by
    show runFrom cfg s _ = _
    rw [hsplit, runFrom_append, alone_locked (hq p) hc (hl _) hne, runFrom_append, runFrom_append, hs1]
    rfl
  have hp1 : s1.procs p = .locked st e ers := by rw [← hs1, setProc_same]
  have hls : lastSeq s1 st = n := by rw [← hs1]; exact hn
  have hstep : runFrom cfg s1 [(p, .go)] = setProc s1 p (.inserting st e ers rs []) := by
    show step cfg s1 p .go = _
    simp only [step, hp1, hls, ht, hi, hu, hb]
    cases e with
    | none => rfl
    | some k =>
      simp only
      rw [if_neg (by rw [he k rfl]; simp)]
  rw [hstep, run_inserts cfg p st e ers rs _ [] (setProc_same _ _ _)] at hs'
  have hg1 : (setProc s1 p (.inserting st e ers rs [])).nextGsn = g := by rw [← hs1]; exact hg
  rw [hg1] at hs'
  simp only [List.nil_append] at hs'
  generalize hs2 : setProc { (setProc s1 p (.inserting st e ers rs [])) with nextGsn := g + rs.length } p
    (.inserting st e ers [] (withGsns g rs)) = s2 at hs'
  have hp2 : s2.procs p = .inserting st e ers [] (withGsns g rs) := by rw [← hs2, setProc_same]
  have h3 : step cfg s2 p .go = setProc (endTx { s2 with
      table := insertRows s2.table (withGsns g rs), hist := s2.hist ++ [(st, e, withGsns g rs)],
      notified := s2.notified ++ (if cfg.notify then withGsns g rs else []) } p) p
        (.committed st e ers (withGsns g rs)) := by
    simp only [step, hp2]
  rw [h3] at hs'
  generalize hs3 : setProc (endTx { s2 with
      table := insertRows s2.table (withGsns g rs), hist := s2.hist ++ [(st, e, withGsns g rs)],
      notified := s2.notified ++ (if cfg.notify then withGsns g rs else []) } p) p
        (.committed st e ers (withGsns g rs)) = s3 at hs'
  have hp3 : s3.procs p = .committed st e ers (withGsns g rs) := by rw [← hs3, setProc_same]
  have hlast : lastOf (withGsns g rs) = n + ers.length := by
    obtain ⟨hb1, _, _⟩ := toBatch_ok hb
    refine lastOf_range (by rw [withGsns_seq, hb1]) ?_
    intro h0
    have := congrArg List.length h0
    rw [withGsns_length, hlen] at this
    simp at this
    exact hne this
  have e1 : ∀ q, q ≠ p → s3.procs q = s.procs q := by
    intro q hqp
    rw [← hs3, ← hs2, ← hs1]
    simp [setProc, endTx, hqp]
  have e2 : ∀ k, s3.locks k = none := by
    intro k
    rw [← hs3, ← hs2, ← hs1]
    simp only [setProc, endTx]
    by_cases hj : k = fnv32a st
    · simp [hj]
    · simp [hj, hl]
  have e3 : s3.conns = s.conns := by rw [← hs3, ← hs2, ← hs1]; simp [setProc, endTx]
  have e4 : s3.nextGsn = g + ers.length := by rw [← hs3, ← hs2, ← hlen]; rfl
  have e5 : s3.table = insertRows s.table (withGsns g rs) := by rw [← hs3, ← hs2, ← hs1]; rfl
  have e6 : s3.live = s.live := by rw [← hs3, ← hs2, ← hs1]; rfl
  have e7 : s3.notified = s.notified ++ (if cfg.notify then withGsns g rs else []) := by
    rw [← hs3, ← hs2, ← hs1]; rfl
  by_cases hnot : cfg.notify = true
  · have hfin : s' = setProc s3 p (.returned (.save st e ers) (.ok (lastOf (withGsns g rs)))) := by
      rw [hs']; simp only [step, hp3, if_pos hnot]
    rw [hfin]
    refine ⟨by rw [setProc_same, hlast], ⟨?_, e2⟩, e3, e4, e5, ?_⟩
    · intro q hqp; rw [setProc_other _ _ hqp]; exact e1 q hqp
    · simp only [handed, if_pos hnot]
      rw [show (setProc s3 p _).notified = s3.notified from rfl, e7, if_pos hnot]
  · have hfin : s' = setProc { s3 with live := s3.live ++ withGsns g rs } p
        (.returned (.save st e ers) (.ok (lastOf (withGsns g rs)))) := by
      rw [hs']; simp only [step, hp3, if_neg hnot, notifyRows_all _ hd, if_true]
    rw [hfin]
    refine ⟨by rw [setProc_same, hlast], ⟨?_, e2⟩, e3, e4, e5, ?_⟩
    · intro q hqp; rw [setProc_other _ _ hqp]; exact e1 q hqp
    · simp only [handed, if_neg hnot]
      rw [show (setProc { s3 with live := s3.live ++ withGsns g rs } p _).live = s3.live ++ withGsns g rs from rfl, e6]

theorem turn_delete_refused {cfg : Config} {s : State} {p : Nat} {st : Str} {n : Nat}
    (hq : Quiet s) (hl : ∀ k, s.locks k = none) (hc : s.conns < cfg.cap) (hn : lastSeq s st = 0 ∨ lastSeq s st ≠ n) :
    let s' := runFrom cfg s (turn p (.delete st n))
    s'.procs p = .returned (.delete st n) (.err (if lastSeq s st = 0 then .notFound else .unexpected n (lastSeq s st))) ∧
      Left p s s' ∧ s'.conns = s.conns + 1 ∧ s'.nextGsn = s.nextGsn ∧ s'.table = s.table ∧
      handed cfg s' = handed cfg s := by
  intro s'
  have h1 : s' = setProc (setProc { s with conns := s.conns + 1 } p (.begun (.delete st n))) p
      (.returned (.delete st n) (.err (if lastSeq s st = 0 then .notFound else .unexpected n (lastSeq s st)))) := by
    show runFrom cfg s _ = _
    rw [turn, runFrom_cons, step_call _ (hq p) hc]
    show runFrom cfg _ ((p, .go) :: List.replicate 2 (p, .go)) = _
    rw [runFrom_cons]
    generalize hs1 : setProc { s with conns := s.conns + 1 } p (.begun (.delete st n)) = s1
    have hp : s1.procs p = .begun (.delete st n) := by rw [← hs1, setProc_same]
    have hls : lastSeq s1 st = lastSeq s st := by rw [← hs1]; rfl
    have : step cfg s1 p .go = setProc s1 p
        (.returned (.delete st n) (.err (if lastSeq s st = 0 then .notFound else .unexpected n (lastSeq s st)))) := by
      by_cases h0 : lastSeq s st = 0
      · simp only [step, hp, hls, if_pos h0]
      · simp only [step, hp, hls, if_neg h0, if_pos (hn.resolve_left h0)]
    rw [this]
    exact go_returned (setProc_same _ _ _) 2
  rw [h1]
  refine ⟨by simp, ⟨?_, ?_⟩, rfl, rfl, rfl, rfl⟩
  · intro q hqp; simp [setProc, hqp]
  · intro k; exact hl k

theorem turn_delete_ok {cfg : Config} {s : State} {p : Nat} {st : Str} {n : Nat}
    (hq : Quiet s) (hl : ∀ k, s.locks k = none) (hc : s.conns < cfg.cap) (h0 : lastSeq s st ≠ 0) (hn : lastSeq s st = n) :
    let s' := runFrom cfg s (turn p (.delete st n))
    s'.procs p = .returned (.delete st n) (.ok 0) ∧
      Left p s s' ∧ s'.conns = s.conns ∧ s'.nextGsn = s.nextGsn ∧
      s'.table = (fun g => (s.table g).filter (fun r => !(((s.streamRows st).map (·.gsn)).contains g && r.streamName == st))) ∧
      handed cfg s' = handed cfg s := by
  intro s'
  generalize hs1 : setProc { s with conns := s.conns + 1 } p (.begun (.delete st n)) = s1
  have hp : s1.procs p = .begun (.delete st n) := by rw [← hs1, setProc_same]
  have hls : lastSeq s1 st = lastSeq s st := by rw [← hs1]; rfl
  have hsr : s1.streamRows st = s.streamRows st := by rw [← hs1]; rfl
  have hs' : s' = step cfg (step cfg (step cfg s1 p .go) p .go) p .go := by
    show runFrom cfg s _ = _
    rw [turn, runFrom_cons, step_call _ (hq p) hc, hs1]
    rfl
  have h1 : step cfg s1 p .go = setProc s1 p (.delCounted st n) := by
    simp only [step, hp, hls, if_neg h0, hn, ne_eq, not_true_eq_false, if_false]
    rw [if_neg (by rw [← hn]; exact h0)]
  rw [h1] at hs'
  have h2 : step cfg (setProc s1 p (.delCounted st n)) p .go =
      setProc (setProc s1 p (.delCounted st n)) p (.delExecuted st n ((s.streamRows st).map (·.gsn))) := by
    simp only [step, setProc_same]
    rw [show (setProc s1 p (.delCounted st n)).streamRows st = s1.streamRows st from rfl, hsr]
  rw [h2, setProc_twice] at hs'
  simp only [step, setProc_same] at hs'
  rw [hs', ← hs1]
  refine ⟨by simp, ⟨?_, ?_⟩, ?_, rfl, rfl, rfl⟩
  · intro q hqp; simp [setProc, endTx, hqp]
  · intro k; simp [setProc, endTx, hl]
  · simp [setProc, endTx]

/-! ## Rows and records -/

theorem decode_good {ty : Types} {er : EventRecord} (h : GoodEvent ty er) (hm : er.metadata = nullText) (st : Str)
    (g q : Nat) : decodeRow ty (mkRecord st g q er) = some (mkRecord st g q er) := by
  obtain ⟨d, h1, _, h3, h4⟩ := h.data
  have hp : parse d.text = some (d, []) := by
    have := parse_text d h1 [] (fun _ => Or.inl rfl)
    rwa [List.append_nil] at this
  have : Rem.decodeData ty er.event.evType er.event.data = some er.event.data := by
    unfold Rem.decodeData
    rw [h3, hp]
    simp only
    rw [h4, h3]
  simp [decodeRow, mkRecord, this, metadataOk, hm]

theorem decode_numbered {ty : Types} {st : Str} {ers : List EventRecord}
    (h : ∀ er ∈ ers, GoodEvent ty er ∧ er.metadata = nullText) :
    ∀ g q, ∀ r ∈ numbered st g q ers, decodeRow ty r = some r := by
  induction ers with
  | nil => intro g q r hr; simp [numbered] at hr
  | cons er ers ih =>
    intro g q r hr
    simp only [numbered, List.mem_cons] at hr
    rcases hr with rfl | hr
    · exact decode_good (h er (by simp)).1 (h er (by simp)).2 _ _ _
    · exact ih (fun x hx => h x (by simp [hx])) _ _ r hr

theorem null_text : (Json.null).text = nullText := by rfl

theorem toBatch_good {ty : Types} {st t i : Str} {ers : List EventRecord}
    (h : ∀ er ∈ ers, GoodEvent ty er ∧ er.metadata = nullText)
    (ha : ∀ er ∈ ers, er.event.aggType = t ∧ er.event.aggId = i) :
    ∀ n, ∃ rs, toBatch true st t i n ers = .ok rs ∧ rs.length = ers.length ∧
      ∀ g, withGsns (g + 1) rs = numbered st g n ers := by
  induction ers with
  | nil => intro n; exact ⟨[], rfl, rfl, fun _ => rfl⟩
  | cons er ers ih =>
    intro n
    obtain ⟨rs, h1, h2, h3⟩ := ih (fun x hx => h x (by simp [hx])) (fun x hx => ha x (by simp [hx])) (n + 1)
    obtain ⟨a1, a2⟩ := ha er (by simp)
    obtain ⟨hg, hm⟩ := h er (by simp)
    obtain ⟨d, d1, _, d3, _⟩ := hg.data
    have e1 : marshalValue er.event.data = some d := by rw [d3]; exact marshalValue_text d d1
    have e2 : marshalValue er.metadata = some .null := by
      rw [hm, ← null_text]; exact marshalValue_text .null trivial
    refine ⟨⟨st, t, i, 0, n + 1, er.now, er.uuid, er.event.evType, d.text, Json.null.text⟩ :: rs, ?_, ?_, ?_⟩
    · simp only [toBatch, a1, a2, e1, e2, h1]
      simp only [ne_eq, not_true_eq_false, if_false, if_true]
    · simp [h2]
    · intro g
      simp only [withGsns, numbered, h3, List.cons.injEq, and_true]
      simp [mkRecord, d3, hm, null_text, a1, a2]

/-- Records in the order of their global numbers are determined by which they are. -/
theorem gsn_ext : ∀ {a b : List Record}, (a.map (·.gsn)).Pairwise (· < ·) → (b.map (·.gsn)).Pairwise (· < ·) →
    (∀ r, r ∈ a ↔ r ∈ b) → a = b
  | [], [], _, _, _ => rfl
  | [], y :: b, _, _, h => by have := (h y).mpr (by simp); simp at this
  | x :: a, [], _, _, h => by have := (h x).mp (by simp); simp at this
  | x :: a, y :: b, ha, hb, h => by
    simp only [List.map_cons, List.pairwise_cons, List.mem_map, forall_exists_index, and_imp,
      forall_apply_eq_imp_iff₂] at ha hb
    have hxy : x = y := by
      rcases List.mem_cons.mp ((h x).mp (by simp)) with e | e
      · exact e
      · rcases List.mem_cons.mp ((h y).mpr (by simp)) with e' | e'
        · exact e'.symm
        · have := ha.1 y e'; have := hb.1 x e; omega
    subst hxy
    have : a = b := by
      refine gsn_ext ha.2 hb.2 (fun r => ?_)
      constructor
      · intro hr
        rcases List.mem_cons.mp ((h r).mp (by simp [hr])) with e | e
        · subst e; have := ha.1 r hr; omega
        · exact e
      · intro hr
        rcases List.mem_cons.mp ((h r).mpr (by simp [hr])) with e | e
        · subst e; have := hb.1 r hr; omega
        · exact e
    rw [this]

theorem insertRows_mem (rows : List Record) : ∀ (t : Nat → Option Record), (rows.map (·.gsn)).Pairwise (· < ·) →
    ∀ r ∈ rows, insertRows t rows r.gsn = some r := by
  induction rows with
  | nil => intro t _ r hr; simp at hr
  | cons x rows ih =>
    intro t hs r hr
    simp only [List.map_cons, List.pairwise_cons, List.mem_map, forall_exists_index, and_imp,
      forall_apply_eq_imp_iff₂] at hs
    rw [insertRows_cons]
    rcases List.mem_cons.mp hr with rfl | hr
    · rw [insertRows_other rows (fun y hy => by have := hs.1 y hy; omega)]
      simp
    · exact ih _ hs.2 r hr

/-! ## What the in-memory store makes of such a batch -/

theorem firstProblem_plain {ty : Types} {st : Str} (hs : Valid st) {t i : Str} : ∀ (ers : List EventRecord),
    (∀ er ∈ ers, GoodEvent ty er) → (∀ er ∈ ers, er.event.aggType = t ∧ er.event.aggId = i) →
    ∀ (g q : Nat) (e : Option Nat) (j : Nat) (prev : Option EventRecord), (∀ k, e = some k → k = q) →
      (∀ x, prev = some x → x.event.aggType = t ∧ x.event.aggId = i) → g + ers.length < 2 ^ 64 →
      q + ers.length < 2 ^ 64 → firstProblem (goodZ ty).ser st none g q e j prev ers = none := by
  intro ers
  induction ers with
  | nil => intros; rfl
  | cons er ers ih =>
    intro hg ha g q e j prev he hp h1 h2
    simp only [List.length_cons] at h1 h2
    have hso := goodZ_isSome (hg er (by simp)) hs (by omega : g + 1 < 2 ^ 64) (by omega : q + 1 < 2 ^ 64)
    obtain ⟨a1, a2⟩ := ha er (by simp)
    have d1 : differs Event.aggType prev er = false := by
      cases prev with
      | none => rfl
      | some x => simp [differs, a1, (hp x rfl).1]
    have d2 : differs Event.aggId prev er = false := by
      cases prev with
      | none => rfl
      | some x => simp [differs, a2, (hp x rfl).2]
    have hpr : problem ((goodZ ty).ser (mkRecord st (g + 1) (q + 1) er)).isSome q e none j prev er = none := by
      unfold problem
      rw [hso, d1, d2]
      cases e with
      | none => simp [ctxDone]
      | some k => simp [ctxDone, he k rfl]
    simp only [firstProblem, hpr]
    refine ih (fun x hx => hg x (by simp [hx])) (fun x hx => ha x (by simp [hx])) _ _ _ _ _ ?_ ?_ (by omega) (by omega)
    · intro k hk
      cases e with
      | none => simp at hk
      | some x => simp at hk; have := he x rfl; omega
    · intro x hx; simp at hx; subst hx; exact ⟨a1, a2⟩

theorem batchProblem_plain {ty : Types} {L : Log} (hL : L.WF) {st : Str} (hs : Valid st) {t i : Str}
    {ers : List EventRecord} (hg : ∀ er ∈ ers, GoodEvent ty er)
    (ha : ∀ er ∈ ers, er.event.aggType = t ∧ er.event.aggId = i) (hb : L.last + ers.length < 2 ^ 64) {e : Option Nat}
    (he : ∀ k, e = some k → k = L.streamLen st) : batchProblem (goodZ ty) L st e none ers = none := by
  have := streamLen_le_last hL st
  exact firstProblem_plain hs ers hg ha _ _ _ _ _ he (fun x hx => by simp at hx) hb (by omega)

theorem batchProblem_stale {z : Serializer} {L : Log} {st : Str} {ers : List EventRecord} (hne : ers ≠ []) {k : Nat}
    (hk : k ≠ L.streamLen st) :
    batchProblem z L st (some k) none ers = some (0, .unexpected k (L.streamLen st)) := by
  cases ers with
  | nil => exact absurd rfl hne
  | cons er ers =>
    have : problem (z.ser (mkRecord st (L.last + 1) (L.streamLen st + 1) er)).isSome (L.streamLen st) (some k) none 0 none er
        = some (.unexpected k (L.streamLen st)) := by
      simp [problem, differs, ctxDone, hk]
    simp only [batchProblem, firstProblem, this]

/-! ## Both stores -/

/-- Both stores hold the same log. -/
structure Both (cfg : Config) (s : State) (m : IM.State) (L : Log) (N k : Nat) : Prop where
  base : Base s
  quiet : Quiet s
  locks : ∀ j, s.locks j = none
  conns : s.conns = k
  next : s.nextGsn = L.last + 1
  table : ∀ r, s.table r.gsn = some r ↔ r ∈ L.recs
  dec : ∀ r ∈ L.recs, decodeRow cfg.ty r = some r
  wf : L.WF
  sim : IM.Sim (goodZ cfg.ty) m L
  upto : Upto N m
  last : L.last ≤ N

theorem Both.rows {cfg : Config} {s : State} {m : IM.State} {L : Log} {N k : Nat} (h : Both cfg s m L N k) :
    s.rows = L.recs := by
  refine gsn_ext (rows_increasing h.base) ?_ (fun r => ?_)
  · rw [List.pairwise_map]; exact h.wf.sorted
  · rw [mem_rows h.base]; exact h.table r

theorem Both.streamRows {cfg : Config} {s : State} {m : IM.State} {L : Log} {N k : Nat} (h : Both cfg s m L N k)
    (st : Str) : s.streamRows st = L.stream st := by
  unfold State.streamRows Log.stream
  rw [h.rows]
  refine List.filter_congr (fun r _ => ?_)
  by_cases hr : r.streamName = st <;> simp [hr]

theorem Both.lastSeq {cfg : Config} {s : State} {m : IM.State} {L : Log} {N k : Nat} (h : Both cfg s m L N k)
    (st : Str) : lastSeq s st = L.streamLen st := by
  refine lastSeq_contig ?_
  rw [h.streamRows]
  exact h.wf.contiguous st

theorem both_init (cfg : Config) : Both cfg init IM.init Log.empty 0 0 where
  base := base_init
  quiet := fun _ => Or.inl rfl
  locks := fun _ => rfl
  conns := rfl
  next := rfl
  table := by intro r; simp [init, Log.empty]
  dec := by intro r hr; simp [Log.empty] at hr
  wf := Log.WF.empty
  sim := IM.sim_init
  upto := upto_init
  last := Nat.le_refl _

theorem quiet_after {p : Nat} {s s' : State} (h : Quiet s) (hl : Left p s s') {c : Call} {o : Outcome Nat}
    (hp : s'.procs p = .returned c o) (ho : o ≠ .panic) : Quiet s' := by
  intro q
  by_cases hq : q = p
  · subst hq; exact Or.inr ⟨c, o, hp, ho⟩
  · rw [hl.others q hq]; exact h q

/-- How many connections the call costs. -/
def Call.cost (m : IM.State) : Call → Nat
  | .save _ _ _ => 0
  | .delete st n => if n ≠ 0 ∧ IM.totalEventsInStream m st false = .ok n then 0 else 1

/-- What the in-memory store hands to its subscribers for one call. -/
def Call.live (z : Serializer) (m : IM.State) : Call → List Record
  | .save st e ers => (IM.saveEvents z m st e none ers).broadcast
  | .delete _ _ => []

def Call.count : Call → Nat
  | .save _ _ ers => ers.length
  | .delete _ _ => 0

/-- One call. -/
theorem Both.turn {cfg : Config} (hu : cfg.uuid = true) {s : State} {m : IM.State} {L : Log} {N k : Nat}
    (h : Both cfg s m L N k) (p : Nat) (c : Call) (hc : c.Plain cfg.ty) (hk : k < cfg.cap) (hN : N + c.count < 2 ^ 64) :
    (∃ L', Both cfg (runFrom cfg s (turn p c)) (IM.step (serializer cfg.ty) m c.op) L' (N + c.count) (k + c.cost m)) ∧
    handed cfg (runFrom cfg s (PG.turn p c)) = handed cfg s ++ c.live (serializer cfg.ty) m ∧
    ∃ o, (runFrom cfg s (PG.turn p c)).procs p = .returned c o ∧
      match c with
      | .save _ _ _ => o = c.memory (serializer cfg.ty) m
      | .delete st _ => if L.streamLen st = 0 then o = .err .notFound else o = c.memory (serializer cfg.ty) m := by
  have hkc : s.conns < cfg.cap := by rw [h.conns]; exact hk
  have hlN := h.last
  have hbase := base_runFrom cfg (PG.turn p c) s h.base
  cases c with
  | save st e ers =>
    obtain ⟨hv, hg, t, i, ha⟩ := hc
    have hge : ∀ er ∈ ers, GoodEvent cfg.ty er := fun er her => (hg er her).1
    simp only [Call.count] at hN ⊢
    have hcong := im_saveEvents_congr h.upto hv e none ers hge hN
    simp only [Call.op, IM.step, Call.live, Call.memory, Call.cost, hcong, Nat.add_zero]
    have hup := im_saveEvents_upto (z := goodZ cfg.ty) h.upto st e none ers
    by_cases hne : ers = []
    · subst hne
      have him : IM.saveEvents (goodZ cfg.ty) m st e none [] = ⟨m, .err .missingEvents, []⟩ := rfl
      obtain ⟨h1, h2, h3, h4, h5, h6⟩ := turn_save_empty (cfg := cfg) (p := p) (st := st) (e := e) h.quiet h.locks hkc
      rw [him]
      refine ⟨⟨L, hbase, quiet_after h.quiet h2 h1 (by simp), h2.locks, by rw [h3, h.conns], by rw [h4, h.next],
        by rw [h5]; exact h.table, h.dec, h.wf, h.sim, h.upto, h.last⟩, by rw [h6]; simp, _, h1, rfl⟩
    · by_cases hex : ∀ x, e = some x → x = L.streamLen st
      · -- the save is accepted
        have hbp := batchProblem_plain h.wf hv hge ha (by omega) hex
        obtain ⟨i1, i2, i3⟩ := (IM.saveEvents_spec' (goodZ_lawful cfg.ty) h.wf h.sim st e none ers
          (Or.inr (fun j => batchProblem_good h.wf hv e none ers hge (by omega) j)) hne).1 hbp
        obtain ⟨rs, b1, b2, b3⟩ := toBatch_good (st := st) hg ha (L.streamLen st)
        have hb3 := b3 L.last
        have hhead : (ers.map (·.event.aggType)).headD [] = t ∧ (ers.map (·.event.aggId)).headD [] = i := by
          cases ers with
          | nil => exact absurd rfl hne
          | cons er ers => exact ⟨(ha er (by simp)).1, (ha er (by simp)).2⟩
        have hdec : ∀ r ∈ withGsns (L.last + 1) rs, decodeRow cfg.ty r = some r := by
          rw [hb3]; exact decode_numbered hg _ _
        obtain ⟨h1, h2, h3, h4, h5, h6⟩ := turn_save_ok (p := p) (e := e) hu h.quiet h.locks hkc hne (h.lastSeq st) hex
          h.next b2 hhead.1 hhead.2 b1 hdec
        rw [hb3] at h5 h6
        have hview : (numbered st L.last (L.streamLen st) ers).map (goodZ cfg.ty).view =
            numbered st L.last (L.streamLen st) ers := List.map_id _
        have happ : (L.append (goodZ cfg.ty).view st ers).recs = L.recs ++ numbered st L.last (L.streamLen st) ers := by
          simp only [Log.append, hview]
        refine ⟨⟨L.append (goodZ cfg.ty).view st ers, hbase, quiet_after h.quiet h2 h1 (by simp), h2.locks,
          by rw [h3, h.conns], by rw [h4]; simp only [Log.append]; omega, ?_, ?_,
          Log.WF.append (goodZ_lawful cfg.ty) h.wf st ers, i2, hup, by simp only [Log.append]; omega⟩, ?_, _, h1, i1.symm⟩
        · intro r
          rw [h5, happ, List.mem_append]
          constructor
          · intro hr
            rcases insertRows_some _ hr with hr | hr
            · exact Or.inr hr.1
            · exact Or.inl ((h.table r).mp hr)
          · rintro (hr | hr)
            · rw [insertRows_other _ (fun x hx => by
                have := numbered_gsn_bounds hx; have := h.wf.bounded r hr; omega)]
              exact (h.table r).mpr hr
            · refine insertRows_mem _ _ ?_ r hr
              rw [List.pairwise_map]; exact numbered_sorted _ _ _ _
        · intro r hr
          rw [happ, List.mem_append] at hr
          rcases hr with hr | hr
          · exact h.dec r hr
          · exact decode_numbered hg _ _ r hr
        · rw [h6, i3, hview]
      · -- the expected number is wrong
        obtain ⟨x, rfl, hx⟩ : ∃ x, e = some x ∧ x ≠ L.streamLen st := by
          cases e with
          | none => exact absurd (fun x hx => by simp at hx) hex
          | some x => exact ⟨x, rfl, fun hxe => hex (fun y hy => by simp at hy; rw [← hy]; exact hxe)⟩
        obtain ⟨i1, i2, i3⟩ := (IM.saveEvents_spec' (goodZ_lawful cfg.ty) h.wf h.sim st (some x) none ers
          (Or.inr (fun j => batchProblem_good h.wf hv (some x) none ers hge (by omega) j)) hne).2 _ _
          (batchProblem_stale hne hx)
        obtain ⟨h1, h2, h3, h4, h5, h6⟩ := turn_save_unexpected (cfg := cfg) (p := p) (st := st) (k := x) h.quiet h.locks
          hkc hne (by rw [h.lastSeq]; exact Ne.symm hx)
        rw [h.lastSeq] at h1
        refine ⟨⟨L, hbase, quiet_after h.quiet h2 h1 (by simp), h2.locks, by rw [h3, h.conns], by rw [h4, h.next],
          by rw [h5]; exact h.table, h.dec, h.wf, i2, hup, by omega⟩, by rw [h6, i3]; simp, _, h1, i1.symm⟩
  | delete st n =>
    have htot : IM.totalEventsInStream m st false = .ok (L.streamLen st) := IM.total_spec h.sim st
    have hup := im_delete_upto h.upto st n false
    obtain ⟨_, d2, d3, d4⟩ := IM.deleteStream_spec h.wf h.sim st n false
    simp only [Call.count, Nat.add_zero, Call.op, IM.step, Call.live, Call.memory, Call.cost, htot, List.append_nil]
    by_cases h0 : L.streamLen st = 0
    · obtain ⟨i1, _⟩ := d4 rfl h0
      obtain ⟨h1, h2, h3, h4, h5, h6⟩ := turn_delete_refused (cfg := cfg) (p := p) (st := st) (n := n) h.quiet h.locks hkc
        (Or.inl (by rw [h.lastSeq]; exact h0))
      rw [h.lastSeq, if_pos h0] at h1
      refine ⟨⟨L, hbase, quiet_after h.quiet h2 h1 (by simp), h2.locks, ?_, by rw [h4, h.next],
          by rw [h5]; exact h.table, h.dec, h.wf, i1, hup, by omega⟩, h6, _, h1, by rw [if_pos h0]⟩
      rw [h3, h.conns, if_neg (by rw [h0]; rintro ⟨a, b⟩; simp at b; exact a b.symm)]
    · by_cases hx : n = L.streamLen st
      · obtain ⟨i1, i2⟩ := d3 rfl h0 hx
        obtain ⟨h1, h2, h3, h4, h5, h6⟩ := turn_delete_ok (cfg := cfg) (p := p) (st := st) (n := n) h.quiet h.locks hkc
          (by rw [h.lastSeq]; exact h0) (by rw [h.lastSeq]; exact hx.symm)
        refine ⟨⟨L.delete st, hbase, quiet_after h.quiet h2 h1 (by simp), h2.locks, ?_, by rw [h4, h.next]; rfl,
          ?_, ?_, h.wf.delete st, i2, hup, by simp only [Log.delete]; omega⟩, h6, _, h1, by rw [if_neg h0, i1]⟩
        · rw [h3, h.conns, if_pos ⟨by rw [hx]; exact h0, by rw [hx]⟩]; omega
        · intro r
          rw [h5]
          simp only [Log.delete, List.mem_filter, Option.filter_eq_some_iff, ← h.table r]
          refine and_congr_right (fun hr => ?_)
          by_cases hst : r.streamName = st
          · have : r ∈ s.streamRows st := by
              rw [h.streamRows]; simp only [Log.stream, List.mem_filter]; exact ⟨(h.table r).mp hr, by simp [hst]⟩
            have hmem : ((s.streamRows st).map (·.gsn)).contains r.gsn = true := by
              rw [List.contains_iff_mem]; exact List.mem_map_of_mem this
            simp [hst, hmem]
            exact ⟨r, this, rfl⟩
          · simp [hst]
        · intro r hr
          exact h.dec r (List.mem_filter.mp hr).1
      · have i1 := d2 rfl h0 hx
        obtain ⟨h1, h2, h3, h4, h5, h6⟩ := turn_delete_refused (cfg := cfg) (p := p) (st := st) (n := n) h.quiet h.locks hkc
          (Or.inr (by rw [h.lastSeq]; exact Ne.symm hx))
        rw [h.lastSeq, if_neg h0] at h1
        rw [i1] at hup ⊢
        refine ⟨⟨L, hbase, quiet_after h.quiet h2 h1 (by simp), h2.locks, ?_, by rw [h4, h.next],
          by rw [h5]; exact h.table, h.dec, h.wf, h.sim, hup, by omega⟩, h6, _, h1, by rw [if_neg h0]⟩
        rw [h3, h.conns, if_neg (by rintro ⟨_, b⟩; simp at b; exact hx b.symm)]

/-- Any number of calls. -/
theorem Both.calls {cfg : Config} (hu : cfg.uuid = true) (calls : List (Nat × Call)) : ∀ {s : State} {m : IM.State} {L : Log}
    {N k : Nat}, Both cfg s m L N k → (∀ x ∈ calls, x.2.Plain cfg.ty) → N + broughtBy calls < 2 ^ 64 →
    k + refused (serializer cfg.ty) m calls < cfg.cap →
    (∃ L', Both cfg (runFrom cfg s (oneByOne calls)) ((calls.map (·.2.op)).foldl (IM.step (serializer cfg.ty)) m) L'
      (N + broughtBy calls) (k + refused (serializer cfg.ty) m calls)) ∧
    handed cfg (runFrom cfg s (oneByOne calls)) = handed cfg s ++ memoryLive (serializer cfg.ty) m calls := by
  induction calls with
  | nil =>
    intro s m L N k h _ _ _
    exact ⟨⟨L, by simpa [broughtBy, refused, oneByOne, runFrom] using h⟩, by simp [oneByOne, memoryLive, runFrom]⟩
  | cons x calls ih =>
    obtain ⟨p, c⟩ := x
    intro s m L N k h hp hN hk
    have hbr : broughtBy ((p, c) :: calls) = c.count + broughtBy calls := by
      cases c <;> simp [broughtBy, Call.count]
    have hrf : refused (serializer cfg.ty) m ((p, c) :: calls) =
        c.cost m + refused (serializer cfg.ty) (IM.step (serializer cfg.ty) m c.op) calls := by
      cases c <;> rfl
    have hml : memoryLive (serializer cfg.ty) m ((p, c) :: calls) =
        c.live (serializer cfg.ty) m ++ memoryLive (serializer cfg.ty) (IM.step (serializer cfg.ty) m c.op) calls := by
      cases c <;> rfl
    rw [hbr] at hN
    rw [hrf] at hk
    obtain ⟨⟨L', h1⟩, h2, _⟩ := h.turn hu p c (hp (p, c) (by simp)) (by omega) (by omega)
    obtain ⟨⟨L'', h3⟩, h4⟩ := ih h1 (fun y hy => hp y (by simp [hy])) (by omega) (by omega)
    have hrun : runFrom cfg s (oneByOne ((p, c) :: calls)) = runFrom cfg (runFrom cfg s (PG.turn p c)) (oneByOne calls) := by
      rw [← runFrom_append]; rfl
    rw [hrun, hbr, hrf, hml]
    refine ⟨⟨L'', ?_⟩, by rw [h4, h2, List.append_assoc]⟩
    rw [← Nat.add_assoc, ← Nat.add_assoc]
    exact h3

end RangeDB.PG

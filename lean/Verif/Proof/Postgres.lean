import Verif.Spec.Postgres

/-! # Lemmas about the PostgreSQL store -/

namespace RangeDB.PG

open RangeDB.Json

/-! ## The effects of steps -/

/-- The call is in a transaction. -/
def Proc.inTx : Proc → Bool
  | .begun _ | .locked _ _ _ | .inserting _ _ _ _ _ | .delCounted _ _ | .delExecuted _ _ _ => true
  | _ => false

/-- What a step can do. -/
inductive Eff (cfg : Config) (p : Nat) (m : Move) (s : State) : State → Prop where
  | stay : Eff cfg p m s s
  | begin (c : Call) (hm : m = .call c) (hf : s.procs p = .idle ∨ ∃ c' o, s.procs p = .returned c' o ∧ o ≠ .panic)
      (hc : s.conns < cfg.cap) :
      Eff cfg p m s (setProc { s with conns := s.conns + 1 } p (.begun c))
  | rollback (c : Call) (e : Err) (hr : (s.procs p).inTx = true) : Eff cfg p m s (rollback s p c e)
  | lock (st : Str) (e : Option Nat) (ers : List EventRecord) (hp : s.procs p = .begun (.save st e ers))
      (hl : s.locks (fnv32a st) = none) (he : ers ≠ []) :
      Eff cfg p m s
        (setProc { s with locks := fun k => if k = fnv32a st then some p else s.locks k } p (.locked st e ers))
  | prepare (st : Str) (e : Option Nat) (ers : List EventRecord) (rs : List Record) (hp : s.procs p = .locked st e ers)
      (he : ∀ x, e = some x → lastSeq s st = x)
      (hb : toBatch cfg.uuid st ((ers.map (·.event.aggType)).headD []) ((ers.map (·.event.aggId)).headD [])
        (lastSeq s st) ers = .ok rs) :
      Eff cfg p m s (setProc s p (.inserting st e ers rs []))
  | panic (st : Str) (e : Option Nat) (ers : List EventRecord) (hp : s.procs p = .locked st e ers)
      (hb : toBatch cfg.uuid st ((ers.map (·.event.aggType)).headD []) ((ers.map (·.event.aggId)).headD [])
        (lastSeq s st) ers = .panic) :
      Eff cfg p m s (setProc s p (.returned (.save st e ers) .panic))
  | alloc (st : Str) (e : Option Nat) (ers : List EventRecord) (r : Record) (todo rows : List Record)
      (hp : s.procs p = .inserting st e ers (r :: todo) rows) :
      Eff cfg p m s (setProc { s with nextGsn := s.nextGsn + 1 } p
        (.inserting st e ers todo (rows ++ [{ r with gsn := s.nextGsn }])))
  | commit (st : Str) (e : Option Nat) (ers : List EventRecord) (rows : List Record) (x : Proc)
      (hp : s.procs p = .inserting st e ers [] rows)
      (hx : x = .committed st e ers rows ∨ x = .returned (.save st e ers) (.err .db)) :
      Eff cfg p m s (setProc (endTx { s with
        table := insertRows s.table rows, hist := s.hist ++ [(st, e, rows)],
        notified := s.notified ++ (if cfg.notify then rows else []) } p) p x)
  | done (st : Str) (e : Option Nat) (ers : List EventRecord) (rows live : List Record) (o : Outcome Nat)
      (hp : s.procs p = .committed st e ers rows) (ho : o = .ok (lastOf rows) ∨ o = .err .deserialize)
      (hn : o = .ok (lastOf rows) → cfg.notify = true ∨ (notifyRows cfg.ty rows).2 = true) :
      Eff cfg p m s (setProc { s with live := live } p (.returned (.save st e ers) o))
  | refuse (st : Str) (n : Nat) (e : Err) (hp : s.procs p = .begun (.delete st n)) :
      Eff cfg p m s (setProc s p (.returned (.delete st n) (.err e)))
  | count (st : Str) (n : Nat) (hp : s.procs p = .begun (.delete st n)) (hn : lastSeq s st = n) (h0 : n ≠ 0) :
      Eff cfg p m s (setProc s p (.delCounted st n))
  | execute (st : Str) (n : Nat) (hp : s.procs p = .delCounted st n) :
      Eff cfg p m s (setProc s p (.delExecuted st n ((s.streamRows st).map (·.gsn))))
  | remove (st : Str) (n : Nat) (gsns : List Nat) (o : Outcome Nat) (hp : s.procs p = .delExecuted st n gsns)
      (ho : o = .ok 0 ∨ o = .err .db) :
      Eff cfg p m s (setProc (endTx { s with
        table := fun g => (s.table g).filter (fun r => !(gsns.contains g && r.streamName == st)) } p) p
        (.returned (.delete st n) o))

theorem step_eff (cfg : Config) (s : State) (p : Nat) (m : Move) : Eff cfg p m s (step cfg s p m) := by
  unfold step
  cases hp : s.procs p with
  | idle =>
    cases m with
    | call c =>
      simp only
      by_cases hc : s.conns < cfg.cap
      · rw [if_pos hc]; exact .begin c rfl (Or.inl hp) hc
      · rw [if_neg hc]; exact .stay
    | _ => exact .stay
  | returned c' o =>
    cases m with
    | call c =>
      cases o with
      | panic => exact .stay
      | ok n =>
        simp only
        by_cases hc : s.conns < cfg.cap
        · rw [if_pos hc]; exact .begin c rfl (Or.inr ⟨_, _, hp, by simp⟩) hc
        · rw [if_neg hc]; exact .stay
      | err n =>
        simp only
        by_cases hc : s.conns < cfg.cap
        · rw [if_pos hc]; exact .begin c rfl (Or.inr ⟨_, _, hp, by simp⟩) hc
        · rw [if_neg hc]; exact .stay
      | blocked =>
        simp only
        by_cases hc : s.conns < cfg.cap
        · rw [if_pos hc]; exact .begin c rfl (Or.inr ⟨_, _, hp, by simp⟩) hc
        · rw [if_neg hc]; exact .stay
    | _ => cases o <;> exact .stay
  | begun c =>
    cases c with
    | save st e ers =>
      cases m with
      | go =>
        simp only
        by_cases h0 : ers.length < 1
        · rw [if_pos h0]; exact .rollback _ _ (by simp [hp, Proc.inTx])
        · rw [if_neg h0]
          cases hl : s.locks (fnv32a st) with
          | none => exact .lock st e ers hp hl (by rintro rfl; simp at h0)
          | some q => exact .stay
      | fail => exact .rollback _ _ (by simp [hp, Proc.inTx])
      | _ => exact .stay
    | delete st n =>
      cases m with
      | go =>
        simp only
        by_cases h0 : lastSeq s st = 0
        · rw [if_pos h0]; exact .refuse st n _ hp
        rw [if_neg h0]
        by_cases h1 : lastSeq s st ≠ n
        · rw [if_pos h1]; exact .refuse st n _ hp
        · rw [if_neg h1]
          have h1' : lastSeq s st = n := by omega
          exact .count st n hp h1' (by omega)
      | fail => exact .refuse st n _ hp
      | _ => exact .stay
  | locked st e ers =>
    cases m with
    | go =>
      simp only
      have key : ∀ he : (∀ x, e = some x → lastSeq s st = x), Eff cfg p .go s
          (match toBatch cfg.uuid st ((ers.map (·.event.aggType)).headD []) ((ers.map (·.event.aggId)).headD [])
              (lastSeq s st) ers with
            | .ok rs => setProc s p (.inserting st e ers rs [])
            | .err err => rollback s p (.save st e ers) err
            | .panic => setProc s p (.returned (.save st e ers) .panic)
            | .blocked => s) := by
        intro he
        cases hb : toBatch cfg.uuid st ((ers.map (·.event.aggType)).headD []) ((ers.map (·.event.aggId)).headD [])
          (lastSeq s st) ers with
        | ok rs => exact .prepare st e ers rs hp he hb
        | err x => exact .rollback (.save st e ers) x (by simp [hp, Proc.inTx])
        | panic => exact .panic st e ers hp hb
        | blocked => exact .stay
      cases e with
      | none => exact key (by simp)
      | some x =>
        simp only
        by_cases h : lastSeq s st ≠ x
        · rw [if_pos h]; exact .rollback (.save st (some x) ers) _ (by simp [hp, Proc.inTx])
        · rw [if_neg h]
          exact key (by rintro y hy; simp only [Option.some.injEq] at hy; omega)
    | fail => exact .rollback _ _ (by simp [hp, Proc.inTx])
    | _ => exact .stay
  | inserting st e ers todo rows =>
    cases todo with
    | nil =>
      cases m with
      | go => exact .commit st e ers rows _ hp (Or.inl rfl)
      | lost => exact .commit st e ers rows _ hp (Or.inr rfl)
      | fail => exact .rollback _ _ (by simp [hp, Proc.inTx])
      | call c => exact .stay
    | cons r todo =>
      cases m with
      | go => exact .alloc st e ers r todo rows hp
      | fail => exact .rollback _ _ (by simp [hp, Proc.inTx])
      | _ => exact .stay
  | committed st e ers rows =>
    cases m with
    | go =>
      simp only
      by_cases hn : cfg.notify = true
      · rw [if_pos hn]; exact .done st e ers rows s.live _ hp (Or.inl rfl) (fun _ => Or.inl hn)
      · rw [if_neg hn]
        by_cases h2 : (notifyRows cfg.ty rows).2 = true
        · rw [if_pos h2]; exact .done st e ers rows _ _ hp (Or.inl rfl) (fun _ => Or.inr h2)
        · rw [if_neg h2]; exact .done st e ers rows _ _ hp (Or.inr rfl) (by simp)
    | _ => exact .stay
  | delCounted st n =>
    cases m with
    | go => exact .execute st n hp
    | fail => exact .rollback _ _ (by simp [hp, Proc.inTx])
    | _ => exact .stay
  | delExecuted st n gsns =>
    cases m with
    | go => exact .remove st n gsns _ hp (Or.inl rfl)
    | lost => exact .remove st n gsns _ hp (Or.inr rfl)
    | fail => exact .rollback _ _ (by simp [hp, Proc.inTx])
    | call c => exact .stay

@[simp] theorem setProc_same (s : State) (p : Nat) (x : Proc) : (setProc s p x).procs p = x := by simp [setProc]

theorem setProc_other (s : State) {p q : Nat} (x : Proc) (h : q ≠ p) : (setProc s p x).procs q = s.procs q := by
  simp [setProc, h]

/-! ## The rows of a stream -/

/-- The rows of a stream, from the table. -/
def listing (t : Nat → Option Record) (n : Nat) (st : Str) : List Record :=
  ((List.range n).filterMap t).filter (fun r => r.streamName == st)

theorem streamRows_listing (s : State) (st : Str) : s.streamRows st = listing s.table s.nextGsn st := rfl

theorem listing_zero (t : Nat → Option Record) (st : Str) : listing t 0 st = [] := rfl

theorem listing_succ (t : Nat → Option Record) (n : Nat) (st : Str) :
    listing t (n + 1) st = listing t n st ++ ((t n).filter (fun r => r.streamName == st)).toList := by
  unfold listing
  rw [List.range_succ, List.filterMap_append, List.filter_append]
  congr 1
  cases h : t n with
  | none => simp [h]
  | some r =>
    by_cases hr : (r.streamName == st) = true
    · simp [h, hr, Option.filter]
    · simp [h, hr, Option.filter]

theorem listing_congr {t t' : Nat → Option Record} {n : Nat} {st : Str}
    (h : ∀ g < n, (t g).filter (fun r => r.streamName == st) = (t' g).filter (fun r => r.streamName == st)) :
    listing t n st = listing t' n st := by
  induction n with
  | zero => rfl
  | succ n ih => rw [listing_succ, listing_succ, ih (fun g hg => h g (by omega)), h n (by omega)]

theorem mem_listing {t : Nat → Option Record} {n : Nat} {st : Str} {r : Record} :
    r ∈ listing t n st ↔ r.streamName = st ∧ ∃ g < n, t g = some r := by
  unfold listing
  rw [List.mem_filter, List.mem_filterMap]
  simp only [List.mem_range, beq_iff_eq]
  exact and_comm

/-- A row that is added with a number above those of its stream comes last. -/
theorem listing_set {t : Nat → Option Record} {n : Nat} {r : Record} (hg : ∀ g x, t g = some x → x.gsn = g)
    (hr : r.gsn < n) (hnone : t r.gsn = none) (hlt : ∀ x ∈ listing t n r.streamName, x.gsn < r.gsn) :
    listing (fun g => if g = r.gsn then some r else t g) n r.streamName = listing t n r.streamName ++ [r] := by
  induction n with
  | zero => omega
  | succ n ih =>
    rw [listing_succ, listing_succ]
    by_cases hn : n = r.gsn
    · subst hn
      rw [if_pos rfl, hnone]
      have : listing (fun g => if g = r.gsn then some r else t g) r.gsn r.streamName = listing t r.gsn r.streamName := by
        refine listing_congr (fun g hg => ?_)
        rw [if_neg (by omega)]
      rw [this]
      simp [Option.filter]
    · have hlt' : ∀ x ∈ listing t n r.streamName, x.gsn < r.gsn := fun x hx => hlt x (by rw [listing_succ]; simp [hx])
      rw [ih (by omega) hlt', if_neg hn]
      have : (t n).filter (fun x => x.streamName == r.streamName) = none := by
        cases htn : t n with
        | none => rfl
        | some x =>
          by_cases hx : (x.streamName == r.streamName) = true
          · have h1 := hlt x (mem_listing.mpr ⟨by simpa using hx, n, by omega, htn⟩)
            have h2 := hg n x htn
            omega
          · simp [Option.filter, hx]
      rw [this]
      simp

theorem listing_set_other {t : Nat → Option Record} {n : Nat} {st : Str} {r : Record} (hnone : t r.gsn = none)
    (hr : r.streamName ≠ st) : listing (fun g => if g = r.gsn then some r else t g) n st = listing t n st := by
  refine listing_congr (fun g _ => ?_)
  by_cases hg : g = r.gsn
  · rw [if_pos hg, hg, hnone]
    simp [Option.filter, hr]
  · rw [if_neg hg]

theorem insertRows_cons (t : Nat → Option Record) (r : Record) (rs : List Record) :
    insertRows t (r :: rs) = insertRows (fun g => if g = r.gsn then some r else t g) rs := rfl

theorem insertRows_other {t : Nat → Option Record} (rows : List Record) {g : Nat} (h : ∀ r ∈ rows, r.gsn ≠ g) :
    insertRows t rows g = t g := by
  induction rows generalizing t with
  | nil => rfl
  | cons r rows ih =>
    rw [insertRows_cons, ih (fun x hx => h x (by simp [hx])), if_neg (fun e => h r (by simp) e.symm)]

theorem insertRows_some {t : Nat → Option Record} (rows : List Record) {g : Nat} {x : Record}
    (h : insertRows t rows g = some x) : (x ∈ rows ∧ x.gsn = g) ∨ t g = some x := by
  induction rows generalizing t with
  | nil => exact Or.inr h
  | cons r rows ih =>
    rw [insertRows_cons] at h
    rcases ih h with h1 | h1
    · exact Or.inl ⟨by simp [h1.1], h1.2⟩
    · by_cases hg : g = r.gsn
      · rw [if_pos hg, Option.some.injEq] at h1
        subst h1
        exact Or.inl ⟨by simp, hg.symm⟩
      · rw [if_neg hg] at h1
        exact Or.inr h1

theorem listing_insert {t : Nat → Option Record} {n : Nat} {st : Str} (rows : List Record)
    (hg : ∀ g x, t g = some x → x.gsn = g) (hst : ∀ r ∈ rows, r.streamName = st) (hn : ∀ r ∈ rows, r.gsn < n)
    (hnone : ∀ r ∈ rows, t r.gsn = none) (hinc : (rows.map (·.gsn)).Pairwise (· < ·))
    (hlt : ∀ r ∈ rows, ∀ x ∈ listing t n st, x.gsn < r.gsn) :
    listing (insertRows t rows) n st = listing t n st ++ rows := by
  induction rows generalizing t with
  | nil => simp [insertRows]
  | cons r rows ih =>
    rw [insertRows_cons]
    have hrs : r.streamName = st := hst r (by simp)
    have h1 : listing (fun g => if g = r.gsn then some r else t g) n st = listing t n st ++ [r] := by
      have := listing_set (t := t) (n := n) (r := r) hg (hn r (by simp)) (hnone r (by simp))
        (by rw [hrs]; exact hlt r (by simp))
      rwa [hrs] at this
    simp only [List.map_cons, List.pairwise_cons] at hinc
    rw [ih]
    · rw [h1]; simp
    · intro g x hx
      by_cases e : g = r.gsn
      · rw [if_pos e, Option.some.injEq] at hx; rw [← hx, e]
      · rw [if_neg e] at hx; exact hg g x hx
    · exact fun x hx => hst x (by simp [hx])
    · exact fun x hx => hn x (by simp [hx])
    · intro x hx
      have := hinc.1 x.gsn (List.mem_map_of_mem hx)
      rw [if_neg (by omega)]
      exact hnone x (by simp [hx])
    · exact hinc.2
    · intro x hx y hy
      rw [h1] at hy
      rcases List.mem_append.mp hy with hy | hy
      · exact hlt x (by simp [hx]) y hy
      · rw [List.mem_singleton.mp hy]
        exact hinc.1 x.gsn (List.mem_map_of_mem hx)

theorem listing_insert_other {t : Nat → Option Record} {n : Nat} {st : Str} (rows : List Record)
    (hst : ∀ r ∈ rows, r.streamName ≠ st) (hnone : ∀ r ∈ rows, t r.gsn = none)
    (hinc : (rows.map (·.gsn)).Pairwise (· < ·)) : listing (insertRows t rows) n st = listing t n st := by
  induction rows generalizing t with
  | nil => rfl
  | cons r rows ih =>
    simp only [List.map_cons, List.pairwise_cons] at hinc
    rw [insertRows_cons, ih (fun x hx => hst x (by simp [hx])) _ hinc.2,
      listing_set_other (hnone r (by simp)) (hst r (by simp))]
    intro x hx
    have := hinc.1 x.gsn (List.mem_map_of_mem hx)
    rw [if_neg (by omega)]
    exact hnone x (by simp [hx])

theorem listing_grow {t : Nat → Option Record} {n : Nat} (st : Str) (h : t n = none) :
    listing t (n + 1) st = listing t n st := by
  rw [listing_succ, h]; simp

theorem listing_delete {t : Nat → Option Record} {n : Nat} {st st' : Str} (h : st' ≠ st) (gsns : List Nat) :
    listing (fun g => (t g).filter (fun r => !(gsns.contains g && r.streamName == st'))) n st = listing t n st := by
  refine listing_congr (fun g _ => ?_)
  cases t g with
  | none => rfl
  | some r =>
    by_cases hr : (r.streamName == st) = true
    · have h1 : (r.streamName == st') = false := by
        rw [beq_iff_eq] at hr
        rw [hr]
        simp [Ne.symm h]
      simp [Option.filter, h1, hr]
    · by_cases hk : (!(gsns.contains g && r.streamName == st')) = true
      · simp only [Option.filter, hk, if_true]
      · simp only [Option.filter, hk, hr]
        simp

/-- `MAX(StreamSequenceNumber)` of rows that are numbered without gaps is their number. -/
theorem foldl_max (l : List Record) (a n : Nat) (h : l.map (·.seq) = List.range' (a + 1) n) :
    l.foldl (fun m r => max m r.seq) a = a + n := by
  induction l generalizing a n with
  | nil => cases n with
    | zero => rfl
    | succ n => simp [List.range'_succ] at h
  | cons r l ih =>
    cases n with
    | zero => simp at h
    | succ n =>
      simp only [List.map_cons, List.range'_succ, List.cons.injEq] at h
      rw [List.foldl_cons, h.1, show max a (a + 1) = a + 1 by omega, ih (a + 1) n h.2]
      omega

theorem lastSeq_contig {s : State} {st : Str} {n : Nat} (h : (s.streamRows st).map (·.seq) = List.range' 1 n) :
    lastSeq s st = n := by
  unfold lastSeq
  rw [foldl_max _ 0 n h]; omega

/-! ## Batches -/

theorem toBatch_ok {uuid : Bool} {st t i : Str} {n : Nat} {ers : List EventRecord} {rs : List Record}
    (h : toBatch uuid st t i n ers = .ok rs) :
    rs.map (·.seq) = List.range' (n + 1) ers.length ∧ rs.map content = ers.map (stored st) ∧
      (∀ r ∈ rs, r.streamName = st) := by
  induction ers generalizing n rs with
  | nil =>
    simp only [toBatch, Outcome.ok.injEq] at h
    subst h
    simp
  | cons er ers ih =>
    simp only [toBatch] at h
    by_cases h1 : t ≠ er.event.aggType
    · rw [if_pos h1] at h; simp at h
    rw [if_neg h1] at h
    by_cases h2 : i ≠ er.event.aggId
    · rw [if_pos h2] at h; simp at h
    rw [if_neg h2] at h
    cases hd : marshalValue er.event.data with
    | none => simp [hd] at h
    | some d =>
      cases hm : marshalValue er.metadata with
      | none => simp [hd, hm] at h
      | some m =>
        simp only [hd, hm] at h
        by_cases hu : uuid = true
        · rw [if_pos hu] at h
          cases hx : toBatch uuid st t i (n + 1) ers with
          | ok rs' =>
            rw [hx] at h
            simp only [Outcome.ok.injEq] at h
            subst h
            obtain ⟨h3, h4, h5⟩ := ih hx
            refine ⟨?_, ?_, ?_⟩
            · simp [h3, List.range'_succ]
            · simp only [List.map_cons, h4, List.cons.injEq, and_true]
              simp [content, stored, compact, hd, hm]
            · intro r hr
              rcases List.mem_cons.mp hr with rfl | hr
              · rfl
              · exact h5 r hr
          | err e => rw [hx] at h; simp at h
          | panic => rw [hx] at h; simp at h
          | blocked => rw [hx] at h; simp at h
        · rw [if_neg hu] at h; simp at h

/-! ## What holds in every state -/

/-- The stream whose advisory lock the call holds. -/
def Proc.holds : Proc → Option Str
  | .locked st _ _ => some st
  | .inserting st _ _ _ _ => some st
  | _ => none

/-- The rows that the call has drawn numbers for. -/
def Proc.drawn : Proc → List Record
  | .inserting _ _ _ _ rows => rows
  | _ => []

/-- The rows that the call is about to insert. -/
def Proc.todo : Proc → List Record
  | .inserting _ _ _ todo _ => todo
  | _ => []

structure Base (s : State) : Prop where
  gsn : ∀ g r, s.table g = some r → r.gsn = g ∧ g < s.nextGsn
  lock : ∀ p st, (s.procs p).holds = some st → s.locks (fnv32a st) = some p
  inc : ∀ p, ((s.procs p).drawn.map (·.gsn)).Pairwise (· < ·)
  drawn : ∀ p, ∀ r ∈ (s.procs p).drawn, r.gsn < s.nextGsn ∧ s.table r.gsn = none
  apart : ∀ p q, p ≠ q → ∀ r ∈ (s.procs p).drawn, ∀ x ∈ (s.procs q).drawn, r.gsn ≠ x.gsn
  name : ∀ p st, (s.procs p).holds = some st →
    ∀ r ∈ (s.procs p).drawn ++ (s.procs p).todo, r.streamName = st

theorem base_init : Base init where
  gsn := by simp [init]
  lock := by simp [init, Proc.holds]
  inc := by simp [init, Proc.drawn]
  drawn := by simp [init, Proc.drawn]
  apart := by simp [init, Proc.drawn]
  name := by simp [init, Proc.holds]

/-- A change of one process that keeps its rows, or drops them. -/
theorem Base.setProc {s : State} (h : Base s) (p : Nat) (x : Proc) (hd : x.drawn = []) (ht : x.todo = [])
    (hx : ∀ st, x.holds = some st → (s.procs p).holds = some st) : Base (setProc s p x) where
  gsn := h.gsn
  lock := by
    intro q st hq
    by_cases hqp : q = p
    · subst hqp
      rw [setProc_same] at hq
      exact h.lock q st (hx st hq)
    · rw [setProc_other _ _ hqp] at hq
      exact h.lock q st hq
  inc := by
    intro q
    by_cases hqp : q = p
    · subst hqp; simp [hd]
    · rw [setProc_other _ _ hqp]; exact h.inc q
  drawn := by
    intro q
    by_cases hqp : q = p
    · subst hqp; simp [hd]
    · rw [setProc_other _ _ hqp]; exact h.drawn q
  apart := by
    intro q q' hne
    by_cases hqp : q = p
    · subst hqp; simp [hd]
    · by_cases hqp' : q' = p
      · subst hqp'; simp [hd]
      · rw [setProc_other _ _ hqp, setProc_other _ _ hqp']; exact h.apart q q' hne
  name := by
    intro q st hq
    by_cases hqp : q = p
    · subst hqp; simp [hd, ht]
    · rw [setProc_other _ _ hqp] at hq ⊢; exact h.name q st hq

/-- A process that leaves its transaction. -/
theorem Base.leave {s : State} (h : Base s) (p : Nat) (x : Proc) (hd : x.drawn = []) (ht : x.todo = [])
    (hx : x.holds = none) : Base (PG.setProc (endTx s p) p x) where
  gsn := h.gsn
  lock := by
    intro q st hq
    by_cases hqp : q = p
    · subst hqp
      rw [setProc_same, hx] at hq
      simp at hq
    · rw [setProc_other _ _ hqp] at hq
      have := h.lock q st hq
      show (if s.locks (fnv32a st) = some p then none else s.locks (fnv32a st)) = some q
      rw [this, if_neg (by simpa using hqp)]
  inc := by
    intro q
    by_cases hqp : q = p
    · subst hqp; simp [hd]
    · rw [setProc_other _ _ hqp]; exact h.inc q
  drawn := by
    intro q
    by_cases hqp : q = p
    · subst hqp; simp [hd]
    · rw [setProc_other _ _ hqp]; exact h.drawn q
  apart := by
    intro q q' hne
    by_cases hqp : q = p
    · subst hqp; simp [hd]
    · by_cases hqp' : q' = p
      · subst hqp'; simp [hd]
      · rw [setProc_other _ _ hqp, setProc_other _ _ hqp']; exact h.apart q q' hne
  name := by
    intro q st hq
    by_cases hqp : q = p
    · subst hqp; simp [hd, ht]
    · rw [setProc_other _ _ hqp] at hq ⊢; exact h.name q st hq

/-- Other fields do not matter. -/
theorem Base.congr {s s' : State} (h : Base s) (h1 : s'.table = s.table) (h2 : s'.nextGsn = s.nextGsn)
    (h3 : s'.locks = s.locks) (h4 : s'.procs = s.procs) : Base s' := by
  obtain ⟨a, b, c, d, e, f⟩ := h
  constructor
  · rw [h1, h2]; exact a
  · rw [h3, h4]; exact b
  · rw [h4]; exact c
  · rw [h1, h2, h4]; exact d
  · rw [h4]; exact e
  · rw [h4]; exact f

theorem Base.eff {cfg : Config} {p : Nat} {m : Move} {s s' : State} (h : Base s) (he : Eff cfg p m s s') : Base s' := by
  cases he with
  | stay => exact h
  | begin c hm hf hc =>
    exact (h.congr (s' := { s with conns := s.conns + 1 }) rfl rfl rfl rfl).setProc p _ rfl rfl (by simp [Proc.holds])
  | rollback c e _ => exact h.leave p _ rfl rfl rfl
  | lock st e ers hp hl _ =>
    constructor
    · exact h.gsn
    · intro q st' hq
      show (if fnv32a st' = fnv32a st then some p else s.locks (fnv32a st')) = some q
      by_cases hqp : q = p
      · subst hqp
        rw [setProc_same] at hq
        simp only [Proc.holds, Option.some.injEq] at hq
        rw [hq, if_pos rfl]
      · rw [setProc_other _ _ hqp] at hq
        have := h.lock q st' hq
        by_cases hk : fnv32a st' = fnv32a st
        · rw [hk, hl] at this; simp at this
        · rw [if_neg hk]; exact this
    · intro q
      by_cases hqp : q = p
      · subst hqp; simp [Proc.drawn]
      · rw [setProc_other _ _ hqp]; exact h.inc q
    · intro q
      by_cases hqp : q = p
      · subst hqp; simp [Proc.drawn]
      · rw [setProc_other _ _ hqp]; exact h.drawn q
    · intro q q' hne
      by_cases hqp : q = p
      · subst hqp; simp [Proc.drawn]
      · by_cases hqp' : q' = p
        · subst hqp'; simp [Proc.drawn]
        · rw [setProc_other _ _ hqp, setProc_other _ _ hqp']; exact h.apart q q' hne
    · intro q st' hq
      by_cases hqp : q = p
      · subst hqp; simp [Proc.drawn, Proc.todo]
      · rw [setProc_other _ _ hqp] at hq ⊢; exact h.name q st' hq
  | prepare st e ers rs hp hx hb =>
    constructor
    · exact h.gsn
    · intro q st' hq
      by_cases hqp : q = p
      · subst hqp
        rw [setProc_same] at hq
        simp only [Proc.holds, Option.some.injEq] at hq
        refine h.lock q st' ?_
        rw [hp, ← hq]; rfl
      · rw [setProc_other _ _ hqp] at hq
        exact h.lock q st' hq
    · intro q
      by_cases hqp : q = p
      · subst hqp; simp [Proc.drawn]
      · rw [setProc_other _ _ hqp]; exact h.inc q
    · intro q
      by_cases hqp : q = p
      · subst hqp; simp [Proc.drawn]
      · rw [setProc_other _ _ hqp]; exact h.drawn q
    · intro q q' hne
      by_cases hqp : q = p
      · subst hqp; simp [Proc.drawn]
      · by_cases hqp' : q' = p
        · subst hqp'; simp [Proc.drawn]
        · rw [setProc_other _ _ hqp, setProc_other _ _ hqp']; exact h.apart q q' hne
    · intro q st' hq
      by_cases hqp : q = p
      · subst hqp
        rw [setProc_same] at hq ⊢
        simp only [Proc.holds, Option.some.injEq] at hq
        subst hq
        simpa [Proc.drawn, Proc.todo] using (toBatch_ok hb).2.2
      · rw [setProc_other _ _ hqp] at hq ⊢; exact h.name q st' hq
  | panic st e ers hp hb => exact h.setProc p _ rfl rfl (by simp [Proc.holds])
  | alloc st e ers r todo rows hp =>
    have hfresh : s.table s.nextGsn = none := by
      cases ht : s.table s.nextGsn with
      | none => rfl
      | some x => have := (h.gsn _ _ ht).2; omega
    have hdp := h.drawn p
    rw [hp] at hdp
    simp only [Proc.drawn] at hdp
    constructor
    · intro g x hx
      have := h.gsn g x hx
      exact ⟨this.1, Nat.lt_succ_of_lt this.2⟩
    · intro q st' hq
      by_cases hqp : q = p
      · subst hqp
        rw [setProc_same] at hq
        simp only [Proc.holds, Option.some.injEq] at hq
        refine h.lock q st' ?_
        rw [hp, ← hq]; rfl
      · rw [setProc_other _ _ hqp] at hq
        exact h.lock q st' hq
    · intro q
      by_cases hqp : q = p
      · subst hqp
        rw [setProc_same]
        simp only [Proc.drawn, List.map_append, List.map_cons, List.map_nil]
        rw [List.pairwise_append]
        refine ⟨by have := h.inc q; rwa [hp] at this, List.pairwise_singleton _ _, ?_⟩
        intro a ha b hb
        rw [List.mem_map] at ha
        obtain ⟨x, hx, rfl⟩ := ha
        rw [List.mem_singleton.mp hb]
        exact (hdp x hx).1
      · rw [setProc_other _ _ hqp]; exact h.inc q
    · intro q x hx
      show x.gsn < s.nextGsn + 1 ∧ s.table x.gsn = none
      by_cases hqp : q = p
      · subst hqp
        rw [setProc_same] at hx
        simp only [Proc.drawn] at hx
        rcases List.mem_append.mp hx with hx | hx
        · exact ⟨Nat.lt_succ_of_lt (hdp x hx).1, (hdp x hx).2⟩
        · rw [List.mem_singleton.mp hx]
          exact ⟨Nat.lt_succ_self _, hfresh⟩
      · rw [setProc_other _ _ hqp] at hx
        have := h.drawn q x hx
        exact ⟨Nat.lt_succ_of_lt this.1, this.2⟩
    · have key : ∀ q, q ≠ p → ∀ x ∈ (s.procs q).drawn, ∀ y ∈ rows ++ [{ r with gsn := s.nextGsn }], x.gsn ≠ y.gsn := by
        intro q hq x hx y hy
        rcases List.mem_append.mp hy with hy | hy
        · refine h.apart q p hq x hx y ?_
          rw [hp]; exact hy
        · rw [List.mem_singleton.mp hy]
          have := (h.drawn q x hx).1
          show x.gsn ≠ s.nextGsn
          omega
      intro q q' hne x hx y hy
      by_cases hqp : q = p
      · subst hqp
        rw [setProc_same] at hx
        rw [setProc_other _ _ (Ne.symm hne)] at hy
        exact (key q' (Ne.symm hne) y hy x hx).symm
      · rw [setProc_other _ _ hqp] at hx
        by_cases hqp' : q' = p
        · subst hqp'
          rw [setProc_same] at hy
          exact key q hqp x hx y hy
        · rw [setProc_other _ _ hqp'] at hy
          exact h.apart q q' hne x hx y hy
    · intro q st' hq
      by_cases hqp : q = p
      · subst hqp
        rw [setProc_same] at hq ⊢
        simp only [Proc.holds, Option.some.injEq] at hq
        subst hq
        have hn := h.name q st (by rw [hp]; rfl)
        rw [hp] at hn
        simp only [Proc.drawn, Proc.todo] at hn ⊢
        intro x hx
        rw [List.append_assoc] at hx
        rcases List.mem_append.mp hx with hx | hx
        · exact hn x (by simp [hx])
        · rcases List.mem_append.mp hx with hx | hx
          · rw [List.mem_singleton.mp hx]
            exact hn r (by simp)
          · exact hn x (by simp [hx])
      · rw [setProc_other _ _ hqp] at hq ⊢; exact h.name q st' hq
  | commit st e ers rows x hp hx =>
    have hd : x.drawn = [] := by rcases hx with rfl | rfl <;> rfl
    have ht : x.todo = [] := by rcases hx with rfl | rfl <;> rfl
    have hh : x.holds = none := by rcases hx with rfl | rfl <;> rfl
    have hl := h.leave p x hd ht hh
    have hdp := h.drawn p
    rw [hp] at hdp
    simp only [Proc.drawn] at hdp
    constructor
    · intro g r hr
      rcases insertRows_some rows hr with hr | hr
      · exact ⟨hr.2, hr.2 ▸ (hdp r hr.1).1⟩
      · exact h.gsn g r hr
    · exact hl.lock
    · exact hl.inc
    · intro q r hr
      refine ⟨(hl.drawn q r hr).1, ?_⟩
      show insertRows s.table rows r.gsn = none
      rw [insertRows_other, (hl.drawn q r hr).2 |> fun (h : s.table r.gsn = none) => h]
      intro y hy
      by_cases hqp : q = p
      · subst hqp
        rw [setProc_same, hd] at hr
        simp at hr
      · rw [setProc_other _ _ hqp] at hr
        refine (h.apart q p hqp r hr y ?_).symm
        rw [hp]; exact hy
    · exact hl.apart
    · exact hl.name
  | done st e ers rows live o hp _ _ =>
    exact (h.congr (s' := { s with live := live }) rfl rfl rfl rfl).setProc p _ rfl rfl (by simp [Proc.holds])
  | refuse st n e hp => exact h.setProc p _ rfl rfl (by simp [Proc.holds])
  | count st n hp hn h0 => exact h.setProc p _ rfl rfl (by simp [Proc.holds])
  | execute st n hp => exact h.setProc p _ rfl rfl (by simp [Proc.holds])
  | remove st n gsns o hp _ =>
    have hl := h.leave p (.returned (.delete st n) o) rfl rfl rfl
    constructor
    · intro g r hr
      have : s.table g = some r := by
        simp only [PG.setProc, endTx] at hr
        cases ht : s.table g with
        | none => rw [ht] at hr; simp at hr
        | some y =>
          rw [ht] at hr
          simp only [Option.filter] at hr
          split at hr
          · exact hr
          · simp at hr
      exact h.gsn g r this
    · exact hl.lock
    · exact hl.inc
    · intro q r hr
      refine ⟨(hl.drawn q r hr).1, ?_⟩
      show (s.table r.gsn).filter _ = none
      rw [(hl.drawn q r hr).2 |> fun (h : s.table r.gsn = none) => h]
      rfl
    · exact hl.apart
    · exact hl.name

/-! ## One stream that is never deleted -/

/-- The call is not a delete of the stream. -/
def NotDeleting (st : Str) (x : Proc) : Prop :=
  (∀ n, x ≠ .begun (.delete st n)) ∧ (∀ n, x ≠ .delCounted st n) ∧ (∀ n gs, x ≠ .delExecuted st n gs)

/-- A call fits the committed rows of the stream. -/
structure Fits (st : Str) (rows : List Record) (x : Proc) : Prop where
  seqs : x.holds = some st →
    (x.drawn ++ x.todo).map (·.seq) = List.range' (rows.length + 1) (x.drawn ++ x.todo).length
  above : x.holds = some st → ∀ r ∈ x.drawn, ∀ y ∈ rows, y.gsn < r.gsn
  keeps : NotDeleting st x
  expects : ∀ e ers todo drawn, x = .inserting st (some e) ers todo drawn → rows.length = e

theorem Fits.free {st : Str} {rows : List Record} {x : Proc} (hh : x.holds ≠ some st) (hk : NotDeleting st x) :
    Fits st rows x where
  seqs h := absurd h hh
  above h := absurd h hh
  keeps := hk
  expects := by
    rintro e ers todo drawn rfl
    exact absurd rfl hh

structure OneStream (st : Str) (s : State) : Prop where
  base : Base s
  contig : (s.streamRows st).map (·.seq) = List.range' 1 (s.streamRows st).length
  fits : ∀ p, Fits st (s.streamRows st) (s.procs p)
  put : putInto st s.hist = s.streamRows st
  cas : ∀ a e rows b, s.hist = a ++ (st, some e, rows) :: b → (putInto st a).length = e

theorem oneStream_init (st : Str) : OneStream st init where
  base := base_init
  contig := rfl
  fits _ := Fits.free (by simp [init, Proc.holds]) (by simp [init, NotDeleting])
  put := rfl
  cas := by simp [init]

/-- A step of `p` that does not touch the rows of the stream. -/
theorem OneStream.frame {st : Str} {s s' : State} (p : Nat) (h : OneStream st s) (hb : Base s')
    (hr : s'.streamRows st = s.streamRows st) (hh : s'.hist = s.hist)
    (hq : ∀ q, q ≠ p → s'.procs q = s.procs q) (hp : Fits st (s.streamRows st) (s'.procs p)) : OneStream st s' where
  base := hb
  contig := by rw [hr]; exact h.contig
  fits q := by
    rw [hr]
    by_cases e : q = p
    · rw [e]; exact hp
    · rw [hq q e]; exact h.fits q
  put := by rw [hh, hr]; exact h.put
  cas := by rw [hh]; exact h.cas

theorem putInto_append (st : Str) (a b : List (Str × Option Nat × List Record)) :
    putInto st (a ++ b) = putInto st a ++ putInto st b := by
  simp [putInto]

theorem append_one {α : Type} {l a b : List α} {x y : α} (h : l ++ [y] = a ++ x :: b) :
    (b = [] ∧ x = y ∧ a = l) ∨ ∃ b', b = b' ++ [y] ∧ l = a ++ x :: b' := by
  rcases List.eq_nil_or_concat b with rfl | ⟨b', z, rfl⟩
  · have := List.append_inj' h rfl
    simp only [List.cons.injEq, and_true] at this
    exact Or.inl ⟨rfl, this.2.symm, this.1.symm⟩
  · right
    rw [List.concat_eq_append, ← List.cons_append, ← List.append_assoc] at h
    have := List.append_inj' h rfl
    simp only [List.cons.injEq, and_true] at this
    exact ⟨b', by simp [this.2], this.1⟩

theorem OneStream.eff {cfg : Config} {p : Nat} {m : Move} {st : Str} {s s' : State} (h : OneStream st s)
    (hm : ∀ n, m ≠ .call (.delete st n)) (he : Eff cfg p m s s') : OneStream st s' := by
  have hb := h.base.eff he
  cases he with
  | stay => exact h
  | begin c hmc hf hc =>
    refine h.frame p hb rfl rfl (fun q hq => setProc_other _ _ hq) ?_
    rw [setProc_same]
    refine Fits.free (by simp [Proc.holds]) ⟨?_, by simp, by simp⟩
    intro n hn
    simp only [Proc.begun.injEq] at hn
    exact hm n (by rw [hmc, hn])
  | rollback c e _ =>
    refine h.frame p hb rfl rfl (fun q hq => setProc_other _ _ hq) ?_
    rw [PG.rollback, setProc_same]
    exact Fits.free (by simp [Proc.holds]) (by simp [NotDeleting])
  | lock st' e ers hp hl _ =>
    refine h.frame p hb rfl rfl (fun q hq => setProc_other _ _ hq) ?_
    rw [setProc_same]
    exact ⟨by simp [Proc.drawn, Proc.todo], by simp [Proc.drawn], by simp [NotDeleting], by simp⟩
  | prepare st' e ers rs hp hx hbt =>
    refine h.frame p hb rfl rfl (fun q hq => setProc_other _ _ hq) ?_
    rw [setProc_same]
    refine ⟨?_, by simp [Proc.drawn], by simp [NotDeleting], ?_⟩
    · intro hst
      simp only [Proc.holds, Option.some.injEq] at hst
      subst hst
      have h1 := (toBatch_ok hbt).1
      rw [lastSeq_contig h.contig] at h1
      simp only [Proc.drawn, Proc.todo, List.nil_append]
      have h2 : rs.length = ers.length := by
        have := congrArg List.length h1
        simpa using this
      rw [h1, h2]
    · intro e' ers' todo drawn hi
      simp only [Proc.inserting.injEq] at hi
      obtain ⟨rfl, rfl, _⟩ := hi
      have := hx e' rfl
      rwa [lastSeq_contig h.contig] at this
  | panic st' e ers hp hbt =>
    refine h.frame p hb rfl rfl (fun q hq => setProc_other _ _ hq) ?_
    rw [setProc_same]
    exact Fits.free (by simp [Proc.holds]) (by simp [NotDeleting])
  | alloc st' e ers r todo rows hp =>
    have hfresh : s.table s.nextGsn = none := by
      cases ht : s.table s.nextGsn with
      | none => rfl
      | some x => have := (h.base.gsn _ _ ht).2; omega
    have hfp := h.fits p
    rw [hp] at hfp
    refine h.frame p hb ?_ rfl (fun q hq => setProc_other _ _ hq) ?_
    · exact listing_grow st hfresh
    rw [setProc_same]
    refine ⟨?_, ?_, by simp [NotDeleting], ?_⟩
    · intro hst
      have := hfp.seqs hst
      simpa [Proc.drawn, Proc.todo] using this
    · intro hst x hx y hy
      simp only [Proc.drawn] at hx
      rcases List.mem_append.mp hx with hx | hx
      · exact hfp.above hst x hx y hy
      · rw [List.mem_singleton.mp hx]
        obtain ⟨_, g, hg, hgy⟩ := mem_listing.mp hy
        have := (h.base.gsn g y hgy).1
        show y.gsn < s.nextGsn
        omega
    · intro e' ers' todo' drawn hi
      simp only [Proc.inserting.injEq] at hi
      obtain ⟨rfl, rfl, _⟩ := hi
      exact hfp.expects e' ers _ _ rfl
  | commit st' e ers rows x hp hx =>
    have hh : x.holds = none := by rcases hx with rfl | rfl <;> rfl
    have hk : NotDeleting st x := by rcases hx with rfl | rfl <;> simp [NotDeleting]
    have hdr := h.base.drawn p
    have hin := h.base.inc p
    have hnm := h.base.name p st' (by rw [hp]; rfl)
    have hlk := h.base.lock p st' (by rw [hp]; rfl)
    have hfp := h.fits p
    rw [hp] at hdr hin hnm hfp
    simp only [Proc.drawn, Proc.todo, List.append_nil] at hdr hin hnm
    by_cases hst : st' = st
    · subst hst
      have hrows : (PG.setProc (endTx { s with
          table := insertRows s.table rows, hist := s.hist ++ [(st', e, rows)],
          notified := s.notified ++ (if cfg.notify then rows else []) } p) p x).streamRows st'
          = s.streamRows st' ++ rows := by
        refine listing_insert rows (fun g y hy => (h.base.gsn g y hy).1) hnm (fun r hr => (hdr r hr).1)
          (fun r hr => (hdr r hr).2) hin ?_
        exact hfp.above rfl
      have hsq := hfp.seqs rfl
      simp only [Proc.drawn, Proc.todo, List.append_nil] at hsq
      constructor
      · exact hb
      · rw [hrows, List.map_append, h.contig, hsq, List.length_append,
          Nat.add_comm (s.streamRows st').length 1, List.range'_append_1]
      · intro q
        rw [hrows]
        by_cases hqp : q = p
        · subst hqp
          rw [setProc_same]
          exact Fits.free (by simp [hh]) hk
        · rw [setProc_other _ _ hqp]
          refine Fits.free ?_ (h.fits q).keeps
          intro hq
          have := h.base.lock q st' hq
          rw [hlk] at this
          simp only [Option.some.injEq] at this
          exact hqp this.symm
      · rw [hrows]
        show putInto st' (s.hist ++ [(st', e, rows)]) = _
        rw [putInto_append, h.put]
        simp [putInto]
      · intro a e' rows' b heq
        rcases append_one heq with ⟨_, h2, h3⟩ | ⟨b', _, h2⟩
        · simp only [Prod.mk.injEq, true_and] at h2
          obtain ⟨rfl, rfl⟩ := h2
          rw [h3, h.put]
          exact hfp.expects e' ers _ _ rfl
        · exact h.cas a e' rows' b' h2
    · have hrows : (PG.setProc (endTx { s with
          table := insertRows s.table rows, hist := s.hist ++ [(st', e, rows)],
          notified := s.notified ++ (if cfg.notify then rows else []) } p) p x).streamRows st
          = s.streamRows st := by
        refine listing_insert_other rows (fun r hr => ?_) (fun r hr => (hdr r hr).2) hin
        rw [hnm r hr]; exact hst
      constructor
      · exact hb
      · rw [hrows]; exact h.contig
      · intro q
        rw [hrows]
        by_cases hqp : q = p
        · subst hqp
          rw [setProc_same]
          exact Fits.free (by simp [hh]) hk
        · rw [setProc_other _ _ hqp]
          exact h.fits q
      · rw [hrows]
        show putInto st (s.hist ++ [(st', e, rows)]) = _
        rw [putInto_append, h.put]
        simp [putInto, hst]
      · intro a e' rows' b heq
        rcases append_one heq with ⟨_, h2, _⟩ | ⟨b', _, h2⟩
        · simp only [Prod.mk.injEq] at h2
          exact absurd h2.1.symm hst
        · exact h.cas a e' rows' b' h2
  | done st' e ers rows live o hp _ _ =>
    refine h.frame p hb rfl rfl (fun q hq => setProc_other _ _ hq) ?_
    rw [setProc_same]
    exact Fits.free (by simp [Proc.holds]) (by simp [NotDeleting])
  | refuse st' n e hp =>
    refine h.frame p hb rfl rfl (fun q hq => setProc_other _ _ hq) ?_
    rw [setProc_same]
    exact Fits.free (by simp [Proc.holds]) (by simp [NotDeleting])
  | count st' n hp hn h0 =>
    refine h.frame p hb rfl rfl (fun q hq => setProc_other _ _ hq) ?_
    rw [setProc_same]
    refine Fits.free (by simp [Proc.holds]) ⟨by simp, ?_, by simp⟩
    intro k hk
    simp only [Proc.delCounted.injEq] at hk
    exact (h.fits p).keeps.1 n (by rw [hp, hk.1])
  | execute st' n hp =>
    refine h.frame p hb rfl rfl (fun q hq => setProc_other _ _ hq) ?_
    rw [setProc_same]
    refine Fits.free (by simp [Proc.holds]) ⟨by simp, by simp, ?_⟩
    intro k gs hk
    simp only [Proc.delExecuted.injEq] at hk
    exact (h.fits p).keeps.2.1 n (by rw [hp, hk.1])
  | remove st' n gsns o hp _ =>
    refine h.frame p hb ?_ rfl (fun q hq => setProc_other _ _ hq) ?_
    · refine listing_delete ?_ gsns
      rintro rfl
      exact (h.fits p).keeps.2.2 n gsns hp
    rw [setProc_same]
    exact Fits.free (by simp [Proc.holds]) (by simp [NotDeleting])

/-! ## Runs -/

theorem runFrom_cons (cfg : Config) (s : State) (m : Nat × Move) (ms : Schedule) :
    runFrom cfg s (m :: ms) = runFrom cfg (step cfg s m.1 m.2) ms := rfl

theorem runFrom_append (cfg : Config) (s : State) (a b : Schedule) :
    runFrom cfg s (a ++ b) = runFrom cfg (runFrom cfg s a) b := by
  simp [runFrom, List.foldl_append]

/-- Induction over the steps of a run. -/
theorem run_induct {cfg : Config} {P : State → Prop} (hstep : ∀ s p m s', P s → Eff cfg p m s s' → P s')
    (ms : Schedule) : ∀ s, P s → P (runFrom cfg s ms) := by
  induction ms with
  | nil => exact fun s h => h
  | cons m ms ih =>
    intro s h
    rw [runFrom_cons]
    exact ih _ (hstep s m.1 m.2 _ h (step_eff cfg s m.1 m.2))

theorem base_runFrom (cfg : Config) (ms : Schedule) (s : State) (h : Base s) : Base (runFrom cfg s ms) :=
  run_induct (fun _ _ _ _ hs he => Base.eff hs he) ms s h

theorem base_run (cfg : Config) (ms : Schedule) : Base (run cfg ms) := base_runFrom cfg ms init base_init

theorem oneStream_runFrom (cfg : Config) (st : Str) (ms : Schedule) :
    ∀ s, OneStream st s → NoDelete st ms → OneStream st (runFrom cfg s ms) := by
  induction ms with
  | nil => exact fun s h _ => h
  | cons m ms ih =>
    intro s h hn
    rw [runFrom_cons]
    exact ih _ (h.eff (hn m (by simp)) (step_eff cfg s m.1 m.2)) (fun x hx => hn x (by simp [hx]))

theorem oneStream_run (cfg : Config) (st : Str) (ms : Schedule) (h : NoDelete st ms) : OneStream st (run cfg ms) :=
  oneStream_runFrom cfg st ms init (oneStream_init st) h

/-! ## Acknowledged saves -/

structure Acks (s : State) : Prop where
  locked : ∀ p st e ers, s.procs p = .locked st e ers → ers ≠ []
  inserting : ∀ p st e ers todo rows, s.procs p = .inserting st e ers todo rows →
    (rows ++ todo).map content = ers.map (stored st) ∧ ers ≠ []
  committed : ∀ p st e ers rows, s.procs p = .committed st e ers rows →
    (st, e, rows) ∈ s.hist ∧ rows.map content = ers.map (stored st) ∧ ers ≠ []
  returned : ∀ p st e ers n, s.procs p = .returned (.save st e ers) (.ok n) →
    ∃ rows, (st, e, rows) ∈ s.hist ∧ rows.map content = ers.map (stored st) ∧ ers ≠ [] ∧ lastOf rows = n

theorem acks_init : Acks init := by
  constructor <;> simp [init]

/-- A step that only adds to the history, and moves `p` to a state of no interest. -/
theorem Acks.frame {s s' : State} (p : Nat) (h : Acks s) (hh : ∀ c ∈ s.hist, c ∈ s'.hist)
    (hq : ∀ q, q ≠ p → s'.procs q = s.procs q)
    (h1 : ∀ st e ers, s'.procs p = .locked st e ers → ers ≠ [])
    (h2 : ∀ st e ers todo rows, s'.procs p = .inserting st e ers todo rows →
      (rows ++ todo).map content = ers.map (stored st) ∧ ers ≠ [])
    (h3 : ∀ st e ers rows, s'.procs p = .committed st e ers rows →
      (st, e, rows) ∈ s'.hist ∧ rows.map content = ers.map (stored st) ∧ ers ≠ [])
    (h4 : ∀ st e ers n, s'.procs p = .returned (.save st e ers) (.ok n) →
      ∃ rows, (st, e, rows) ∈ s'.hist ∧ rows.map content = ers.map (stored st) ∧ ers ≠ [] ∧ lastOf rows = n) :
    Acks s' := by
  constructor
  · intro q
    by_cases e : q = p
    · rw [e]; exact h1
    · rw [hq q e]; exact h.locked q
  · intro q
    by_cases e : q = p
    · rw [e]; exact h2
    · rw [hq q e]; exact h.inserting q
  · intro q
    by_cases e : q = p
    · rw [e]; exact h3
    · rw [hq q e]
      intro st e' ers rows hx
      have := h.committed q st e' ers rows hx
      exact ⟨hh _ this.1, this.2⟩
  · intro q
    by_cases e : q = p
    · rw [e]; exact h4
    · rw [hq q e]
      intro st e' ers n hx
      obtain ⟨rows, a, b⟩ := h.returned q st e' ers n hx
      exact ⟨rows, hh _ a, b⟩

theorem Acks.eff {cfg : Config} {p : Nat} {m : Move} {s s' : State} (h : Acks s) (he : Eff cfg p m s s') :
    Acks s' := by
  cases he with
  | stay => exact h
  | begin c hm hf hc =>
    refine h.frame p (fun _ hc => hc) (fun q hq => setProc_other _ _ hq) ?_ ?_ ?_ ?_ <;> simp [setProc_same]
  | rollback c e _ =>
    refine h.frame p (fun _ hc => hc) (fun q hq => setProc_other _ _ hq) ?_ ?_ ?_ ?_ <;> simp [PG.rollback]
  | lock st e ers hp hl hne =>
    refine h.frame p (fun _ hc => hc) (fun q hq => setProc_other _ _ hq) ?_ ?_ ?_ ?_ <;> simp only [setProc_same]
    · rintro st' e' ers' hx
      simp only [Proc.locked.injEq] at hx
      rw [← hx.2.2]; exact hne
    all_goals simp
  | prepare st e ers rs hp hx hb =>
    refine h.frame p (fun _ hc => hc) (fun q hq => setProc_other _ _ hq) ?_ ?_ ?_ ?_ <;> simp only [setProc_same]
    · simp
    · rintro st' e' ers' todo rows hi
      simp only [Proc.inserting.injEq] at hi
      obtain ⟨rfl, rfl, rfl, rfl, rfl⟩ := hi
      exact ⟨by simpa using (toBatch_ok hb).2.1, h.locked p _ _ _ hp⟩
    all_goals simp
  | panic st e ers hp hb =>
    refine h.frame p (fun _ hc => hc) (fun q hq => setProc_other _ _ hq) ?_ ?_ ?_ ?_ <;> simp [setProc_same]
  | alloc st e ers r todo rows hp =>
    refine h.frame p (fun _ hc => hc) (fun q hq => setProc_other _ _ hq) ?_ ?_ ?_ ?_ <;> simp only [setProc_same]
    · simp
    · rintro st' e' ers' todo' rows' hi
      simp only [Proc.inserting.injEq] at hi
      obtain ⟨rfl, rfl, rfl, rfl, rfl⟩ := hi
      have := h.inserting p _ _ _ _ _ hp
      refine ⟨?_, this.2⟩
      rw [← this.1]
      simp [content]
    all_goals simp
  | commit st e ers rows x hp hx =>
    have hi := h.inserting p _ _ _ _ _ hp
    rw [List.append_nil] at hi
    refine h.frame p (fun c hc => List.mem_append_left _ hc) (fun q hq => setProc_other _ _ hq) ?_ ?_ ?_ ?_ <;>
      simp only [setProc_same] <;> rcases hx with rfl | rfl
    all_goals try simp
    rintro _ _ _ _ rfl rfl rfl rfl
    refine ⟨?_, hi.1, hi.2⟩
    exact List.mem_append_right s.hist (List.mem_singleton.mpr rfl)
  | done st e ers rows live o hp ho _ =>
    have hi := h.committed p _ _ _ _ hp
    refine h.frame p (fun _ hc => hc) (fun q hq => setProc_other _ _ hq) ?_ ?_ ?_ ?_ <;> simp only [setProc_same]
    · simp
    · simp
    · simp
    · rintro st' e' ers' n hr
      simp only [Proc.returned.injEq, Call.save.injEq] at hr
      obtain ⟨⟨rfl, rfl, rfl⟩, h2⟩ := hr
      rcases ho with rfl | rfl
      · simp only [Outcome.ok.injEq] at h2
        exact ⟨rows, hi.1, hi.2.1, hi.2.2, h2⟩
      · simp at h2
  | refuse st n e hp =>
    refine h.frame p (fun _ hc => hc) (fun q hq => setProc_other _ _ hq) ?_ ?_ ?_ ?_ <;> simp [setProc_same]
  | count st n hp hn h0 =>
    refine h.frame p (fun _ hc => hc) (fun q hq => setProc_other _ _ hq) ?_ ?_ ?_ ?_ <;> simp [setProc_same]
  | execute st n hp =>
    refine h.frame p (fun _ hc => hc) (fun q hq => setProc_other _ _ hq) ?_ ?_ ?_ ?_ <;> simp [setProc_same]
  | remove st n gsns o hp ho =>
    refine h.frame p (fun _ hc => hc) (fun q hq => setProc_other _ _ hq) ?_ ?_ ?_ ?_ <;> simp [setProc_same]

theorem acks_run (cfg : Config) (ms : Schedule) : Acks (run cfg ms) :=
  run_induct (fun _ _ _ _ hs he => Acks.eff hs he) ms init acks_init

/-- Every committed save has put something into its stream. -/
theorem hist_nonempty (cfg : Config) (ms : Schedule) : ∀ c ∈ (run cfg ms).hist, c.2.2 ≠ [] := by
  have : Acks (run cfg ms) ∧ ∀ c ∈ (run cfg ms).hist, c.2.2 ≠ [] := by
    refine run_induct (cfg := cfg) (P := fun s => Acks s ∧ ∀ c ∈ s.hist, c.2.2 ≠ []) ?_ ms init ⟨acks_init, by simp [init]⟩
    rintro s p m s' ⟨ha, hh⟩ he
    refine ⟨ha.eff he, ?_⟩
    cases he with
    | commit st e ers rows x hp hx =>
      intro c hc
      have hc : c ∈ s.hist ++ [(st, e, rows)] := hc
      rcases List.mem_append.mp hc with hc | hc
      · exact hh c hc
      · rw [List.mem_singleton.mp hc]
        have := ha.inserting p _ _ _ _ _ hp
        rw [List.append_nil] at this
        show rows ≠ []
        rintro rfl
        have h1 := this.1.symm
        rw [List.map_nil, List.map_eq_nil_iff] at h1
        exact this.2 h1
    | _ => exact hh
  exact this.2

theorem hist_runFrom (cfg : Config) (s : State) (ms : Schedule) : s.hist <+: (runFrom cfg s ms).hist := by
  refine run_induct (cfg := cfg) (P := fun x => s.hist <+: x.hist) ?_ ms s (List.prefix_refl _)
  intro a p m b h he
  cases he with
  | commit st e ers rows x hp hx => exact h.trans (List.prefix_append _ _)
  | _ => exact h

theorem putInto_prefix {st : Str} {a b : List (Str × Option Nat × List Record)} (h : a <+: b) :
    putInto st a <+: putInto st b := by
  obtain ⟨c, rfl⟩ := h
  rw [putInto_append]
  exact List.prefix_append _ _

/-! ## At most one winner -/

/-- The call is an acknowledged `OptimisticSave`, or is about to be. -/
def Proc.won : Proc → Option (Str × Nat)
  | .committed st (some e) _ _ => some (st, e)
  | .returned (.save st (some e) _) (.ok _) => some (st, e)
  | _ => none

theorem won_hist {s : State} (h : Acks s) {p : Nat} {st : Str} {e : Nat} (hw : (s.procs p).won = some (st, e)) :
    ∃ rows, (st, some e, rows) ∈ s.hist := by
  cases hp : s.procs p with
  | committed st' e' ers rows =>
    rw [hp] at hw
    cases e' with
    | none => simp [Proc.won] at hw
    | some e' =>
      simp only [Proc.won, Option.some.injEq, Prod.mk.injEq] at hw
      obtain ⟨rfl, rfl⟩ := hw
      exact ⟨rows, (h.committed p _ _ _ _ hp).1⟩
  | returned c o =>
    rw [hp] at hw
    cases c with
    | delete st' n => simp [Proc.won] at hw
    | save st' e' ers =>
      cases e' with
      | none => simp [Proc.won] at hw
      | some e' =>
        cases o with
        | ok n =>
          simp only [Proc.won, Option.some.injEq, Prod.mk.injEq] at hw
          obtain ⟨rfl, rfl⟩ := hw
          obtain ⟨rows, hr, _⟩ := h.returned p _ _ _ _ hp
          exact ⟨rows, hr⟩
        | _ => simp [Proc.won] at hw
  | _ => rw [hp] at hw; simp [Proc.won] at hw

structure Winners (st : Str) (s : State) : Prop where
  acks : Acks s
  one : OneStream st s
  full : ∀ c ∈ s.hist, c.2.2 ≠ []
  single : ∀ p q e, p ≠ q → (s.procs p).won = some (st, e) → (s.procs q).won = some (st, e) → False

theorem winners_init (st : Str) : Winners st init :=
  ⟨acks_init, oneStream_init st, by simp [init], by simp [init, Proc.won]⟩

/-- A committed save that expected `e` left more than `e` events. -/
theorem Winners.below {st : Str} {s : State} (h : Winners st s) {e : Nat} {rows : List Record}
    (hm : (st, some e, rows) ∈ s.hist) : e < (s.streamRows st).length := by
  obtain ⟨a, b, hab⟩ := List.append_of_mem hm
  have h1 := h.one.cas a e rows b hab
  have h2 := h.full _ hm
  rw [← h.one.put, hab, putInto_append, List.length_append, h1]
  have : putInto st ((st, some e, rows) :: b) = rows ++ putInto st b := by simp [putInto]
  rw [this, List.length_append]
  have : 0 < rows.length := List.length_pos_iff.mpr h2
  omega

theorem Winners.eff {cfg : Config} {p : Nat} {m : Move} {st : Str} {s s' : State} (h : Winners st s)
    (hm : ∀ n, m ≠ .call (.delete st n)) (he : Eff cfg p m s s') : Winners st s' := by
  have hacks := h.acks.eff he
  have hone := h.one.eff hm he
  -- steps after which `p` has won only if it had
  have frame : ∀ s', Acks s' → OneStream st s' → s'.hist = s.hist → (∀ q, q ≠ p → s'.procs q = s.procs q) →
      (∀ x, (s'.procs p).won = some x → (s.procs p).won = some x) → Winners st s' := by
    intro s' h1 h2 h3 h4 h5
    refine ⟨h1, h2, by rw [h3]; exact h.full, ?_⟩
    have h6 : ∀ q x, (s'.procs q).won = some x → (s.procs q).won = some x := by
      intro q x hx
      by_cases hq : q = p
      · rw [hq] at hx ⊢; exact h5 x hx
      · rw [h4 q hq] at hx; exact hx
    exact fun q q' e hne ha hb => h.single q q' e hne (h6 _ _ ha) (h6 _ _ hb)
  cases he with
  | stay => exact h
  | begin c hmc hf hc =>
    exact frame _ hacks hone rfl (fun q hq => setProc_other _ _ hq) (by simp [setProc_same, Proc.won])
  | rollback c e _ =>
    refine frame _ hacks hone rfl (fun q hq => setProc_other _ _ hq) ?_
    rw [PG.rollback, setProc_same]
    intro x hx
    cases c with
    | delete => simp [Proc.won] at hx
    | save st' e' ers => cases e' <;> simp [Proc.won] at hx
  | lock st' e ers hp hl hne =>
    exact frame _ hacks hone rfl (fun q hq => setProc_other _ _ hq) (by simp [setProc_same, Proc.won])
  | prepare st' e ers rs hp hx hb =>
    exact frame _ hacks hone rfl (fun q hq => setProc_other _ _ hq) (by simp [setProc_same, Proc.won])
  | panic st' e ers hp hb =>
    refine frame _ hacks hone rfl (fun q hq => setProc_other _ _ hq) ?_
    rw [setProc_same]
    cases e <;> simp [Proc.won]
  | alloc st' e ers r todo rows hp =>
    exact frame _ hacks hone rfl (fun q hq => setProc_other _ _ hq) (by simp [setProc_same, Proc.won])
  | commit st' e ers rows x hp hx =>
    have hfp := h.one.fits p
    rw [hp] at hfp
    have hne : rows ≠ [] := by
      have := h.acks.inserting p _ _ _ _ _ hp
      rw [List.append_nil] at this
      rintro rfl
      have h1 := this.1.symm
      rw [List.map_nil, List.map_eq_nil_iff] at h1
      exact this.2 h1
    have hw : ∀ k, x.won = some (st, k) → (s.streamRows st).length = k := by
      intro k hk
      rcases hx with rfl | rfl
      · cases e with
        | none => simp [Proc.won] at hk
        | some e' =>
          simp only [Proc.won, Option.some.injEq, Prod.mk.injEq] at hk
          obtain ⟨rfl, rfl⟩ := hk
          exact hfp.expects _ _ _ _ rfl
      · cases e <;> simp [Proc.won] at hk
    refine ⟨hacks, hone, ?_, ?_⟩
    · intro c hc
      have hc : c ∈ s.hist ++ [(st', e, rows)] := hc
      rcases List.mem_append.mp hc with hc | hc
      · exact h.full c hc
      · rw [List.mem_singleton.mp hc]; exact hne
    · have key : ∀ q k, q ≠ p → (s.procs q).won = some (st, k) → x.won = some (st, k) → False := by
        intro q k _ h1 h2
        obtain ⟨rows', hr⟩ := won_hist h.acks h1
        have := h.below hr
        have := hw k h2
        omega
      intro q q' k hqq h1 h2
      by_cases hq : q = p
      · subst hq
        rw [setProc_same] at h1
        rw [setProc_other _ _ (Ne.symm hqq)] at h2
        exact key q' k (Ne.symm hqq) h2 h1
      · rw [setProc_other _ _ hq] at h1
        by_cases hq' : q' = p
        · subst hq'
          rw [setProc_same] at h2
          exact key q k hq h1 h2
        · rw [setProc_other _ _ hq'] at h2
          exact h.single q q' k hqq h1 h2
  | done st' e ers rows live o hp ho _ =>
    refine frame _ hacks hone rfl (fun q hq => setProc_other _ _ hq) ?_
    rw [setProc_same, hp]
    intro y hy
    cases e with
    | none => simp [Proc.won] at hy
    | some e' =>
      rcases ho with rfl | rfl
      · exact hy
      · simp [Proc.won] at hy
  | refuse st' n e hp =>
    exact frame _ hacks hone rfl (fun q hq => setProc_other _ _ hq) (by simp [setProc_same, Proc.won])
  | count st' n hp hn h0 =>
    exact frame _ hacks hone rfl (fun q hq => setProc_other _ _ hq) (by simp [setProc_same, Proc.won])
  | execute st' n hp =>
    exact frame _ hacks hone rfl (fun q hq => setProc_other _ _ hq) (by simp [setProc_same, Proc.won])
  | remove st' n gsns o hp ho =>
    exact frame _ hacks hone rfl (fun q hq => setProc_other _ _ hq) (by simp [setProc_same, Proc.won])

theorem winners_run (cfg : Config) (st : Str) (ms : Schedule) (h : NoDelete st ms) : Winners st (run cfg ms) := by
  have : ∀ s, Winners st s → NoDelete st ms → Winners st (runFrom cfg s ms) := by
    clear h
    induction ms with
    | nil => exact fun s h _ => h
    | cons m ms ih =>
      intro s h hn
      rw [runFrom_cons]
      exact ih _ (h.eff (hn m (by simp)) (step_eff cfg s m.1 m.2)) (fun x hx => hn x (by simp [hx]))
  exact this init (winners_init st) h

/-! ## Numbers that appear late -/

/-- Some call has drawn the number and not committed yet. -/
def Pending (s : State) (g : Nat) : Prop := ∃ p, ∃ r ∈ (s.procs p).drawn, r.gsn = g

structure Since (s0 s : State) : Prop where
  next : s0.nextGsn ≤ s.nextGsn
  table : ∀ g r, s.table g = some r → s0.table g = some r ∨ s0.nextGsn ≤ g ∨ Pending s0 g
  drawn : ∀ p, ∀ r ∈ (s.procs p).drawn, s0.nextGsn ≤ r.gsn ∨ Pending s0 r.gsn

theorem Since.refl (s : State) : Since s s :=
  ⟨Nat.le_refl _, fun _ _ h => Or.inl h, fun p r hr => Or.inr ⟨p, r, hr, rfl⟩⟩

theorem Since.frame {s0 s s' : State} (p : Nat) (h : Since s0 s) (h1 : s'.nextGsn = s.nextGsn) (h2 : s'.table = s.table)
    (h3 : ∀ q, q ≠ p → s'.procs q = s.procs q) (h4 : (s'.procs p).drawn = []) : Since s0 s' := by
  refine ⟨by rw [h1]; exact h.next, by rw [h2]; exact h.table, ?_⟩
  intro q r hr
  by_cases hq : q = p
  · rw [hq, h4] at hr; simp at hr
  · rw [h3 q hq] at hr; exact h.drawn q r hr

theorem Since.eff {cfg : Config} {p : Nat} {m : Move} {s0 s s' : State} (h : Since s0 s) (he : Eff cfg p m s s') :
    Since s0 s' := by
  cases he with
  | stay => exact h
  | begin c hmc hf hc => exact h.frame p rfl rfl (fun q hq => setProc_other _ _ hq) (by simp [Proc.drawn])
  | rollback c e _ => exact h.frame p rfl rfl (fun q hq => setProc_other _ _ hq) (by simp [PG.rollback, Proc.drawn])
  | lock st' e ers hp hl hne => exact h.frame p rfl rfl (fun q hq => setProc_other _ _ hq) (by simp [Proc.drawn])
  | prepare st' e ers rs hp hx hb => exact h.frame p rfl rfl (fun q hq => setProc_other _ _ hq) (by simp [Proc.drawn])
  | panic st' e ers hp hb => exact h.frame p rfl rfl (fun q hq => setProc_other _ _ hq) (by simp [Proc.drawn])
  | alloc st' e ers r todo rows hp =>
    refine ⟨Nat.le_succ_of_le h.next, h.table, ?_⟩
    intro q x hx
    by_cases hq : q = p
    · subst hq
      rw [setProc_same] at hx
      simp only [Proc.drawn] at hx
      rcases List.mem_append.mp hx with hx | hx
      · exact h.drawn q x (by rw [hp]; exact hx)
      · rw [List.mem_singleton.mp hx]; exact Or.inl h.next
    · rw [setProc_other _ _ hq] at hx; exact h.drawn q x hx
  | commit st' e ers rows x hp hx =>
    refine ⟨h.next, ?_, ?_⟩
    · intro g r hr
      rcases insertRows_some rows hr with hr | hr
      · have := h.drawn p r (by rw [hp]; exact hr.1)
        rw [hr.2] at this
        exact Or.inr this
      · exact h.table g r hr
    · intro q r hr
      by_cases hq : q = p
      · subst hq
        rw [setProc_same] at hr
        rcases hx with rfl | rfl <;> simp [Proc.drawn] at hr
      · rw [setProc_other _ _ hq] at hr; exact h.drawn q r hr
  | done st' e ers rows live o hp ho _ => exact h.frame p rfl rfl (fun q hq => setProc_other _ _ hq) (by simp [Proc.drawn])
  | refuse st' n e hp => exact h.frame p rfl rfl (fun q hq => setProc_other _ _ hq) (by simp [Proc.drawn])
  | count st' n hp hn h0 => exact h.frame p rfl rfl (fun q hq => setProc_other _ _ hq) (by simp [Proc.drawn])
  | execute st' n hp => exact h.frame p rfl rfl (fun q hq => setProc_other _ _ hq) (by simp [Proc.drawn])
  | remove st' n gsns o hp ho =>
    refine ⟨h.next, ?_, ?_⟩
    · intro g r hr
      have : s.table g = some r := by
        simp only [PG.setProc, endTx] at hr
        cases ht : s.table g with
        | none => rw [ht] at hr; simp at hr
        | some y =>
          rw [ht] at hr
          simp only [Option.filter] at hr
          split at hr
          · exact hr
          · simp at hr
      exact h.table g r this
    · intro q r hr
      by_cases hq : q = p
      · subst hq
        rw [setProc_same] at hr
        simp [Proc.drawn] at hr
      · rw [setProc_other _ _ hq] at hr; exact h.drawn q r hr

theorem since_runFrom (cfg : Config) (s : State) (ms : Schedule) : Since s (runFrom cfg s ms) :=
  run_induct (fun _ _ _ _ hs he => Since.eff hs he) ms s (Since.refl s)

theorem mem_rows {s : State} (h : Base s) {r : Record} : r ∈ s.rows ↔ s.table r.gsn = some r := by
  unfold State.rows
  rw [List.mem_filterMap]
  constructor
  · rintro ⟨g, _, hg⟩
    rw [(h.gsn g r hg).1]; exact hg
  · intro hr
    exact ⟨r.gsn, List.mem_range.mpr (h.gsn _ _ hr).2, hr⟩

theorem rows_increasing {s : State} (h : Base s) : (s.rows.map (·.gsn)).Pairwise (· < ·) := by
  have : ∀ n, (((List.range n).filterMap s.table).map (·.gsn)).Pairwise (· < ·) ∧
      ∀ r ∈ (List.range n).filterMap s.table, r.gsn < n := by
    intro n
    induction n with
    | zero => simp
    | succ n ih =>
      rw [List.range_succ, List.filterMap_append]
      cases ht : s.table n with
      | none =>
        simp only [List.filterMap_cons, ht, List.filterMap_nil, List.append_nil]
        exact ⟨ih.1, fun r hr => Nat.lt_succ_of_lt (ih.2 r hr)⟩
      | some x =>
        have hx := (h.gsn n x ht).1
        simp only [List.filterMap_cons, ht, List.filterMap_nil, List.map_append, List.map_cons, List.map_nil]
        refine ⟨?_, ?_⟩
        · rw [List.pairwise_append]
          refine ⟨ih.1, List.pairwise_singleton _ _, ?_⟩
          intro a ha b hb
          obtain ⟨r, hr, rfl⟩ := List.mem_map.mp ha
          rw [List.mem_singleton.mp hb, hx]
          exact ih.2 r hr
        · intro r hr
          rcases List.mem_append.mp hr with hr | hr
          · exact Nat.lt_succ_of_lt (ih.2 r hr)
          · rw [List.mem_singleton.mp hr, hx]; exact Nat.lt_succ_self n
  exact (this s.nextGsn).1

/-! ## Rows once committed -/

/-- The number is out of use: it names this row or no row. -/
structure Settled (g : Nat) (r : Record) (s : State) : Prop where
  old : g < s.nextGsn
  free : ∀ p, ∀ x ∈ (s.procs p).drawn, x.gsn ≠ g
  row : s.table g = some r ∨ s.table g = none

theorem Settled.of_table {s : State} (h : Base s) {g : Nat} {r : Record} (hr : s.table g = some r) : Settled g r s := by
  refine ⟨(h.gsn g r hr).2, ?_, Or.inl hr⟩
  intro p x hx he
  have := (h.drawn p x hx).2
  rw [he, hr] at this
  simp at this

theorem Settled.frame {g : Nat} {r : Record} {s s' : State} (p : Nat) (h : Settled g r s) (h1 : s'.nextGsn = s.nextGsn)
    (h2 : s'.table = s.table) (h3 : ∀ q, q ≠ p → s'.procs q = s.procs q) (h4 : (s'.procs p).drawn = []) :
    Settled g r s' := by
  refine ⟨by rw [h1]; exact h.old, ?_, by rw [h2]; exact h.row⟩
  intro q x hx
  by_cases hq : q = p
  · rw [hq, h4] at hx; simp at hx
  · rw [h3 q hq] at hx; exact h.free q x hx

theorem Settled.eff {cfg : Config} {p : Nat} {m : Move} {g : Nat} {r : Record} {s s' : State} (h : Settled g r s)
    (he : Eff cfg p m s s') : Settled g r s' := by
  cases he with
  | stay => exact h
  | begin c hmc hf hc => exact h.frame p rfl rfl (fun q hq => setProc_other _ _ hq) (by simp [Proc.drawn])
  | rollback c e _ => exact h.frame p rfl rfl (fun q hq => setProc_other _ _ hq) (by simp [PG.rollback, Proc.drawn])
  | lock st' e ers hp hl hne => exact h.frame p rfl rfl (fun q hq => setProc_other _ _ hq) (by simp [Proc.drawn])
  | prepare st' e ers rs hp hx hb => exact h.frame p rfl rfl (fun q hq => setProc_other _ _ hq) (by simp [Proc.drawn])
  | panic st' e ers hp hb => exact h.frame p rfl rfl (fun q hq => setProc_other _ _ hq) (by simp [Proc.drawn])
  | alloc st' e ers r' todo rows hp =>
    refine ⟨Nat.lt_succ_of_lt h.old, ?_, h.row⟩
    intro q x hx
    by_cases hq : q = p
    · subst hq
      rw [setProc_same] at hx
      simp only [Proc.drawn] at hx
      rcases List.mem_append.mp hx with hx | hx
      · exact h.free q x (by rw [hp]; exact hx)
      · rw [List.mem_singleton.mp hx]
        have := h.old
        show s.nextGsn ≠ g
        omega
    · rw [setProc_other _ _ hq] at hx; exact h.free q x hx
  | commit st' e ers rows x hp hx =>
    refine ⟨h.old, ?_, ?_⟩
    · intro q y hy
      by_cases hq : q = p
      · subst hq
        rw [setProc_same] at hy
        rcases hx with rfl | rfl <;> simp [Proc.drawn] at hy
      · rw [setProc_other _ _ hq] at hy; exact h.free q y hy
    · have : insertRows s.table rows g = s.table g :=
        insertRows_other rows (fun y hy => h.free p y (by rw [hp]; exact hy))
      show insertRows s.table rows g = some r ∨ insertRows s.table rows g = none
      rw [this]; exact h.row
  | done st' e ers rows live o hp ho _ => exact h.frame p rfl rfl (fun q hq => setProc_other _ _ hq) (by simp [Proc.drawn])
  | refuse st' n e hp => exact h.frame p rfl rfl (fun q hq => setProc_other _ _ hq) (by simp [Proc.drawn])
  | count st' n hp hn h0 => exact h.frame p rfl rfl (fun q hq => setProc_other _ _ hq) (by simp [Proc.drawn])
  | execute st' n hp => exact h.frame p rfl rfl (fun q hq => setProc_other _ _ hq) (by simp [Proc.drawn])
  | remove st' n gsns o hp ho =>
    refine ⟨h.old, ?_, ?_⟩
    · intro q y hy
      by_cases hq : q = p
      · subst hq
        rw [setProc_same] at hy
        simp [Proc.drawn] at hy
      · rw [setProc_other _ _ hq] at hy; exact h.free q y hy
    · show (s.table g).filter _ = some r ∨ (s.table g).filter _ = none
      rcases h.row with hr | hr
      · rw [hr]
        simp only [Option.filter]
        split
        · exact Or.inl rfl
        · exact Or.inr rfl
      · rw [hr]; exact Or.inr rfl

theorem settled_runFrom (cfg : Config) {s : State} (ms : Schedule) {g : Nat} {r : Record} (h : Settled g r s) :
    Settled g r (runFrom cfg s ms) :=
  run_induct (fun _ _ _ _ hs he => Settled.eff hs he) ms s h

/-- A process that is not scheduled stays where it is. -/
theorem step_other (cfg : Config) (s : State) {p q : Nat} (m : Move) (h : q ≠ p) :
    (step cfg s p m).procs q = s.procs q := by
  have := step_eff cfg s p m
  revert this
  generalize step cfg s p m = s'
  intro he
  cases he <;> first | rfl | exact setProc_other _ _ h

theorem runFrom_other (cfg : Config) (s : State) (ms : Schedule) {q : Nat} (h : ∀ m ∈ ms, m.1 ≠ q) :
    (runFrom cfg s ms).procs q = s.procs q := by
  induction ms generalizing s with
  | nil => rfl
  | cons m ms ih =>
    rw [runFrom_cons, ih _ (fun x hx => h x (by simp [hx])), step_other _ _ _ (Ne.symm (h m (by simp)))]

/-! ## Reads -/

theorem readRows_bad {ty : Types} (rows : List Record) (h : ∃ r ∈ rows, decodeRow ty r = none) :
    (readRows ty rows).err = some .deserialize := by
  induction rows with
  | nil => simp at h
  | cons r rows ih =>
    simp only [readRows]
    cases hd : decodeRow ty r with
    | none => rfl
    | some x =>
      obtain ⟨y, hy, hyd⟩ := h
      rcases List.mem_cons.mp hy with rfl | hy
      · rw [hd] at hyd; simp at hyd
      · exact ih ⟨y, hy, hyd⟩

/-- Nothing is handed out from the first unreadable row on. -/
theorem readRows_cut {ty : Types} (a : List Record) (r : Record) (b : List Record) (h : decodeRow ty r = none) :
    readRows ty (a ++ r :: b) = ⟨(readRows ty a).recs, some .deserialize⟩ := by
  induction a with
  | nil => simp [readRows, h]
  | cons x a ih =>
    simp only [List.cons_append, readRows]
    cases hd : decodeRow ty x with
    | none => rfl
    | some y => simp [ih]

theorem decodeRow_metadata {ty : Types} {r : Record} (h : r.metadata ≠ nullText) : decodeRow ty r = none := by
  unfold decodeRow
  cases Rem.decodeData ty r.evType r.data with
  | none => rfl
  | some d =>
    have : metadataOk r = false := by simp [metadataOk, h]
    simp [this]

theorem notifyRows_bad {ty : Types} (rows : List Record) (h : ∃ r ∈ rows, decodeRow ty r = none) :
    (notifyRows ty rows).2 = false := by
  induction rows with
  | nil => simp at h
  | cons r rows ih =>
    simp only [notifyRows]
    cases hd : decodeRow ty r with
    | none => rfl
    | some x =>
      obtain ⟨y, hy, hyd⟩ := h
      rcases List.mem_cons.mp hy with rfl | hy
      · rw [hd] at hyd; simp at hyd
      · exact ih ⟨y, hy, hyd⟩

/-! ## Where rows come from -/

/-- The events of a call. -/
def Call.events : Call → List EventRecord
  | .save _ _ ers => ers
  | .delete _ _ => []

/-- The events that a call still has to save. -/
def Proc.events : Proc → List EventRecord
  | .begun c => c.events
  | .locked _ _ ers => ers
  | .inserting _ _ ers _ _ => ers
  | _ => []

structure From (P : EventRecord → Prop) (s : State) : Prop where
  acks : Acks s
  procs : ∀ p, ∀ er ∈ (s.procs p).events, P er
  table : ∀ g r, s.table g = some r → ∃ st er, P er ∧ content r = stored st er

theorem From.frame {P : EventRecord → Prop} {s s' : State} (p : Nat) (h : From P s) (ha : Acks s')
    (ht : s'.table = s.table) (hq : ∀ q, q ≠ p → s'.procs q = s.procs q)
    (hp : ∀ er ∈ (s'.procs p).events, P er) : From P s' := by
  refine ⟨ha, ?_, by rw [ht]; exact h.table⟩
  intro q
  by_cases e : q = p
  · rw [e]; exact hp
  · rw [hq q e]; exact h.procs q

theorem From.eff {cfg : Config} {p : Nat} {m : Move} {P : EventRecord → Prop} {s s' : State} (h : From P s)
    (hm : ∀ c, m = .call c → ∀ er ∈ c.events, P er) (he : Eff cfg p m s s') : From P s' := by
  have ha := h.acks.eff he
  cases he with
  | stay => exact h
  | begin c hmc hf hc =>
    refine h.frame p ha rfl (fun q hq => setProc_other _ _ hq) ?_
    rw [setProc_same]; exact hm c hmc
  | rollback c e _ =>
    exact h.frame p ha rfl (fun q hq => setProc_other _ _ hq) (by simp [PG.rollback, Proc.events])
  | lock st' e ers hp hl hne =>
    refine h.frame p ha rfl (fun q hq => setProc_other _ _ hq) ?_
    have := h.procs p
    rw [hp] at this
    rw [setProc_same]; exact this
  | prepare st' e ers rs hp hx hb =>
    refine h.frame p ha rfl (fun q hq => setProc_other _ _ hq) ?_
    have := h.procs p
    rw [hp] at this
    rw [setProc_same]; exact this
  | panic st' e ers hp hb =>
    exact h.frame p ha rfl (fun q hq => setProc_other _ _ hq) (by simp [Proc.events])
  | alloc st' e ers r todo rows hp =>
    refine h.frame p ha rfl (fun q hq => setProc_other _ _ hq) ?_
    have := h.procs p
    rw [hp] at this
    rw [setProc_same]; exact this
  | commit st' e ers rows x hp hx =>
    have hpe := h.procs p
    rw [hp] at hpe
    simp only [Proc.events] at hpe
    have hi := (h.acks.inserting p _ _ _ _ _ hp).1
    rw [List.append_nil] at hi
    refine ⟨ha, ?_, ?_⟩
    · intro q
      by_cases hq : q = p
      · subst hq
        rw [setProc_same]
        rcases hx with rfl | rfl <;> simp [Proc.events]
      · rw [setProc_other _ _ hq]; exact h.procs q
    · intro g r hr
      rcases insertRows_some rows hr with hr | hr
      · have : content r ∈ rows.map content := List.mem_map_of_mem hr.1
        rw [hi, List.mem_map] at this
        obtain ⟨er, her, h2⟩ := this
        exact ⟨st', er, hpe er her, h2.symm⟩
      · exact h.table g r hr
  | done st' e ers rows live o hp ho _ =>
    exact h.frame p ha rfl (fun q hq => setProc_other _ _ hq) (by simp [Proc.events])
  | refuse st' n e hp => exact h.frame p ha rfl (fun q hq => setProc_other _ _ hq) (by simp [Proc.events])
  | count st' n hp hn h0 => exact h.frame p ha rfl (fun q hq => setProc_other _ _ hq) (by simp [Proc.events])
  | execute st' n hp => exact h.frame p ha rfl (fun q hq => setProc_other _ _ hq) (by simp [Proc.events])
  | remove st' n gsns o hp ho =>
    refine ⟨ha, ?_, ?_⟩
    · intro q
      by_cases hq : q = p
      · subst hq
        rw [setProc_same]; simp [Proc.events]
      · rw [setProc_other _ _ hq]; exact h.procs q
    · intro g r hr
      have : s.table g = some r := by
        simp only [PG.setProc, endTx] at hr
        cases ht : s.table g with
        | none => rw [ht] at hr; simp at hr
        | some y =>
          rw [ht] at hr
          simp only [Option.filter] at hr
          split at hr
          · exact hr
          · simp at hr
      exact h.table g r this

theorem from_run (cfg : Config) (P : EventRecord → Prop) (ms : Schedule)
    (h : ∀ m ∈ ms, ∀ c, m.2 = .call c → ∀ er ∈ c.events, P er) : From P (run cfg ms) := by
  have : ∀ s, From P s → From P (runFrom cfg s ms) := by
    induction ms with
    | nil => exact fun s h => h
    | cons m ms ih =>
      intro s hs
      rw [runFrom_cons]
      exact ih (fun x hx => h x (by simp [hx])) _ (hs.eff (h m (by simp)) (step_eff cfg s m.1 m.2))
  exact this init ⟨acks_init, by simp [init, Proc.events], by simp [init]⟩

/-- Only batches that could be read back are acknowledged when the store notifies by itself. -/
theorem returned_null (cfg : Config) (hn : cfg.notify = false) (ms : Schedule) :
    ∀ p st e ers n, (run cfg ms).procs p = .returned (.save st e ers) (.ok n) →
      ∀ er ∈ ers, compact er.metadata = nullText := by
  have : Acks (run cfg ms) ∧ ∀ p st e ers n, (run cfg ms).procs p = .returned (.save st e ers) (.ok n) →
      ∀ er ∈ ers, compact er.metadata = nullText := by
    refine run_induct (cfg := cfg) (P := fun s => Acks s ∧ ∀ p st e ers n,
      s.procs p = .returned (.save st e ers) (.ok n) → ∀ er ∈ ers, compact er.metadata = nullText) ?_ ms init
      ⟨acks_init, by simp [init]⟩
    rintro s p m s' ⟨ha, hh⟩ he
    refine ⟨ha.eff he, ?_⟩
    intro q
    by_cases hq : q = p
    · subst hq
      cases he with
      | stay => exact hh q
      | done st e ers rows live o hp ho hno =>
        rw [setProc_same]
        intro st' e' ers' n hr
        simp only [Proc.returned.injEq, Call.save.injEq] at hr
        obtain ⟨⟨rfl, rfl, rfl⟩, h2⟩ := hr
        have ho' : o = .ok (lastOf rows) := by
          rcases ho with rfl | rfl
          · rfl
          · simp at h2
        rcases hno ho' with h3 | h3
        · rw [hn] at h3; simp at h3
        · intro er her
          have hc := (ha.committed q _ _ _ _ hp).2.1
          have hm : stored st er ∈ ers.map (stored st) := List.mem_map_of_mem her
          rw [← hc, List.mem_map] at hm
          obtain ⟨r, hr, hrc⟩ := hm
          have hmd : r.metadata = compact er.metadata := by
            have := congrArg Record.metadata hrc
            exact this
          rw [← hmd]
          false_or_by_contra
          rename_i hne
          rw [notifyRows_bad rows ⟨r, hr, decodeRow_metadata hne⟩] at h3
          simp at h3
      | commit st e ers rows x hp hx =>
        rw [setProc_same]
        rcases hx with rfl | rfl <;> simp
      | rollback c e _ => simp [PG.rollback]
      | _ => simp
    · have : s'.procs q = s.procs q := by
        cases he <;> first | rfl | exact setProc_other _ _ hq
      rw [this]; exact hh q
  exact this.2

/-! ## Calls that run alone -/

theorem step_call {cfg : Config} {s : State} {p : Nat} (c : Call) (h : s.procs p = .idle ∨ ∃ c o, s.procs p = .returned c o ∧ o ≠ .panic)
    (hc : s.conns < cfg.cap) :
    step cfg s p (.call c) = setProc { s with conns := s.conns + 1 } p (.begun c) := by
  rcases h with h | ⟨c', o, h, ho⟩
  · simp only [step, h, if_pos hc]
  · cases o with
    | panic => exact absurd rfl ho
    | _ => simp only [step, h, if_pos hc]

theorem setProc_twice (s : State) (p : Nat) (x y : Proc) : setProc (setProc s p x) p y = setProc s p y := by
  simp only [setProc]
  congr 1
  funext q
  by_cases h : q = p
  · simp [h]
  · simp [h]

/-- Rows get consecutive global numbers when nobody interferes. -/
def withGsns : Nat → List Record → List Record
  | _, [] => []
  | g, r :: rs => { r with gsn := g } :: withGsns (g + 1) rs

theorem withGsns_length (g : Nat) (rs : List Record) : (withGsns g rs).length = rs.length := by
  induction rs generalizing g with
  | nil => rfl
  | cons r rs ih => simp [withGsns, ih]

theorem withGsns_seq (g : Nat) (rs : List Record) : (withGsns g rs).map (·.seq) = rs.map (·.seq) := by
  induction rs generalizing g with
  | nil => rfl
  | cons r rs ih => simp [withGsns, ih]

theorem run_inserts (cfg : Config) (p : Nat) (st : Str) (e : Option Nat) (ers : List EventRecord) (todo : List Record) :
    ∀ (s : State) (rows : List Record), s.procs p = .inserting st e ers todo rows →
    runFrom cfg s (List.replicate todo.length (p, .go)) =
      setProc { s with nextGsn := s.nextGsn + todo.length } p (.inserting st e ers [] (rows ++ withGsns s.nextGsn todo)) := by
  induction todo with
  | nil =>
    intro s rows hp
    simp only [List.length_nil, List.replicate_zero, withGsns, List.append_nil, Nat.add_zero]
    show s = _
    obtain ⟨a, b, c, d, e', f, g, hh⟩ := s
    simp only [setProc, State.mk.injEq, true_and, and_true]
    funext q
    by_cases hq : q = p
    · rw [if_pos hq, hq]; exact hp
    · rw [if_neg hq]
  | cons r todo ih =>
    intro s rows hp
    rw [List.length_cons, List.replicate_succ, runFrom_cons]
    have hs : step cfg s p .go = setProc { s with nextGsn := s.nextGsn + 1 } p
        (.inserting st e ers todo (rows ++ [{ r with gsn := s.nextGsn }])) := by
      simp only [step, hp]
    rw [hs, ih _ _ (setProc_same _ _ _)]
    simp only [setProc, withGsns, List.append_assoc, List.singleton_append]
    congr 1
    · omega
    · funext q
      by_cases hq : q = p
      · simp [hq]
      · simp [hq]

/-! ## Connections -/

/-- The call is in a transaction. -/
def Active (s : State) (p : Nat) : Prop := (s.procs p).inTx = true

theorem Active.congr {s s' : State} {p : Nat} (h : s'.procs p = s.procs p) : Active s' p ↔ Active s p := by
  unfold Active; rw [h]

structure Counted (s : State) : Prop where
  list : ∃ l : List Nat, l.Nodup ∧ s.conns = l.length ∧ ∀ p, p ∈ l ↔ Active s p
  keeps : ∀ p st n, s.procs p ≠ .begun (.delete st n)

theorem Counted.stays {s s' : State} (p : Nat) (h : Counted s) (hc : s'.conns = s.conns)
    (hq : ∀ q, q ≠ p → s'.procs q = s.procs q) (hp : Active s' p ↔ Active s p)
    (hk : ∀ st n, s'.procs p ≠ .begun (.delete st n)) : Counted s' := by
  obtain ⟨⟨l, h1, h2, h3⟩, h4⟩ := h
  refine ⟨⟨l, h1, by rw [hc, h2], ?_⟩, ?_⟩
  · intro q
    by_cases e : q = p
    · rw [e, hp]; exact h3 p
    · rw [Active.congr (hq q e)]; exact h3 q
  · intro q
    by_cases e : q = p
    · rw [e]; exact hk
    · rw [hq q e]; exact h4 q

theorem Counted.leaves {s s' : State} (p : Nat) (h : Counted s) (hc : s'.conns = s.conns - 1)
    (hq : ∀ q, q ≠ p → s'.procs q = s.procs q) (hp : ¬ Active s' p) (ha : Active s p) : Counted s' := by
  obtain ⟨⟨l, h1, h2, h3⟩, h4⟩ := h
  have hmem := (h3 p).mpr ha
  refine ⟨⟨l.erase p, h1.erase p, by rw [hc, h2, List.length_erase_of_mem hmem], ?_⟩, ?_⟩
  · intro q
    rw [h1.mem_erase_iff]
    by_cases e : q = p
    · subst e
      simp [hp]
    · rw [Active.congr (hq q e), ← h3 q]
      simp [e]
  · intro q
    by_cases e : q = p
    · rw [e]
      intro st n hx
      exact hp (by simp [Active, hx, Proc.inTx])
    · rw [hq q e]; exact h4 q

theorem toBatch_no_panic (st t i : Str) (n : Nat) (ers : List EventRecord) : toBatch true st t i n ers ≠ .panic := by
  induction ers generalizing n with
  | nil => simp [toBatch]
  | cons er ers ih =>
    simp only [toBatch]
    split
    · simp
    split
    · simp
    split
    · have := ih (n + 1)
      revert this
      cases toBatch true st t i (n + 1) ers <;> simp
    · simp

theorem Counted.eff {cfg : Config} {p : Nat} {m : Move} {s s' : State} (hu : cfg.uuid = true) (h : Counted s)
    (hm : ∀ st n, m ≠ .call (.delete st n)) (he : Eff cfg p m s s') : Counted s' := by
  have noDel : ∀ q st n, s.procs q ≠ .begun (.delete st n) := h.keeps
  cases he with
  | stay => exact h
  | begin c hmc hf hc =>
    obtain ⟨⟨l, h1, h2, h3⟩, h4⟩ := h
    have hna : p ∉ l := by
      rw [h3 p]
      unfold Active
      rcases hf with hf | ⟨c', o, hf, _⟩ <;> rw [hf] <;> simp [Proc.inTx]
    refine ⟨⟨p :: l, by simp [hna, h1], by simp [PG.setProc, h2], ?_⟩, ?_⟩
    · intro q
      by_cases e : q = p
      · subst e
        simp only [List.mem_cons, true_or, true_iff]
        simp [Active, Proc.inTx]
      · have : Active (PG.setProc { s with conns := s.conns + 1 } p (.begun c)) q ↔ Active s q :=
          Active.congr (setProc_other _ _ e)
        rw [List.mem_cons, this, h3 q]
        simp [e]
    · intro q st n
      by_cases e : q = p
      · subst e
        rw [setProc_same]
        intro hx
        simp only [Proc.begun.injEq] at hx
        exact hm st n (by rw [hmc, hx])
      · rw [setProc_other _ _ e]; exact h4 q st n
  | rollback c e ha =>
    exact h.leaves p rfl (fun q hq => setProc_other _ _ hq) (by simp [Active, PG.rollback, Proc.inTx]) ha
  | lock st e ers hp hl hne =>
    exact h.stays p rfl (fun q hq => setProc_other _ _ hq) (by simp [Active, hp, Proc.inTx]) (by simp)
  | prepare st e ers rs hp hx hb =>
    exact h.stays p rfl (fun q hq => setProc_other _ _ hq) (by simp [Active, hp, Proc.inTx]) (by simp)
  | panic st e ers hp hb => rw [hu] at hb; exact absurd hb (toBatch_no_panic _ _ _ _ _)
  | alloc st e ers r todo rows hp =>
    exact h.stays p rfl (fun q hq => setProc_other _ _ hq) (by simp [Active, hp, Proc.inTx]) (by simp)
  | commit st e ers rows x hp hx =>
    refine h.leaves p rfl (fun q hq => setProc_other _ _ hq) ?_ (by simp [Active, hp, Proc.inTx])
    unfold Active
    rw [setProc_same]
    rcases hx with rfl | rfl <;> simp [Proc.inTx]
  | done st e ers rows live o hp ho _ =>
    exact h.stays p rfl (fun q hq => setProc_other _ _ hq) (by simp [Active, hp, Proc.inTx]) (by simp)
  | refuse st n e hp => exact absurd hp (noDel p st n)
  | count st n hp hn h0 => exact absurd hp (noDel p st n)
  | execute st n hp =>
    exact h.stays p rfl (fun q hq => setProc_other _ _ hq) (by simp [Active, hp, Proc.inTx]) (by simp)
  | remove st n gsns o hp ho =>
    exact h.leaves p rfl (fun q hq => setProc_other _ _ hq) (by simp [Active, Proc.inTx])
      (by simp [Active, hp, Proc.inTx])

theorem counted_run (cfg : Config) (hu : cfg.uuid = true) (ms : Schedule) (h : ∀ st, NoDelete st ms) :
    Counted (run cfg ms) := by
  have : ∀ s, Counted s → Counted (runFrom cfg s ms) := by
    induction ms with
    | nil => exact fun s h => h
    | cons m ms ih =>
      intro s hs
      rw [runFrom_cons]
      exact ih (fun st x hx => h st x (by simp [hx])) _
        (hs.eff hu (fun st => h st m (by simp)) (step_eff cfg s m.1 m.2))
  exact this init ⟨⟨[], by simp, rfl, by simp [init, Active, Proc.inTx]⟩, by simp [init]⟩

/-! ## A store without a UUID generator -/

theorem toBatch_no_uuid (st t i : Str) (n : Nat) (ers : List EventRecord) (rs : List Record) (hne : ers ≠ [])
    (h : toBatch false st t i n ers = .ok rs) : False := by
  cases ers with
  | nil => exact hne rfl
  | cons er ers =>
    simp only [toBatch] at h
    split at h
    · simp at h
    split at h
    · simp at h
    split at h <;> simp at h

structure NoUuid (s : State) : Prop where
  acks : Acks s
  none : ∀ p st e ers todo rows, s.procs p ≠ .inserting st e ers todo rows
  empty : s.hist = [] ∧ ∀ g, s.table g = .none

theorem noUuid_runFrom (cfg : Config) (hu : cfg.uuid = false) (ms : Schedule) (s : State) (h : NoUuid s) :
    NoUuid (runFrom cfg s ms) := by
  refine run_induct (cfg := cfg) (P := NoUuid) ?_ ms s h
  intro s p m s' h he
  have ha := h.acks.eff he
  have frame : ∀ s', Acks s' → s'.hist = s.hist → s'.table = s.table → (∀ q, q ≠ p → s'.procs q = s.procs q) →
      (∀ st e ers todo rows, s'.procs p ≠ .inserting st e ers todo rows) → NoUuid s' := by
    intro s' h0 h1 h2 h3 h4
    refine ⟨h0, ?_, by rw [h1, h2]; exact h.empty⟩
    intro q
    by_cases hq : q = p
    · rw [hq]; exact h4
    · rw [h3 q hq]; exact h.none q
  cases he with
  | stay => exact h
  | prepare st e ers rs hp hx hb =>
    rw [hu] at hb
    exact absurd hb (fun hb => toBatch_no_uuid _ _ _ _ _ _ (h.acks.locked p _ _ _ hp) hb)
  | alloc st e ers r todo rows hp => exact absurd hp (h.none p _ _ _ _ _)
  | commit st e ers rows x hp hx => exact absurd hp (h.none p _ _ _ _ _)
  | rollback c e _ => exact frame _ ha rfl rfl (fun q hq => setProc_other _ _ hq) (by simp [PG.rollback])
  | remove st n gsns o hp ho =>
    refine ⟨ha, ?_, h.empty.1, ?_⟩
    · intro q
      by_cases hq : q = p
      · subst hq; simp
      · rw [setProc_other _ _ hq]; exact h.none q
    · intro g
      show (s.table g).filter _ = _
      rw [h.empty.2]; rfl
  | begin c hmc hf hc => exact frame _ ha rfl rfl (fun q hq => setProc_other _ _ hq) (by simp)
  | lock st e ers hp hl hne => exact frame _ ha rfl rfl (fun q hq => setProc_other _ _ hq) (by simp)
  | panic st e ers hp hb => exact frame _ ha rfl rfl (fun q hq => setProc_other _ _ hq) (by simp)
  | done st e ers rows live o hp ho _ => exact frame _ ha rfl rfl (fun q hq => setProc_other _ _ hq) (by simp)
  | refuse st n e hp => exact frame _ ha rfl rfl (fun q hq => setProc_other _ _ hq) (by simp)
  | count st n hp hn h0 => exact frame _ ha rfl rfl (fun q hq => setProc_other _ _ hq) (by simp)
  | execute st n hp => exact frame _ ha rfl rfl (fun q hq => setProc_other _ _ hq) (by simp)

theorem noUuid_run (cfg : Config) (hu : cfg.uuid = false) (ms : Schedule) : NoUuid (run cfg ms) :=
  noUuid_runFrom cfg hu ms init ⟨acks_init, by simp [init], by simp [init]⟩

/-- A call that has panicked keeps its lock. -/
theorem panic_keeps (cfg : Config) (ms : Schedule) (s : State) {p : Nat} {st : Str} {c : Call}
    (h : s.procs p = .returned c .panic ∧ s.locks (fnv32a st) = some p) :
    (runFrom cfg s ms).procs p = .returned c .panic ∧ (runFrom cfg s ms).locks (fnv32a st) = some p := by
  refine run_induct (cfg := cfg) (P := fun s => s.procs p = .returned c .panic ∧ s.locks (fnv32a st) = some p) ?_ ms s h
  rintro s q m s' ⟨h1, h2⟩ he
  have hend : ∀ t : State, t.locks = s.locks → q ≠ p → (endTx t q).locks (fnv32a st) = some p := by
    intro t ht hne
    show (if t.locks (fnv32a st) = some q then none else t.locks (fnv32a st)) = some p
    rw [ht, h2, if_neg (by simpa using Ne.symm hne)]
  by_cases hq : q = p
  · subst hq
    cases he with
    | stay => exact ⟨h1, h2⟩
    | begin c hmc hf hc =>
      rcases hf with hf | ⟨c', o, hf, ho⟩
      · rw [h1] at hf; simp at hf
      · rw [h1] at hf; simp at hf; exact absurd hf.2.symm ho
    | rollback c e ha => rw [h1] at ha; simp [Proc.inTx] at ha
    | lock st e ers hp hl hne => rw [h1] at hp; simp at hp
    | prepare st e ers rs hp hx hb => rw [h1] at hp; simp at hp
    | panic st e ers hp hb => rw [h1] at hp; simp at hp
    | alloc st e ers r todo rows hp => rw [h1] at hp; simp at hp
    | commit st e ers rows x hp hx => rw [h1] at hp; simp at hp
    | done st e ers rows live o hp ho _ => rw [h1] at hp; simp at hp
    | refuse st n e hp => rw [h1] at hp; simp at hp
    | count st n hp hn h0 => rw [h1] at hp; simp at hp
    | execute st n hp => rw [h1] at hp; simp at hp
    | remove st n gsns o hp ho => rw [h1] at hp; simp at hp
  · have hprocs : s'.procs p = s.procs p := by
      cases he <;> first | rfl | exact setProc_other _ _ (Ne.symm hq)
    refine ⟨by rw [hprocs]; exact h1, ?_⟩
    cases he with
    | lock st' e ers hp hl hne =>
      show (if fnv32a st = fnv32a st' then some q else s.locks (fnv32a st)) = some p
      by_cases hk : fnv32a st = fnv32a st'
      · rw [hk, hl] at h2; simp at h2
      · rw [if_neg hk]; exact h2
    | rollback c e ha => exact hend s rfl hq
    | commit st' e ers rows x hp hx => exact hend { s with
        table := insertRows s.table rows, hist := s.hist ++ [(st', e, rows)],
        notified := s.notified ++ (if cfg.notify then rows else []) } rfl hq
    | remove st' n gsns o hp ho => exact hend { s with
        table := fun g => (s.table g).filter (fun r => !(gsns.contains g && r.streamName == st')) } rfl hq
    | _ => exact h2

/-- Only calls that have locked a stream hold locks. -/
theorem locks_owned (cfg : Config) (hu : cfg.uuid = true) (ms : Schedule) :
    ∀ k p, (run cfg ms).locks k = some p → ((run cfg ms).procs p).holds ≠ none := by
  refine run_induct (cfg := cfg) (P := fun s => ∀ k p, s.locks k = some p → (s.procs p).holds ≠ none) ?_ ms init
    (by simp [init])
  intro s p m s' h he
  have stays : ∀ s' : State, s'.locks = s.locks → (∀ q, q ≠ p → s'.procs q = s.procs q) →
      ((s.procs p).holds ≠ none → (s'.procs p).holds ≠ none) → ∀ k q, s'.locks k = some q → (s'.procs q).holds ≠ none := by
    intro s' h1 h2 h3 k q hk
    rw [h1] at hk
    by_cases hq : q = p
    · subst hq; exact h3 (h k q hk)
    · rw [h2 q hq]; exact h k q hk
  have leaves : ∀ (t : State) (x : Proc), t.locks = s.locks → t.procs = s.procs →
      ∀ k q, (PG.setProc (endTx t p) p x).locks k = some q → ((PG.setProc (endTx t p) p x).procs q).holds ≠ none := by
    intro t x h1 h2 k q hk
    have hk' : (if t.locks k = some p then none else t.locks k) = some q := hk
    by_cases hl : t.locks k = some p
    · rw [if_pos hl] at hk'; simp at hk'
    · rw [if_neg hl] at hk'
      have hq : q ≠ p := fun e => hl (by rw [hk', e])
      rw [setProc_other _ _ hq]
      show (t.procs q).holds ≠ none
      rw [h2]
      exact h k q (by rw [← h1]; exact hk')
  cases he with
  | stay => exact h
  | begin c hmc hf hc =>
    exact stays _ rfl (fun q hq => setProc_other _ _ hq) (by rcases hf with hf | ⟨_, _, hf, _⟩ <;> simp [hf, Proc.holds])
  | rollback c e _ => exact leaves s _ rfl rfl
  | lock st e ers hp hl hne =>
    intro k q hk
    have hk' : (if k = fnv32a st then some p else s.locks k) = some q := hk
    by_cases hq : q = p
    · subst hq; simp [Proc.holds]
    · rw [setProc_other _ _ hq]
      by_cases hkk : k = fnv32a st
      · rw [if_pos hkk] at hk'
        simp only [Option.some.injEq] at hk'
        exact absurd hk'.symm hq
      · rw [if_neg hkk] at hk'
        exact h k q hk'
  | prepare st e ers rs hp hx hb => exact stays _ rfl (fun q hq => setProc_other _ _ hq) (by simp [Proc.holds])
  | panic st e ers hp hb => rw [hu] at hb; exact absurd hb (toBatch_no_panic _ _ _ _ _)
  | alloc st e ers r todo rows hp => exact stays _ rfl (fun q hq => setProc_other _ _ hq) (by simp [Proc.holds])
  | commit st e ers rows x hp hx => exact leaves { s with
        table := insertRows s.table rows, hist := s.hist ++ [(st, e, rows)],
        notified := s.notified ++ (if cfg.notify then rows else []) } x rfl rfl
  | done st e ers rows live o hp ho _ =>
    exact stays _ rfl (fun q hq => setProc_other _ _ hq) (by simp [hp, Proc.holds])
  | refuse st n e hp =>
    exact stays _ rfl (fun q hq => setProc_other _ _ hq) (by simp [hp, Proc.holds])
  | count st n hp hn h0 => exact stays _ rfl (fun q hq => setProc_other _ _ hq) (by simp [hp, Proc.holds])
  | execute st n hp => exact stays _ rfl (fun q hq => setProc_other _ _ hq) (by simp [hp, Proc.holds])
  | remove st n gsns o hp ho => exact leaves { s with
        table := fun g => (s.table g).filter (fun r => !(gsns.contains g && r.streamName == st)) } _ rfl rfl

end RangeDB.PG

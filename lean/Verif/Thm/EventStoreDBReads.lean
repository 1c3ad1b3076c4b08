import Verif.Thm.EventStoreDB

/-!
# Reads of all events of the EventStoreDB adapter: C90
-/

namespace RangeDB.EDB

open RangeDB.Demo

/-- What `Events(0)` of adapter `a` hands out. -/
def logOf (C : Codec) (c : Config) (w : World) (a : Nat) : List Record := (events C c (w.deleted a) w.server 0).recs

/-- Everything in the log is either skipped or can be decoded. -/
def Decodable (C : Codec) (c : Config) (L : List Stored) : Prop :=
  ∀ e ∈ L, internal e = true ∨ c.current e = false ∨ ∃ r, fromLinked C true e = some r

theorem fromLinked_gsn {C : Codec} {e : Stored} {r : Record} (h : fromLinked C true e = some r) : r.gsn = e.commit := by
  unfold fromLinked at h
  cases hd : C.dec e.payload with
  | none => rw [hd] at h; cases h
  | some p =>
    rw [hd] at h
    simp only [if_true, Option.some.injEq] at h
    rw [← h]
    rfl

theorem eventsLoop_filter {C : Codec} {c : Config} {deleted : List Str} (g : Nat) : ∀ {L : List Stored},
    Decodable C c L → eventsLoop C c deleted (L.filter (fun e => e.commit ≥ g)) =
      ⟨(eventsLoop C c deleted L).recs.filter (fun r => g ≤ r.gsn), none⟩
  | [], _ => rfl
  | e :: L, h => by
    have ih := eventsLoop_filter (c := c) (deleted := deleted) g (fun x hx => h x (List.mem_cons_of_mem _ hx))
    rw [List.filter_cons]
    by_cases hi : internal e = true
    · rw [eventsLoop, if_pos hi]
      split
      · rw [eventsLoop, if_pos hi, ih]
      · rw [ih]
    · by_cases hc : (!c.current e) = true
      · rw [eventsLoop, if_neg hi, if_pos hc]
        split
        · rw [eventsLoop, if_neg hi, if_pos hc, ih]
        · rw [ih]
      · by_cases hd : (c.recordDeletedStreams && decide (e.streamId ∈ deleted)) = true
        · rw [eventsLoop, if_neg hi, if_neg hc, if_pos hd]
          split
          · rw [eventsLoop, if_neg hi, if_neg hc, if_pos hd, ih]
          · rw [ih]
        · rw [eventsLoop, if_neg hi, if_neg hc, if_neg hd]
          obtain ⟨r, hr⟩ : ∃ r, fromLinked C true e = some r := by
            rcases h e List.mem_cons_self with h1 | h1 | h1
            · exact absurd h1 hi
            · rw [h1] at hc; exact absurd rfl hc
            · exact h1
          have hg := fromLinked_gsn hr
          rw [hr]
          by_cases hk : e.commit ≥ g
          · rw [if_pos (by simpa using hk), eventsLoop, if_neg hi, if_neg hc, if_neg hd, hr]
            simp only [ih]
            rw [List.filter_cons_of_pos (by simp [hg]; exact hk)]
          · rw [if_neg (by simpa using hk)]
            simp only [ih]
            rw [List.filter_cons_of_neg (by simp [hg]; omega)]

theorem typesLoop_eq {C : Codec} {c : Config} {deleted : List Str} (g : Nat) (types : List Str) : ∀ {L : List Stored},
    typesLoop C c deleted g types L =
      ⟨(eventsLoop C c deleted L).recs.filter (fun r => decide (r.aggType ∈ types) && decide (g ≤ r.gsn)),
        (eventsLoop C c deleted L).err⟩
  | [] => rfl
  | e :: L => by
    have ih := @typesLoop_eq C c deleted g types L
    rw [typesLoop, eventsLoop]
    split
    · exact ih
    · split
      · exact ih
      · split
        · exact ih
        · cases hf : fromLinked C true e with
          | none => rfl
          | some r =>
            simp only [List.filter_cons]
            by_cases h1 : r.aggType ∈ types
            · rw [if_neg (not_not_intro h1)]
              by_cases h2 : r.gsn < g
              · rw [if_pos h2, if_neg (by simp; omega)]
                exact ih
              · rw [if_neg h2, if_pos (by simp [h1]; omega), ih]
            · rw [if_pos h1, if_neg (by simp [h1])]
              exact ih

theorem logOf_eq (C : Codec) (c : Config) (w : World) (a : Nat) :
    logOf C c w a = (eventsLoop C c (w.deleted a) w.server.log).recs := by
  unfold logOf events Server.readAll
  rw [List.filter_eq_self.mpr (by simp)]

/-- **C90**, views: after every history of saves, deletes and restarts of adapters, of event types not starting with `$`, a
read of adapter `a` reports no error; `Events(g)` hands out the events of its log from `g` on, and
`EventsByAggregateTypes(g, …)` those of these that have one of the given types, all in the order of the log. -/
theorem C90_views (C : Codec) (hC : C.Lawful) (c : Config) (ops : List EOp) (hp : ∀ op ∈ ops, Plain op.events) (a : Nat) :
    let w := World.run C c ops
    (∀ g, events C c (w.deleted a) w.server g = ⟨(logOf C c w a).filter (fun r => g ≤ r.gsn), none⟩) ∧
    (∀ g types, eventsByTypes C c (w.deleted a) w.server g types =
      ⟨(logOf C c w a).filter (fun r => decide (r.aggType ∈ types) && decide (g ≤ r.gsn)), none⟩) := by
  intro w
  have hd : Decodable C c w.server.log := C76_reachable C hC c ops hp
  have h0 := logOf_eq C c w a
  constructor
  · intro g
    rw [h0]
    exact eventsLoop_filter g hd
  · intro g types
    unfold eventsByTypes
    rw [typesLoop_eq, h0]
    have := eventsLoop_filter (C := C) (c := c) (deleted := w.deleted a) g hd
    unfold Server.readAll
    rw [this]
    simp only [List.filter_filter]
    congr 1
    refine List.filter_congr (fun r _ => ?_)
    by_cases e1 : r.aggType ∈ types <;> by_cases e2 : g ≤ r.gsn <;> simp [e1, e2]

/-! ## The streams in the log -/

/-- An adapter remembers only streams that were deleted. -/
theorem deleted_sub {C : Codec} {c : Config} (ops : List EOp) (hp : ∀ op ∈ ops, Plain op.events) :
    ∃ A, Rel C c A (World.run C c ops).server ∧ A.Plain ∧
      ∀ a, ∀ x ∈ (World.run C c ops).deleted a, x ∈ (World.run C c ops).server.tombstoned := by
  unfold World.run
  have : ∀ (ops : List EOp) (w : World) (A : Account), (∀ op ∈ ops, Plain op.events) → Rel C c A w.server → A.Plain →
      (∀ a, ∀ x ∈ w.deleted a, x ∈ w.server.tombstoned) →
      ∃ A, Rel C c A (ops.foldl (World.step C c) w).server ∧ A.Plain ∧
        ∀ a, ∀ x ∈ (ops.foldl (World.step C c) w).deleted a, x ∈ (ops.foldl (World.step C c) w).server.tombstoned := by
    intro ops
    induction ops with
    | nil => intro w A _ h hA hs; exact ⟨A, h, hA, hs⟩
    | cons op ops ih =>
      intro w A hp h hA hs
      obtain ⟨A', h', hA', hdead⟩ := step_rel h hA op (hp op List.mem_cons_self)
      rw [List.foldl_cons]
      refine ih _ A' (fun o ho => hp o (List.mem_cons_of_mem _ ho)) h' hA' ?_
      have up : ∀ x, x ∈ w.server.tombstoned → x ∈ (w.step C c op).server.tombstoned := by
        intro x hx
        rw [h.dead] at hx
        rw [h'.dead]
        obtain ⟨n, hn, rfl⟩ := List.mem_map.mp hx
        exact List.mem_map.mpr ⟨n, hdead n hn, rfl⟩
      intro a x hx
      cases op with
      | save e rf net name ers pos => exact up x (hs a x hx)
      | append e net name er ers pos =>
        refine up x (hs a x ?_)
        simp only [World.step] at hx
        split at hx <;> exact hx
      | delete b k name =>
        have hx' : x ∈ (if a = b then (deleteStream C c w.server (w.deleted b) k name).2.1 else w.deleted a) := hx
        by_cases hab : a = b
        · rw [if_pos hab] at hx'
          cases ht : w.server.tombstone (c.streamName name) (zeroBased k) with
          | ok s' =>
            simp only [deleteStream, ht] at hx'
            by_cases hr : c.recordDeletedStreams = true
            · rw [if_pos hr] at hx'
              rcases List.mem_cons.mp hx' with rfl | hx'
              · show _ ∈ (deleteStream C c w.server (w.deleted b) k name).1.tombstoned
                simp only [deleteStream, ht]
                unfold Server.tombstone at ht
                split at ht
                · cases ht
                · split at ht
                  · cases ht; exact List.mem_cons_self
                  · cases ht
              · exact up x (hs b x hx')
            · rw [if_neg hr] at hx'
              exact up x (hs b x hx')
          | error e =>
            refine up x (hs b x ?_)
            simp only [deleteStream, ht] at hx'
            split at hx'
            · cases ‹_ = _›
            · split at hx' <;> exact hx'
            · exact hx'
        · rw [if_neg hab] at hx'
          exact up x (hs a x hx')
      | restart b =>
        have hx' : x ∈ (if a = b then [] else w.deleted a) := hx
        by_cases hab : a = b
        · rw [if_pos hab] at hx'; cases hx'
        · rw [if_neg hab] at hx'
          exact up x (hs a x hx')
  exact this ops .init .empty hp (Rel.init C c) (fun _ h => by cases h) (fun _ _ h => by cases h)

theorem eventsLoop_stream {C : Codec} (hC : C.Lawful) {c : Config} {deleted : List Str} {name : Str}
    (hn : ¬ c.streamName name ∈ deleted) : ∀ {b E L}, Matches C c b E L →
    (∀ e ∈ E, e.event.event.evType.head? ≠ some 36) →
    (eventsLoop C c deleted L).recs.filter (fun r => r.streamName = name) =
      recordsFrom C.view id (count b name + 1) (E.filter (fun e => e.name = name))
  | _, [], [], _, _ => rfl
  | b, e :: E, l :: L, h, hE => by
    have ih := eventsLoop_stream hC hn h.2 (fun x hx => hE x (List.mem_cons_of_mem _ hx))
    rw [count_append, count_single] at ih
    have h1 := h.1.internal (hE e List.mem_cons_self)
    rw [eventsLoop, if_neg (by rw [h1]; exact Bool.false_ne_true), if_neg (by simp [h.1.current])]
    by_cases he : e.name = name
    · have hs : l.streamId = c.streamName name := by rw [h.1.1, he]
      rw [if_neg (by simp [hs, hn]), h.1.fromLinked hC]
      simp only
      rw [List.filter_cons_of_pos (by simp [mkRecord, he]), List.filter_cons_of_pos (by simpa using he), recordsFrom, ih,
        if_pos he, he]
      rfl
    · rw [if_neg he] at ih
      rw [List.filter_cons_of_neg (by simpa using he)]
      split
      · exact ih
      · rw [h.1.fromLinked hC]
        simp only
        rw [List.filter_cons_of_neg (by simp [mkRecord, he])]
        exact ih
  | _, [], _ :: _, h, _ => h.elim
  | _, _ :: _, [], h, _ => h.elim

/-- **C90**, nothing is missing: with a server that sends commit positions, the events of the log of any adapter that
belong to a stream are exactly those that `EventsByStream` returns, as long as that returns any (the stream was not deleted).
With `C43_save`, every acknowledged save is therefore in the log. -/
theorem C90_stream (C : Codec) (hC : C.Lawful) (c : Config) (hs : c.streamCommits = true) (ops : List EOp)
    (hp : ∀ op ∈ ops, Plain op.events) (a : Nat) (name : Str)
    (hne : readAllOf C c (World.run C c ops).server name ≠ []) :
    (logOf C c (World.run C c ops) a).filter (fun r => r.streamName = name) =
      readAllOf C c (World.run C c ops).server name := by
  obtain ⟨A, h, hA, hsub⟩ := deleted_sub (C := C) (c := c) ops hp
  rw [readAllOf_account hC h hA] at hne ⊢
  unfold Account.records at hne ⊢
  by_cases hd : name ∈ A.dead
  · rw [if_pos hd] at hne; exact absurd rfl hne
  · rw [if_neg hd]
    have hn : ¬ c.streamName name ∈ (World.run C c ops).deleted a := fun hx => hd ((h.dead_iff name).mp (hsub a _ hx))
    have := eventsLoop_stream hC hn h.log (fun e he => hA e he)
    rw [count_nil] at this
    rw [logOf_eq, this]
    have hg : c.gsn = id := by
      funext p
      simp [Config.gsn, hs]
    rw [hg]
    rfl

/-- **C90**, resuming: if the server gives every event a position of its own, then a reader that has handled events up to
and including `r` and reads on from the number after `r` gets exactly the rest. -/
theorem C90_resume (C : Codec) (hC : C.Lawful) (c : Config) (ops : List EOp) (hp : ∀ op ∈ ops, Plain op.events) (a : Nat)
    (hpos : ((World.run C c ops).server.log.map (·.commit)).Pairwise (· < ·)) (done rest : List Record) (r : Record)
    (h : logOf C c (World.run C c ops) a = done ++ r :: rest) :
    events C c ((World.run C c ops).deleted a) (World.run C c ops).server (r.gsn + 1) = ⟨rest, none⟩ := by
  have hinc : ((logOf C c (World.run C c ops) a).map (·.gsn)).Pairwise (· < ·) := by
    unfold logOf events Server.readAll
    rw [List.filter_eq_self.mpr (by simp)]
    generalize (World.run C c ops).deleted a = deleted
    have hmem : ∀ L : List Stored, ∀ r ∈ (eventsLoop C c deleted L).recs, ∃ s ∈ L, r.gsn = s.commit := by
      intro L r hr
      obtain ⟨s, h1, h2, _⟩ := eventsLoop_mem hr
      exact ⟨s, h1, fromLinked_gsn h2⟩
    have : ∀ L : List Stored, (L.map (·.commit)).Pairwise (· < ·) →
        ((eventsLoop C c deleted L).recs.map (·.gsn)).Pairwise (· < ·) := by
      intro L
      induction L with
      | nil => intro _; exact List.Pairwise.nil
      | cons e L ih =>
        intro hl
        rw [List.map_cons, List.pairwise_cons] at hl
        rw [eventsLoop]
        split
        · exact ih hl.2
        · split
          · exact ih hl.2
          · split
            · exact ih hl.2
            · cases hf : fromLinked C true e with
              | none => exact List.Pairwise.nil
              | some x =>
                simp only [List.map_cons, List.pairwise_cons]
                refine ⟨?_, ih hl.2⟩
                intro n hn
                obtain ⟨y, hy, rfl⟩ := List.mem_map.mp hn
                obtain ⟨s, h1, h2⟩ := hmem L y hy
                rw [fromLinked_gsn hf, h2]
                exact hl.1 _ (List.mem_map.mpr ⟨s, h1, rfl⟩)
    exact this _ hpos
  rw [(C90_views C hC c ops hp a).1, h]
  rw [h, List.map_append, List.map_cons, List.pairwise_append, List.pairwise_cons] at hinc
  obtain ⟨_, ⟨h2, _⟩, h3⟩ := hinc
  congr 1
  rw [List.filter_append, List.filter_cons_of_neg (by simp), List.filter_eq_nil_iff.mpr, List.nil_append,
    List.filter_eq_self.mpr]
  · intro x hx
    have := h2 x.gsn (List.mem_map.mpr ⟨x, hx, rfl⟩)
    simp only [decide_eq_true_eq]
    omega
  · intro x hx
    have := h3 x.gsn (List.mem_map.mpr ⟨x, hx, rfl⟩) r.gsn (by simp)
    simp only [decide_eq_true_eq]
    omega

/-- The demo history: two adapters read the same log; the second event on resumes. -/
example : (logOf demoCodec recording (World.run demoCodec recording demoOps) 0).map (fun r => (r.gsn, r.seq)) ≠ [] ∧
    ((World.run demoCodec recording demoOps).server.log.map (·.commit)).Pairwise (· < ·) ∧
    readAllOf demoCodec recording (World.run demoCodec recording demoOps).server sA ≠ [] := by
  refine ⟨by decide +kernel, by decide +kernel, by decide +kernel⟩

/-- The assumption about positions is needed: if the two events of a batch share a position, a reader that stopped between
them and resumes misses the second one. -/
theorem C90_shared_position :
    let w := World.run demoCodec shipped [.save none false .ok sA [evA [1], evA [2]] (fun _ => 5)]
    ∃ r x, logOf demoCodec shipped w 0 = [r, x] ∧
      events demoCodec shipped (w.deleted 0) w.server (r.gsn + 1) = ⟨[], none⟩ := by
  exact ⟨⟨sA, (evA [1]).event.aggType, (evA [1]).event.aggId, 5, 1, (evA [1]).now, (evA [1]).uuid,
      (evA [1]).event.evType, (evA [1]).event.data, (evA [1]).metadata⟩,
    ⟨sA, (evA [2]).event.aggType, (evA [2]).event.aggId, 5, 2, (evA [2]).now, (evA [2]).uuid,
      (evA [2]).event.evType, (evA [2]).event.data, (evA [2]).metadata⟩, by decide +kernel, by decide +kernel⟩

end RangeDB.EDB

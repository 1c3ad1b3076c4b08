import Verif.Spec.EsdbSequential
import Verif.Proof.EventStoreDB
import Verif.Proof.InMemoryDelete
import Verif.Proof.PostgresSequential

/-! # Helper lemmas: the EventStoreDB store next to the in-memory store -/

namespace RangeDB.EDB

open RangeDB.IM (Sim)

/-- All records of the account, in the order of their positions, those of `b` being there before. -/
def flat (view : EventRecord → EventRecord) : (b : List Entry) → List Entry → List Record
  | _, [] => []
  | b, e :: es => mkRecord e.name e.position (count b e.name + 1) (view e.event) :: flat view (b ++ [e]) es

theorem flat_append (view : EventRecord → EventRecord) : ∀ (E : List Entry) (b F : List Entry),
    flat view b (E ++ F) = flat view b E ++ flat view (b ++ E) F
  | [], b, F => by simp [flat]
  | e :: E, b, F => by simp [flat, flat_append view E]

theorem flat_stream (view : EventRecord → EventRecord) (st : Str) : ∀ (E b : List Entry),
    (flat view b E).filter (fun r => r.streamName = st) =
      recordsFrom view id (count b st + 1) (E.filter (fun e => e.name = st))
  | [], b => rfl
  | e :: E, b => by
    have ih := flat_stream view st E (b ++ [e])
    rw [count_append, count_single] at ih
    by_cases h : e.name = st
    · rw [if_pos h] at ih
      simp only [flat]
      rw [List.filter_cons_of_pos (by simp [mkRecord, h]), List.filter_cons_of_pos (by simp [h]), ih, recordsFrom, h]
      rfl
    · rw [if_neg h] at ih
      simp only [flat]
      rw [List.filter_cons_of_neg (by simp [mkRecord, h]), List.filter_cons_of_neg (by simp [h]), ih]

theorem flat_batch (view : EventRecord → EventRecord) (st : Str) : ∀ (ers : List EventRecord) (b : List Entry)
    (pos : Nat → Nat) (z : Serializer) (g q : Nat), q = count b st →
    (∀ er g q, z.view (mkRecord st g q er) = mkRecord st g q (view er)) →
    (flat view b (batch st ers pos)).map strip = ((numbered st g q ers).map z.view).map strip
  | [], _, _, _, _, _, _, _ => rfl
  | er :: ers, b, pos, z, g, q, hq, hv => by
    have ih := flat_batch view st ers (b ++ [⟨st, er, pos 0⟩]) (fun i => pos (i + 1)) z (g + 1) (q + 1)
      (by rw [count_append, count_single, if_pos rfl, hq]) hv
    simp only [batch, flat, numbered, List.map_cons, ih, hv, hq]
    rfl

theorem recordsFrom_strip (view : EventRecord → EventRecord) (g g' : Nat → Nat) : ∀ (es : List Entry) (k : Nat),
    (recordsFrom view g k es).map strip = (recordsFrom view g' k es).map strip
  | [], _ => rfl
  | e :: es, k => by simp only [recordsFrom, List.map_cons, recordsFrom_strip view g g' es]; rfl

theorem filter_strip (l : List Record) (p : Record → Bool) (hp : ∀ r, p (strip r) = p r) :
    (l.filter p).map strip = (l.map strip).filter p := by
  rw [List.filter_map]
  congr 1
  apply List.filter_congr
  intro r _
  exact (hp r).symm

/-- `Events` on a server that the account describes. -/
theorem eventsLoop_flat {C : Codec} (hC : C.Lawful) {c : Config} (hr : c.recordDeletedStreams = true) {deleted dead : List Str}
    (hd : ∀ n, c.streamName n ∈ deleted ↔ n ∈ dead) : ∀ {b E L}, Matches C c b E L →
    (∀ e ∈ E, e.event.event.evType.head? ≠ some 36) →
    eventsLoop C c deleted L = ⟨(flat C.view b E).filter (fun r => r.streamName ∉ dead), none⟩
  | _, [], [], _, _ => rfl
  | b, e :: E, l :: L, h, hE => by
    have ih := eventsLoop_flat hC hr hd h.2 (fun x hx => hE x (List.mem_cons_of_mem _ hx))
    have he := hE e List.mem_cons_self
    rw [eventsLoop, if_neg (by rw [h.1.internal he]; exact Bool.false_ne_true), if_neg (by simp [h.1.current]), hr,
      h.1.fromLinked hC, ih, h.1.1]
    simp only [flat, Bool.true_and, decide_eq_true_eq, hd]
    by_cases hx : e.name ∈ dead
    · rw [if_pos hx, List.filter_cons_of_neg (by simp [mkRecord, hx])]
    · rw [if_neg hx, List.filter_cons_of_pos (by simp [mkRecord, hx])]
      rfl
  | _, [], _ :: _, h, _ => h.elim
  | _, _ :: _, [], h, _ => h.elim

/-- `EventsByAggregateTypes` on a server that the account describes. -/
theorem typesLoop_flat {C : Codec} (hC : C.Lawful) {c : Config} (hr : c.recordDeletedStreams = true) {deleted dead : List Str}
    (hd : ∀ n, c.streamName n ∈ deleted ↔ n ∈ dead) (types : List Str) : ∀ {b E L}, Matches C c b E L →
    (∀ e ∈ E, e.event.event.evType.head? ≠ some 36) →
    typesLoop C c deleted 0 types L =
      ⟨((flat C.view b E).filter (fun r => r.streamName ∉ dead)).filter (fun r => r.aggType ∈ types), none⟩
  | _, [], [], _, _ => rfl
  | b, e :: E, l :: L, h, hE => by
    have ih := typesLoop_flat hC hr hd types h.2 (fun x hx => hE x (List.mem_cons_of_mem _ hx))
    have he := hE e List.mem_cons_self
    rw [typesLoop, if_neg (by rw [h.1.internal he]; exact Bool.false_ne_true), if_neg (by simp [h.1.current]), hr,
      h.1.fromLinked hC, ih, h.1.1]
    simp only [flat, Bool.true_and, decide_eq_true_eq, hd]
    by_cases hx : e.name ∈ dead
    · rw [if_pos hx, List.filter_cons_of_neg (by simp [mkRecord, hx])]
    · rw [if_neg hx, List.filter_cons_of_pos (by simp [mkRecord, hx])]
      by_cases ht : (C.view e.event).event.aggType ∈ types
      · rw [if_neg (by simpa [mkRecord] using ht), if_neg (by simp), List.filter_cons_of_pos (by simp [mkRecord, ht])]
        rfl
      · rw [if_pos (by simpa [mkRecord] using ht), List.filter_cons_of_neg (by simp [mkRecord, ht])]
  | _, [], _ :: _, h, _ => h.elim
  | _, _ :: _, [], h, _ => h.elim

/-- Both stores hold the same events. -/
structure Both (C : Codec) (c : Config) (z : Serializer) (w : World) (m : IM.State) (L : Log) (A : Account) : Prop where
  rel : Rel C c A w.server
  plain : A.Plain
  wf : L.WF
  sim : Sim z m L
  same : L.recs.map strip = ((flat C.view [] A.entries).filter (fun r => r.streamName ∉ A.dead)).map strip
  memo : c.recordDeletedStreams = true → ∀ n, c.streamName n ∈ w.deleted 0 ↔ n ∈ A.dead

theorem both_init (C : Codec) (c : Config) (z : Serializer) : Both C c z .init IM.init Log.empty .empty where
  rel := Rel.init C c
  plain := fun _ h => by cases h
  wf := Log.WF.empty
  sim := IM.sim_init
  same := rfl
  memo := fun _ n => by simp [World.init, Account.empty]

variable {C : Codec} {c : Config} {z : Serializer} {w : World} {m : IM.State} {L : Log} {A : Account}

/-- The streams. -/
theorem Both.stream (h : Both C c z w m L A) (g : Nat → Nat) (st : Str) :
    (L.stream st).map strip = (A.records C.view g st).map strip := by
  have hp : ∀ r, decide ((strip r).streamName = st) = decide (r.streamName = st) := fun r => rfl
  rw [Log.stream, filter_strip _ _ hp, h.same, ← filter_strip _ _ hp, List.filter_filter, Account.records]
  by_cases hd : st ∈ A.dead
  · rw [if_pos hd]
    have : (flat C.view [] A.entries).filter (fun r => decide (r.streamName = st) && decide (r.streamName ∉ A.dead)) = [] := by
      rw [List.filter_eq_nil_iff]
      intro r _
      simp only [Bool.and_eq_true, decide_eq_true_eq, not_and, Classical.not_not]
      rintro rfl
      exact hd
    rw [this]
  · rw [if_neg hd]
    have : (flat C.view [] A.entries).filter (fun r => decide (r.streamName = st) && decide (r.streamName ∉ A.dead)) =
        (flat C.view [] A.entries).filter (fun r => r.streamName = st) := by
      apply List.filter_congr
      intro r _
      by_cases hr : r.streamName = st
      · simp [hr, hd]
      · simp [hr]
    rw [this, flat_stream]
    exact recordsFrom_strip _ _ _ _ _

theorem Both.len (h : Both C c z w m L A) (st : Str) : L.streamLen st = if st ∈ A.dead then 0 else A.len st := by
  have := congrArg List.length (h.stream id st)
  simp only [List.length_map] at this
  rw [Log.streamLen, this, Account.records]
  split
  · rfl
  · rw [recordsFrom_length]; rfl

theorem firstProblem_fine {ser : Record → Option Str} {st : Str} {t i : Str} : ∀ (ers : List EventRecord),
    (∀ er ∈ ers, ∀ g q, (ser (mkRecord st g q er)).isSome) → (∀ er ∈ ers, er.event.aggType = t ∧ er.event.aggId = i) →
    ∀ (g q : Nat) (e : Option Nat) (j : Nat) (prev : Option EventRecord), (∀ k, e = some k → k = q) →
      (∀ x, prev = some x → x.event.aggType = t ∧ x.event.aggId = i) →
      firstProblem ser st none g q e j prev ers = none := by
  intro ers
  induction ers with
  | nil => intros; rfl
  | cons er ers ih =>
    intro hg ha g q e j prev he hp
    have hso := hg er (by simp) (g + 1) (q + 1)
    obtain ⟨a1, a2⟩ := ha er (by simp)
    have d1 : differs Event.aggType prev er = false := by
      cases prev with
      | none => rfl
      | some x => simp [differs, a1, (hp x rfl).1]
    have d2 : differs Event.aggId prev er = false := by
      cases prev with
      | none => rfl
      | some x => simp [differs, a2, (hp x rfl).2]
    have hpr : problem (ser (mkRecord st (g + 1) (q + 1) er)).isSome q e none j prev er = none := by
      unfold problem
      rw [hso, d1, d2]
      cases e with
      | none => simp [ctxDone]
      | some k => simp [ctxDone, he k rfl]
    simp only [firstProblem, hpr]
    refine ih (fun x hx => hg x (by simp [hx])) (fun x hx => ha x (by simp [hx])) _ _ _ _ _ ?_ ?_
    · intro k hk
      cases e with
      | none => simp at hk
      | some x => simp at hk; have := he x rfl; omega
    · intro x hx; simp at hx; subst hx; exact ⟨a1, a2⟩

theorem propose_fine {name t i : Str} : ∀ {ers : List EventRecord},
    (∀ er ∈ ers, er.event.aggType = t ∧ er.event.aggId = i) → (∀ er ∈ ers, ∃ b, C.enc name er = some b) →
    ∃ es, propose C name t i ers = .ok es
  | [], _, _ => ⟨_, rfl⟩
  | er :: ers, h, h' => by
    obtain ⟨h1, h2⟩ := h er List.mem_cons_self
    obtain ⟨b, h3⟩ := h' er List.mem_cons_self
    obtain ⟨es, he⟩ := propose_fine (name := name) (fun x hx => h x (List.mem_cons_of_mem _ hx))
      (fun x hx => h' x (List.mem_cons_of_mem _ hx))
    refine ⟨(er.event.evType, b) :: es, ?_⟩
    rw [propose, if_neg (by simp [h1]), if_neg (by simp [h2]), h3]
    simp only [h1, h2, he]

/-- A save. -/
theorem Both.save (hz : z.Lawful) (hC : C.Lawful)
    (hv : ∀ st er g q, z.view (mkRecord st g q er) = mkRecord st g q (C.view er)) (h : Both C c z w m L A)
    (name : Str) (e : Option Nat) (ers : List EventRecord) (pos : Nat → Nat) (hp : (ECall.save name e ers pos).Plain z C)
    (hd : name ∉ A.dead) :
    (ECall.save name e ers pos).reply C c w = (ECall.save name e ers pos).memory z m ∧
    ∃ L' A', Both C c z (w.step C c (ECall.save name e ers pos).eop) (IM.step z m (ECall.save name e ers pos).op) L' A' ∧
      A'.dead = A.dead := by
  obtain ⟨hp1, hp2, t, i, hti⟩ := hp
  have hlen : L.streamLen name = A.len name := by rw [h.len, if_neg hd]
  have hg : Guarded z name ers := Or.inr (Or.inl (fun er her g q => (hp2 er her).1 g q))
  cases ers with
  | nil =>
    have hm : IM.saveEvents z m name e none [] = ⟨m, .err .missingEvents, []⟩ := by
      simp [IM.saveEvents]
    refine ⟨by simp [ECall.reply, ECall.memory, saveEvents, hm], L, A, ?_, rfl⟩
    simp only [ECall.eop, ECall.op, World.step, IM.step, saveEvents, hm, id]
    exact h
  | cons er ers =>
    have hgs := getSeq_account hC h.rel h.plain name
    by_cases he : ∀ k, e = some k → k = L.streamLen name
    · -- accepted
      have hb : batchProblem z L name e none (er :: ers) = none :=
        firstProblem_fine _ (fun x hx => (hp2 x hx).1) hti _ _ _ _ _ he (fun x hx => by simp at hx)
      obtain ⟨i1, i2, _⟩ := (IM.saveEvents_spec hz h.wf h.sim name e none (er :: ers) hg (by simp)).1 hb
      have hck : checkExpected C c w.server false e name = none := by
        unfold checkExpected
        cases e with
        | none => rfl
        | some k =>
          have hk := he k rfl
          rw [hgs]
          by_cases h0 : A.len name = 0
          · simp [h0]; omega
          · simp [h0, hd]; omega
      obtain ⟨es, hes⟩ := propose_fine (C := C) (name := name) hti (fun x hx => (hp2 x hx).2)
      obtain ⟨a1, a2⟩ := hti er (by simp)
      have hsv : saveEvents C c w.server false id .ok e name (er :: ers) pos = appendEvents c w.server .ok e name es pos := by
        simp only [saveEvents, hck, a1, a2, hes, id]
      have hrev : ∀ r, revision e = some r → A.len name = r + 1 := by
        intro r hr
        cases e with
        | none => cases hr
        | some k =>
          have hk := he k rfl
          simp only [revision] at hr
          split at hr
          · simp only [Option.some.injEq, zeroBased] at hr
            split at hr <;> omega
          · cases hr
      rcases append_cases h.rel hes (revision e) pos with ⟨_, x⟩ | ⟨_, _, r, hr, x⟩ | ⟨s', x, _, _, hR⟩
      · exact absurd x hd
      · exact absurd (hrev r hr) x
      · have hap : appendEvents c w.server .ok e name es pos = (s', .ok (A.len name + (er :: ers).length)) := by
          simp only [appendEvents, x, deliver, oneBased, List.length_cons]
          congr 2
        refine ⟨?_, L.append z.view name (er :: ers), A.add name (er :: ers) pos, ?_, rfl⟩
        · simp only [ECall.reply, ECall.memory, hsv, hap, i1, hlen]
        · refine ⟨?_, h.plain.add hp1 pos, h.wf.append hz name _, i2, ?_, ?_⟩
          · simp only [ECall.eop, World.step, hsv, hap]; exact hR
          · have hfb := flat_batch C.view name (er :: ers) ([] ++ A.entries) pos z L.last (L.streamLen name)
              (by rw [hlen]; rfl) (hv name)
            have hall : (flat C.view ([] ++ A.entries) (batch name (er :: ers) pos)).filter (fun r => r.streamName ∉ A.dead) =
                flat C.view ([] ++ A.entries) (batch name (er :: ers) pos) := by
              rw [List.filter_eq_self]
              intro r hr
              have hr' : strip r ∈ ((numbered name L.last (L.streamLen name) (er :: ers)).map z.view).map strip := by
                rw [← hfb]; exact List.mem_map_of_mem hr
              obtain ⟨r1, hr1, hr2⟩ := List.mem_map.mp hr'
              obtain ⟨r0, hr0, rfl⟩ := List.mem_map.mp hr1
              have : r.streamName = name := by
                have e1 : (strip r).streamName = name := by
                  rw [← hr2]
                  show (z.view r0).streamName = name
                  rw [hz.streamName, numbered_stream hr0]
                exact e1
              simpa [this] using hd
            show (L.recs ++ (numbered name L.last (L.streamLen name) (er :: ers)).map z.view).map strip =
              ((flat C.view [] (A.entries ++ batch name (er :: ers) pos)).filter (fun r => r.streamName ∉ A.dead)).map strip
            rw [flat_append, List.map_append, List.filter_append, List.map_append, h.same, hall, hfb]
          · intro hr n
            exact h.memo hr n
    · -- stale
      have hex : ∃ k, e = some k ∧ k ≠ L.streamLen name := by
        cases e with
        | none => exact absurd (fun k hk => by cases hk) he
        | some k => exact ⟨k, rfl, fun hk => he (fun k' hk' => by cases hk'; exact hk)⟩
      obtain ⟨k, rfl, hk⟩ := hex
      have hb := PG.batchProblem_stale (z := z) (L := L) (st := name) (ers := er :: ers) (by simp) hk
      obtain ⟨i1, i2, _⟩ := (IM.saveEvents_spec hz h.wf h.sim name (some k) none (er :: ers) hg (by simp)).2 _ _ hb
      have hck : checkExpected C c w.server false (some k) name = some (.unexpected k (L.streamLen name)) := by
        unfold checkExpected
        rw [hgs, hlen]
        rw [hlen] at hk
        by_cases h0 : A.len name = 0
        · rw [h0] at hk; simp [h0, hk]
        · simp [h0, hd, hk]
      refine ⟨by simp [ECall.reply, ECall.memory, saveEvents, hck, i1], L, A, ?_, rfl⟩
      refine ⟨?_, h.plain, h.wf, i2, h.same, h.memo⟩
      simp only [ECall.eop, World.step, saveEvents, hck, id]
      exact h.rel

/-- A delete. -/
theorem Both.delete (hC : C.Lawful) (h : Both C c z w m L A)
    (name : Str) (n : Nat) (hn : 1 ≤ n) :
    (ECall.delete name n).reply C c w =
      (if IM.totalEventsInStream m name false = .ok 0 then .err .notFound else (ECall.delete name n).memory z m) ∧
    ∃ L' A', Both C c z (w.step C c (ECall.delete name n).eop) (IM.step z m (ECall.delete name n).op) L' A' ∧
      A'.dead = (if IM.totalEventsInStream m name false = .ok n then name :: A.dead else A.dead) := by
  have hzb : zeroBased n + 1 = n := by unfold zeroBased; split <;> omega
  have hl := h.len name
  have hgs := getSeq_account hC h.rel h.plain name
  obtain ⟨_, d2, d3, d4⟩ := IM.deleteStream_spec h.wf h.sim name n false
  rw [IM.total_spec h.sim]
  have keep : ∀ {m' : IM.State}, Sim z m' L → Both C c z w m' L A := fun hs =>
    ⟨h.rel, h.plain, h.wf, hs, h.same, h.memo⟩
  have hw : ∀ x : World, x.server = w.server → x.deleted = w.deleted → x = w := by
    intro x h1 h2; cases x; cases w; simp_all
  by_cases h0 : L.streamLen name = 0
  · -- no events
    have hrep : deleteStream C c w.server (w.deleted 0) n name = (w.server, w.deleted 0, some .notFound) := by
      unfold deleteStream
      rcases tombstone_cases h.rel name (zeroBased n) with ⟨x, _⟩ | ⟨x, hd, _⟩ | ⟨s', _, hd, hx, _⟩
      · rw [x]
      · rw [if_neg hd] at hl
        rw [x]
        simp only [hgs, if_pos (Or.inr (hl.symm.trans h0) : name ∈ A.dead ∨ A.len name = 0)]
      · rw [if_neg hd] at hl
        omega
    refine ⟨by simp only [ECall.reply, hrep, h0, if_true], L, A, ?_, ?_⟩
    · have : w.step C c (ECall.delete name n).eop = w := by
        refine hw _ ?_ ?_
        · simp only [ECall.eop, World.step, hrep]
        · simp only [ECall.eop, World.step, hrep]
          funext b
          split
          · rename_i hb; rw [hb]
          · rfl
      rw [this]
      exact keep (d4 rfl h0).1
    · rw [if_neg (fun hx => by have := Outcome.ok.inj hx; omega)]
  · have hd : name ∉ A.dead := fun hx => h0 (by rw [hl, if_pos hx])
    rw [if_neg hd] at hl
    rw [if_neg (fun hx => h0 (Outcome.ok.inj hx))]
    by_cases hx : n = L.streamLen name
    · obtain ⟨e1, e2⟩ := d3 rfl h0 hx
      rcases tombstone_cases h.rel name (zeroBased n) with ⟨_, x⟩ | ⟨_, _, x⟩ | ⟨s', x, _, _, hR⟩
      · exact absurd x hd
      · omega
      · have hrep : deleteStream C c w.server (w.deleted 0) n name =
            (s', if c.recordDeletedStreams then c.streamName name :: w.deleted 0 else w.deleted 0, none) := by
          unfold deleteStream; rw [x]
        refine ⟨by simp only [ECall.reply, hrep, ECall.memory, e1], L.delete name, A.kill name, ?_, ?_⟩
        · refine ⟨?_, h.plain, h.wf.delete name, e2, ?_, ?_⟩
          · simp only [ECall.eop, World.step, hrep]; exact hR
          · have hp : ∀ r, decide ((strip r).streamName ≠ name) = decide (r.streamName ≠ name) := fun r => rfl
            simp only [Log.delete, Account.kill]
            rw [filter_strip _ _ hp, h.same, ← filter_strip _ _ hp, List.filter_filter]
            congr 1
            apply List.filter_congr
            intro r _
            simp only [List.mem_cons, not_or, ne_eq, Bool.decide_and]
          · intro hr k
            simp only [ECall.eop, World.step, hrep, if_true, hr, Account.kill, List.mem_cons, streamName_inj, h.memo hr]
        · rw [if_pos (by rw [hx])]; rfl
    · have hm := d2 rfl h0 hx
      rcases tombstone_cases h.rel name (zeroBased n) with ⟨_, x⟩ | ⟨x, _, _⟩ | ⟨s', _, _, x, _⟩
      · exact absurd x hd
      · have hrep : deleteStream C c w.server (w.deleted 0) n name = (w.server, w.deleted 0, some (.unexpected n (L.streamLen name))) := by
          unfold deleteStream
          rw [x]
          simp only [hgs, if_neg (not_or.mpr ⟨hd, by omega⟩ : ¬ (name ∈ A.dead ∨ A.len name = 0)), hl]
        refine ⟨by simp only [ECall.reply, hrep, ECall.memory, hm], L, A, ?_, ?_⟩
        · have : w.step C c (ECall.delete name n).eop = w := by
            refine hw _ ?_ ?_
            · simp only [ECall.eop, World.step, hrep]
            · simp only [ECall.eop, World.step, hrep]
              funext b
              split
              · rename_i hb; rw [hb]
              · rfl
          rw [this]
          refine keep ?_
          simp only [ECall.op, IM.step, hm]
          exact h.sim
        · rw [if_neg (fun he => hx (Outcome.ok.inj he).symm)]
      · omega

/-- Many calls. -/
theorem Both.calls (hz : z.Lawful) (hC : C.Lawful)
    (hv : ∀ st er g q, z.view (mkRecord st g q er) = mkRecord st g q (C.view er)) : ∀ (calls : List ECall)
    {w : World} {m : IM.State} {L : Log} {A : Account}, Both C c z w m L A → (∀ x ∈ calls, x.Plain z C) →
    NoReuse z m A.dead calls →
    ∃ L' A', Both C c z ((calls.map ECall.eop).foldl (World.step C c) w) ((calls.map ECall.op).foldl (IM.step z) m) L' A' ∧
      ∀ more, NoReuse z m A.dead (calls ++ more) → NoReuse z ((calls.map ECall.op).foldl (IM.step z) m) A'.dead more
  | [], w, m, L, A, h, _, _ => ⟨L, A, h, fun _ hx => hx⟩
  | .save name e ers pos :: calls, w, m, L, A, h, hp, hn => by
    obtain ⟨_, L1, A1, h1, hd1⟩ := h.save hz hC hv name e ers pos (hp _ (by simp)) hn.1
    obtain ⟨L2, A2, h2, h3⟩ := Both.calls hz hC hv calls h1 (fun x hx => hp x (by simp [hx])) (by rw [hd1]; exact hn.2)
    exact ⟨L2, A2, h2, fun more hm => h3 more (by rw [hd1]; exact hm.2)⟩
  | .delete name n :: calls, w, m, L, A, h, hp, hn => by
    obtain ⟨_, L1, A1, h1, hd1⟩ := h.delete hC name n (hp (.delete name n) (by simp))
    obtain ⟨L2, A2, h2, h3⟩ := Both.calls hz hC hv calls h1 (fun x hx => hp x (by simp [hx])) (by rw [hd1]; exact hn)
    exact ⟨L2, A2, h2, fun more hm => h3 more (by rw [hd1]; exact hm)⟩

end RangeDB.EDB

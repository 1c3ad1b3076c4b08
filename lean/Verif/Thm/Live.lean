import Verif.Proof.Live
import Verif.Thm.Interfaces

/-!
# C163: what a live subscriber is told of an event is what a reader is shown

`imTold`, `ldTold` (Spec/Live) serve a request and list what the store hands to its subscribers meanwhile; `fl` and `hi` as in
C160.
-/

namespace RangeDB.Srv

open RangeDB.Json RangeDB.Http RangeDB.Rem

variable {fl : Str → Option Str} {N : Names}

theorem fine_shown {r : Record} (h : Fine fl r) : Shown fl r := fine_shown' h.1 (fine_readable h)

theorem given_snoc {rs : List Request} (hr : ∀ r ∈ rs, r.Given fl) {r : Request} (hq : r.Given fl) :
    ∀ x ∈ rs ++ [r], x.Given fl := by
  intro x h
  rcases List.mem_append.mp h with h | h
  · exact hr x h
  · rw [List.mem_singleton] at h; subst h; exact hq

/-- **C163**, in-memory store: after any requests, a request to save that is answered with success tells the subscribers exactly
its events, numbered, in order; all of them read them from their messages as they are read from then on, behind the earlier
events. Any other request tells them nothing. -/
theorem C163_inmemory (hl : ∀ t u, fl t = some u → scanNum u = some (u, []))
    (hi : ∀ t u, fl t = some u → fl u = some u) (other : Err → Str) (rs : List Request) (hr : ∀ r ∈ rs, r.Given fl)
    (r : Request) (hq : r.Given fl)
    (hb : (rs.map (fun r => (r.events fl).length)).sum + (r.events fl).length < 2 ^ 64) :
    let s := imServe other fl rs
    let told := (imTold other fl (s, []) r).2
    (imTold other fl (s, []) r).1 = imServe other fl (rs ++ [r]) ∧
    (r.Accepted (imSave (serializer unbound)) other fl s →
      (∃ n g, told = numbered r.stream g n (r.events fl)) ∧ (∀ x ∈ told, Shown fl x) ∧
      IM.events (serializer unbound) (imServe other fl (rs ++ [r])) none 0 =
        ⟨(IM.events (serializer unbound) s none 0).recs ++ told, none⟩) ∧
    (¬ r.Accepted (imSave (serializer unbound)) other fl s → told = []) := by
  intro s told
  refine ⟨by rw [imTold_split, imServe_snoc], ?_, ?_⟩
  · intro ha
    obtain ⟨e, k, hop, hok⟩ := (accepted_op _ _ _ _).1 ha
    have hsz := ops_size hl hi rs hr
    obtain ⟨⟨hv, hge⟩, _, _, _⟩ := op_facts hl hi hq hop
    have htold : told = (IM.saveEvents (serializer unbound) s r.stream e none (r.events fl)).broadcast := by
      show (imTold other fl (s, []) r).2 = _
      simp only [imTold, handle_op, hop, imTell, List.nil_append]
    have hnext : imServe other fl (rs ++ [r]) = (IM.saveEvents (serializer unbound) s r.stream e none (r.events fl)).state := by
      rw [imServe_snoc, handle_op, hop]
      rfl
    have hst : s = IM.run (goodZ unbound) (rs.filterMap (Request.op fl)) := (im_stored hl hi other rs hr (by omega)).2
    have hup := (im_run_congr (ty := unbound) (rs.filterMap (Request.op fl)) (fun op hop => by
      obtain ⟨r', hr1, hr2⟩ := List.mem_filterMap.mp hop
      exact (op_facts hl hi (hr r' hr1) hr2).1) (by omega)).2
    have hcg := im_saveEvents_congr hup hv e none (r.events fl) hge (by omega)
    simp only [imSave] at hok
    rw [hst, hcg] at hok
    obtain ⟨n, g, _, _, _, _, h5, h6⟩ := IM.C01_save_appends (goodZ_lawful unbound) (rs.filterMap (Request.op fl)) r.stream e
      none (r.events fl) k hok
    have hview : (goodZ unbound).view = id := rfl
    rw [hview, List.map_id] at h5 h6
    have htn : told = numbered r.stream g n (r.events fl) := by rw [htold, hst, hcg, h6]
    have hread : IM.events (serializer unbound) (imServe other fl (rs ++ [r])) none 0 =
        ⟨(IM.events (serializer unbound) s none 0).recs ++ told, none⟩ := by
      rw [hnext, htn, hst, hcg, im_events_deser, im_events_deser, h5]
    refine ⟨⟨n, g, htn⟩, ?_, hread⟩
    intro x hx
    have hs := (im_stored hl hi other _ (given_snoc hr hq) (by simpa using hb)).1
    have hm : x ∈ (IM.events (serializer unbound) (imServe other fl (rs ++ [r])) none 0).recs := by
      rw [hread]; exact List.mem_append_right _ hx
    exact fine_shown (kept_recordsByIDs hs _ _ _ 0 x hm)
  · intro ha
    show (imTold other fl (s, []) r).2 = _
    simp only [imTold, handle_op]
    cases hop : r.op fl with
    | none => rfl
    | some op =>
      cases op with
      | delete st n c => rfl
      | save st e c ers =>
        obtain ⟨rfl, rfl, rfl, _⟩ := op_saves hop
        simp only [imTell, List.nil_append]
        apply im_quiet
        intro k hk
        exact ha ((accepted_op _ _ _ _).2 ⟨e, k, hop, hk⟩)

/-- The readable events of the LevelDB store. -/
theorem ld_fine (hl : ∀ t u, fl t = some u → scanNum u = some (u, []))
    (hi : ∀ t u, fl t = some u → fl u = some u) (other : Err → Str) (rs : List Request) (hr : ∀ r ∈ rs, r.Given fl)
    (hn : ∀ r ∈ rs, N.streams r.stream ∧ ∀ er ∈ r.events fl, N.types er.event.aggType)
    (hb : (rs.map (fun r => (r.events fl).length)).sum < 2 ^ 64) :
    ldServe other fl rs = LD.run (goodZ unbound) (rs.filterMap (Request.op fl)) ∧
      ∀ it, LD.events (serializer unbound) (ldServe other fl rs) none 0 = .ok it → ∀ r ∈ it.recs, Fine fl r := by
  have hsz := ops_size hl hi rs hr
  have hops : ∀ op ∈ rs.filterMap (Request.op fl),
      GoodOp unbound op ∧ (∀ er ∈ evs op, Same fl er.metadata) ∧ op.NamesIn N := by
    intro op hop
    obtain ⟨r, hr1, hr2⟩ := List.mem_filterMap.mp hop
    have := op_facts hl hi (hr r hr1) hr2
    exact ⟨this.1, this.2.1, this.2.2.2 N (hn r hr1)⟩
  have hrun : ldServe other fl rs = LD.run (goodZ unbound) (rs.filterMap (Request.op fl)) := by
    rw [ld_serve, ld_run_congr _ (fun op hop => (hops op hop).1) (fun op hop => (hops op hop).2.2) (by omega)]
  have hsim := (LD.run_simA (N := N) (goodZ_lawful unbound) (rs.filterMap (Request.op fl))
    (fun op hop => (hops op hop).2.2) (by omega)).1
  refine ⟨hrun, ?_⟩
  intro it h
  rw [ld_events_deser, hrun, LD.simA_events hsim none 0 (by omega)] at h
  split at h
  · simp at h
  · have h := (Outcome.ok.inj h).symm
    subst h
    intro r hr'
    have hr' := (List.mem_filter.mp hr').1
    exact ⟨aRun_good unbound _ r hr', aRun_same _ (fun op hop => (hops op hop).2.1) r hr'⟩

/-- **C163**, LevelDB store: the same, for stream names and aggregate types that do not run into each other (C12), if reads
return (C14); and whether a request to save is accepted or not, what becomes readable is what the subscribers are told. -/
theorem C163_leveldb (hl : ∀ t u, fl t = some u → scanNum u = some (u, []))
    (hi : ∀ t u, fl t = some u → fl u = some u) (other : Err → Str) (rs : List Request) (hr : ∀ r ∈ rs, r.Given fl)
    (r : Request) (hq : r.Given fl)
    (hn : ∀ x ∈ rs ++ [r], N.streams x.stream ∧ ∀ er ∈ x.events fl, N.types er.event.aggType)
    (hb : (rs.map (fun r => (r.events fl).length)).sum + (r.events fl).length < 2 ^ 64) :
    let s := ldServe other fl rs
    let told := (ldTold other fl (s, []) r).2
    (ldTold other fl (s, []) r).1 = ldServe other fl (rs ++ [r]) ∧
    (r.Accepted (ldSave (serializer unbound)) other fl s →
      (∃ n g, told = numbered r.stream g n (r.events fl)) ∧ (∀ x ∈ told, Shown fl x) ∧
      ∃ old, LD.events (serializer unbound) s none 0 = .ok old ∧
        LD.events (serializer unbound) (ldServe other fl (rs ++ [r])) none 0 = .ok ⟨old.recs ++ told, none⟩) ∧
    (¬ r.Accepted (ldSave (serializer unbound)) other fl s → told = []) ∧
    (r.saves = true → ∀ old new, LD.events (serializer unbound) s none 0 = .ok old →
      LD.events (serializer unbound) (ldServe other fl (rs ++ [r])) none 0 = .ok new → new.recs = old.recs ++ told) := by
  intro s told
  have hrs : ∀ x ∈ rs, N.streams x.stream ∧ ∀ er ∈ x.events fl, N.types er.event.aggType :=
    fun x hx => hn x (List.mem_append_left _ hx)
  have hnr := hn r (by simp)
  have hacc : r.Accepted (ldSave (serializer unbound)) other fl s →
      (∃ n g, told = numbered r.stream g n (r.events fl)) ∧ (∀ x ∈ told, Shown fl x) ∧
      ∃ old, LD.events (serializer unbound) s none 0 = .ok old ∧
        LD.events (serializer unbound) (ldServe other fl (rs ++ [r])) none 0 = .ok ⟨old.recs ++ told, none⟩ := by
    intro ha
    obtain ⟨e, k, hop, hok⟩ := (accepted_op _ _ _ _).1 ha
    have hsz := ops_size hl hi rs hr
    obtain ⟨⟨hv, hge⟩, _, _, hnm⟩ := op_facts hl hi hq hop
    have htold : told = (LD.saveEvents (serializer unbound) s r.stream e none (r.events fl)).broadcast := by
      show (ldTold other fl (s, []) r).2 = _
      simp only [ldTold, handle_op, hop, ldTell, List.nil_append]
    have hnext : ldServe other fl (rs ++ [r]) = (LD.saveEvents (serializer unbound) s r.stream e none (r.events fl)).state := by
      rw [ldServe_snoc, handle_op, hop]
      rfl
    have hst : s = LD.run (goodZ unbound) (rs.filterMap (Request.op fl)) := (ld_fine hl hi other rs hr hrs (by omega)).1
    have hops : ∀ op ∈ rs.filterMap (Request.op fl), op.NamesIn N := by
      intro op hop
      obtain ⟨r', hr1, hr2⟩ := List.mem_filterMap.mp hop
      exact (op_facts hl hi (hr r' hr1) hr2).2.2.2 N (hrs r' hr1)
    have hcg := ld_saveEvents_congr (ty := unbound) _ hops hv e none (r.events fl) (hnm N hnr) hge (by omega)
    simp only [ldSave] at hok
    rw [hst, hcg] at hok
    have hmux : (LD.run (goodZ unbound) (rs.filterMap (Request.op fl))).muxHeld = false := by
      cases hm : (LD.run (goodZ unbound) (rs.filterMap (Request.op fl))).muxHeld with
      | false => rfl
      | true =>
        exfalso
        unfold LD.saveEvents at hok
        simp only [hm, if_true] at hok
        split at hok <;> simp at hok
    obtain ⟨_, _, g, _, h5, h6⟩ := (LD.C11_save_appends (goodZ_lawful unbound) _ hops r.stream e none (r.events fl)
      (hnm N hnr) (by omega) _ _ (by unfold LD.events; rw [hmux]; rfl) rfl).1 k hok
    have hview : (goodZ unbound).view = id := rfl
    rw [hview, List.map_id] at h5 h6
    have htn := htold
    rw [hst, hcg, h6] at htn
    have hold : LD.events (serializer unbound) s none 0 =
        .ok (LD.getEventsByLookup (goodZ unbound) (LD.run (goodZ unbound) (rs.filterMap (Request.op fl))).db none
          LD.allEventsPrefix 0) := by
      rw [ld_events_deser, hst]; unfold LD.events; rw [hmux]; rfl
    have hread : LD.events (serializer unbound) (ldServe other fl (rs ++ [r])) none 0 =
        .ok ⟨(LD.getEventsByLookup (goodZ unbound) (LD.run (goodZ unbound) (rs.filterMap (Request.op fl))).db none
          LD.allEventsPrefix 0).recs ++ told, none⟩ := by
      rw [hnext, hst, hcg, ld_events_deser, h5, htn]
    refine ⟨⟨_, g, htn⟩, ?_, _, hold, hread⟩
    intro x hx
    exact fine_shown ((ld_fine hl hi other _ (given_snoc hr hq) hn (by simpa using hb)).2 _ hread x
      (List.mem_append_right _ hx))
  have hnot : ¬ r.Accepted (ldSave (serializer unbound)) other fl s → told = [] := by
    intro ha
    show (ldTold other fl (s, []) r).2 = _
    simp only [ldTold, handle_op]
    cases hop : r.op fl with
    | none => rfl
    | some op =>
      cases op with
      | delete st n c => rfl
      | save st e c ers =>
        obtain ⟨rfl, rfl, rfl, _⟩ := op_saves hop
        simp only [ldTell, List.nil_append]
        refine (ld_quiet ?_).1
        intro k hk
        exact ha ((accepted_op _ _ _ _).2 ⟨e, k, hop, hk⟩)
  refine ⟨by rw [ldTold_split, ldServe_snoc], hacc, hnot, ?_⟩
  intro hsv old new h1 h2
  by_cases ha : r.Accepted (ldSave (serializer unbound)) other fl s
  · obtain ⟨_, _, old', h3, h4⟩ := hacc ha
    rw [h1] at h3
    rw [h2] at h4
    rw [Outcome.ok.inj h3, Outcome.ok.inj h4]
  · rw [hnot ha, List.append_nil]
    have hsame : ldServe other fl (rs ++ [r]) = s ∨ (ldServe other fl (rs ++ [r])).muxHeld = true := by
      rw [ldServe_snoc, handle_op]
      cases hop : r.op fl with
      | none => exact .inl rfl
      | some op =>
        cases op with
        | delete st n c => rw [op_delete hop] at hsv; simp at hsv
        | save st e c ers =>
          obtain ⟨rfl, rfl, rfl, _⟩ := op_saves hop
          refine (ld_quiet ?_).2
          intro k hk
          exact ha ((accepted_op _ _ _ _).2 ⟨e, k, hop, hk⟩)
    rcases hsame with h | h
    · rw [h, h1] at h2
      rw [Outcome.ok.inj h2]
    · simp [LD.events, h] at h2

theorem ld_free (other : Err → Str) (rs : List Request) (hs : ∀ r ∈ rs, r.saves = true) :
    (ldServe other fl rs).muxHeld = false ∧ (ldServe other fl rs).txOpen = false := by
  have : ∀ (rs : List Request), (∀ r ∈ rs, r.saves = true) → ∀ s : LD.State, s.muxHeld = false ∧ s.txOpen = false →
      (rs.foldl (Request.handle (ldSave (serializer unbound)) (ldDelete (serializer unbound)) other fl) s).muxHeld = false ∧
      (rs.foldl (Request.handle (ldSave (serializer unbound)) (ldDelete (serializer unbound)) other fl) s).txOpen = false := by
    intro rs
    induction rs with
    | nil => intro _ s h; exact h
    | cons r rs ih =>
      intro hs s h
      rw [List.foldl_cons]
      refine ih (fun x hx => hs x (by simp [hx])) _ ?_
      rw [handle_op]
      cases hop : r.op fl with
      | none => exact h
      | some op =>
        cases op with
        | delete st n c =>
          have := hs r (by simp)
          rw [op_delete hop] at this; simp at this
        | save st e c ers =>
          simp only [ldSave, LD.saveEvents, h.1, h.2]
          split
          · exact h
          · simp only [Bool.false_eq_true, if_false]
            split
            · exact h
            · exact ⟨rfl, rfl⟩
  exact this rs hs _ ⟨rfl, rfl⟩

/-- **C163**, LevelDB store, whole histories: after any requests to save, over HTTP and gRPC, accepted and refused, the readable
events are the events that the subscribers were told, one by one and in order; each of them was shown. -/
theorem C163_history (hl : ∀ t u, fl t = some u → scanNum u = some (u, []))
    (hi : ∀ t u, fl t = some u → fl u = some u) (other : Err → Str) (rs : List Request) (hr : ∀ r ∈ rs, r.Given fl)
    (hs : ∀ r ∈ rs, r.saves = true)
    (hn : ∀ x ∈ rs, N.streams x.stream ∧ ∀ er ∈ x.events fl, N.types er.event.aggType)
    (hb : (rs.map (fun r => (r.events fl).length)).sum < 2 ^ 64) :
    ∃ it, LD.events (serializer unbound) (ldServe other fl rs) none 0 = .ok it ∧ it.err = none ∧
      it.recs = (rs.foldl (ldTold other fl) (LD.init, [])).2 ∧ ∀ x ∈ it.recs, Shown fl x := by
  have hread : ∀ rs : List Request, (∀ r ∈ rs, r.saves = true) → ∃ it, LD.events (serializer unbound) (ldServe other fl rs) none 0 = .ok it := by
    intro rs hs
    exact ⟨_, by unfold LD.events; rw [(ld_free other rs hs).1]; rfl⟩
  have hstate : ∀ rs : List Request, (rs.foldl (ldTold other fl) (LD.init, [])).1 = ldServe other fl rs := by
    intro rs
    have : ∀ (rs : List Request) (p : LD.State × List Record), (rs.foldl (ldTold other fl) p).1 =
        rs.foldl (Request.handle (ldSave (serializer unbound)) (ldDelete (serializer unbound)) other fl) p.1 := by
      intro rs
      induction rs with
      | nil => intro p; rfl
      | cons r rs ih => intro p; rw [List.foldl_cons, List.foldl_cons, ih, ldTold_split]
    exact this rs _
  have key : ∀ n (rs : List Request), rs.length = n → (∀ r ∈ rs, r.Given fl) → (∀ r ∈ rs, r.saves = true) →
      (∀ x ∈ rs, N.streams x.stream ∧ ∀ er ∈ x.events fl, N.types er.event.aggType) →
      (rs.map (fun r => (r.events fl).length)).sum < 2 ^ 64 →
      ∀ it, LD.events (serializer unbound) (ldServe other fl rs) none 0 = .ok it →
        it.recs = (rs.foldl (ldTold other fl) (LD.init, [])).2 := by
    intro n
    induction n with
    | zero =>
      intro rs hlen _ _ _ _ it h
      rw [List.length_eq_zero_iff] at hlen
      subst hlen
      have : LD.events (serializer unbound) (ldServe other fl []) none 0 = .ok ⟨[], none⟩ := rfl
      rw [this] at h
      rw [← Outcome.ok.inj h]; rfl
    | succ n ih =>
      intro rs hlen hr hs hn hb it h
      have hne : rs ≠ [] := by intro h; rw [h] at hlen; simp at hlen
      obtain ⟨qs, q, rfl⟩ : ∃ qs q, rs = qs ++ [q] := ⟨_, _, (List.dropLast_concat_getLast hne).symm⟩
      simp only [List.length_append, List.length_cons, List.length_nil, Nat.zero_add, Nat.add_right_cancel_iff] at hlen
      simp only [List.map_append, List.map_cons, List.map_nil, List.sum_append, List.sum_cons, List.sum_nil, Nat.add_zero] at hb
      have m1 : ∀ x, x ∈ qs → x ∈ qs ++ [q] := fun x hx => List.mem_append_left _ hx
      have m2 : q ∈ qs ++ [q] := by simp
      obtain ⟨old, hold⟩ := hread qs (fun x hx => hs x (m1 x hx))
      have h1 := ih qs hlen (fun x hx => hr x (m1 x hx)) (fun x hx => hs x (m1 x hx)) (fun x hx => hn x (m1 x hx)) (by omega) old hold
      have h2 := (C163_leveldb hl hi other qs (fun x hx => hr x (m1 x hx)) q (hr q m2) hn hb).2.2.2 (hs q m2) old it hold h
      have hp : qs.foldl (ldTold other fl) (LD.init, []) = (ldServe other fl qs, (qs.foldl (ldTold other fl) (LD.init, [])).2) := by
        rw [← hstate qs]
      rw [h2, List.foldl_append, List.foldl_cons, List.foldl_nil, hp, ← h1, ldTold_split other (ldServe other fl qs) old.recs]
  obtain ⟨it, hit⟩ := hread rs hs
  refine ⟨it, hit, ((C160_leveldb hl hi other rs hr hn hb).1 0 it (by omega) hit).1, key _ rs rfl hr hs hn hb it hit, ?_⟩
  intro x hx
  exact fine_shown ((ld_fine hl hi other rs hr hn hb).2 it hit x hx)

/-! ### The hypotheses are met -/

/-- Both requests of C160 are accepted, and the subscribers are told both events. -/
example : let s := imServe demoOther demoFl [demoPost]
    (imTold demoOther demoFl (IM.init, []) demoPost).2.map (fun r => (r.evType, r.seq)) = [([69], 1)] ∧
    (imTold demoOther demoFl (s, []) demoMessage).2.map (fun r => (r.evType, r.seq)) = [([69], 2)] ∧
    (([demoPost, demoMessage] : List Request).foldl (ldTold demoOther demoFl) (LD.init, [])).2.map (fun r => (r.evType, r.seq)) =
      [([69], 1), ([69], 2)] := by decide +kernel

/-- Two events of different aggregate types: the second is refused. -/
def demoMixed : Request := .message [65, 33, 49] none
  [⟨[65], [49], [69], [123, 125], [], [118], 8⟩, ⟨[66], [49], [69], [123, 125], [], [119], 9⟩]

theorem demoMixed_given : demoMixed.Given demoFl where
  data := by decide +kernel
  ids := by decide +kernel
  path := by intro q env h; simp [demoMixed] at h

/-- In memory the first event of a refused message is read by everyone and told to no one (C06); LevelDB shows and tells
nothing. -/
theorem C163_untold :
    demoMixed.Given demoFl ∧
    (imTold demoOther demoFl (IM.init, []) demoMixed).2 = [] ∧
    (IM.events (serializer unbound) (imServe demoOther demoFl [demoMixed]) none 0).recs.length = 1 ∧
    (ldTold demoOther demoFl (LD.init, []) demoMixed).2 = [] ∧
    LD.events (serializer unbound) (ldServe demoOther demoFl [demoMixed]) none 0 = .ok ⟨[], none⟩ := by
  refine ⟨demoMixed_given, ?_⟩
  decide +kernel

end RangeDB.Srv

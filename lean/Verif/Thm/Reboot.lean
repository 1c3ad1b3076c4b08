import Verif.Proof.Reboot
import Verif.Thm.Live

/-!
# C164: what a server acknowledged over HTTP or gRPC survives its end

One server with a LevelDB store, requests over HTTP and gRPC in any order, and the process may end or be killed at any moment, any
number of times. `fl` is what `float64` makes of a number literal (C160).
-/

namespace RangeDB.Srv

open RangeDB.Json RangeDB.Http RangeDB.Rem

variable {fl : Str → Option Str} {N : Names}

/-- **C164**, both interfaces: after any life every read that returns gives the same records over HTTP and over gRPC, all of them and
no error (but the missing stream of `EventsByStream`). -/
theorem C164_agree (hl : ∀ t u, fl t = some u → scanNum u = some (u, []))
    (hi : ∀ t u, fl t = some u → fl u = some u) (other : Err → Str) (ts : List Turn) (ht : ∀ t ∈ ts, t.Given N fl)
    (hb : (ts.map (Turn.size fl)).sum < 2 ^ 64) :
    (∀ g it, g < 2 ^ 64 → LD.events (serializer unbound) (ldLife other fl ts) none g = .ok it →
      it.err = none ∧ Agree other fl it) ∧
    (∀ n st it, N.streams st → LD.eventsByStream (serializer unbound) (ldLife other fl ts) none n st = .ok it →
      it.err = none → Agree other fl it) ∧
    (∀ g types it, g < 2 ^ 64 → types.Nodup → (∀ t ∈ types, N.types t) →
      LD.eventsByAggregateTypes (serializer unbound) (ldLife other fl ts) (fun _ => none) g types = .ok it →
      it.err = none ∧ Agree other fl it) := by
  obtain ⟨A, h, _⟩ := life_holds hl hi other ts ht hb
  refine ⟨?_, ?_, ?_⟩
  · intro g it hg hit
    rw [holds_events h g hg] at hit
    split at hit
    · simp at hit
    · have hit := (Outcome.ok.inj hit).symm
      subst hit
      exact ⟨rfl, agree_of_fine other rfl (fun r hr => h.fine r (List.mem_filter.mp hr).1)⟩
  · intro n st it hst hit he
    unfold LD.eventsByStream at hit
    split at hit
    · simp at hit
    · have hit := (Outcome.ok.inj hit).symm
      rw [prefix_deser, LD.prefix_stream h.sim.sim h.sim.wf none n hst] at hit
      refine agree_of_fine other he ?_
      rw [hit]
      split
      · simp
      · intro r hr
        exact h.fine r (List.mem_filter.mp (List.mem_filter.mp hr).1).1
  · intro g types it hg hd hty hit
    rw [types_deser] at hit
    by_cases hne : types = []
    · subst hne
      have : it = ⟨[], none⟩ := by
        unfold LD.eventsByAggregateTypes at hit
        simp only [ne_eq, not_true, and_false, if_false, Outcome.ok.injEq] at hit
        rw [← hit]
        rfl
      subst this
      exact ⟨rfl, agree_of_fine other rfl (by simp)⟩
    · have hm : (ldLife other fl ts).muxHeld = false := by
        cases hm : (ldLife other fl ts).muxHeld with
        | false => rfl
        | true =>
          exfalso
          unfold LD.eventsByAggregateTypes at hit
          rw [if_pos ⟨hm, hne⟩] at hit
          simp at hit
      rw [LD.eventsByAggregateTypes_spec h.sim.sim h.sim.wf g hg types hd hty hm] at hit
      have hit := (Outcome.ok.inj hit).symm
      subst hit
      exact ⟨rfl, agree_of_fine other rfl (fun r hr => h.fine r (List.mem_filter.mp hr).1)⟩

/-- **C164**, nothing acknowledged is lost: the events of a request to save that was answered with success are read ever after, in
the order and with the numbers they were given, through all restarts and kills, unless somebody asks to delete their stream; over
HTTP and over gRPC alike. -/
theorem C164_acknowledged (hl : ∀ t u, fl t = some u → scanNum u = some (u, []))
    (hi : ∀ t u, fl t = some u → fl u = some u) (other : Err → Str) (before after : List Turn) (r : Request)
    (ht : ∀ t ∈ before ++ Turn.serve r :: after, t.Given N fl)
    (hb : ((before ++ .serve r :: after).map (Turn.size fl)).sum < 2 ^ 64)
    (ha : r.Accepted (ldSave (serializer unbound)) other fl (ldLife other fl before))
    (hk : ∀ t ∈ after, t.Keeps r.stream) :
    ∃ old g n,
      LD.events (serializer unbound) (ldLife other fl before) none 0 = .ok ⟨old, none⟩ ∧
      n = (old.filter (fun x => x.streamName = r.stream)).length ∧ (∀ x ∈ old, x.gsn ≤ g) ∧
      LD.events (serializer unbound) (ldLife other fl (before ++ [.serve r])) none 0 =
        .ok ⟨old ++ numbered r.stream g n (r.events fl), none⟩ ∧
      ∀ it, LD.events (serializer unbound) (ldLife other fl (before ++ .serve r :: after)) none 0 = .ok it →
        (∀ x ∈ numbered r.stream g n (r.events fl), x ∈ it.recs) ∧ Agree other fl it := by
  have hb0 := hb
  simp only [List.map_append, List.map_cons, List.sum_append, List.sum_cons] at hb
  have hsz : (Turn.serve r).size fl = (r.events fl).length := rfl
  rw [hsz] at hb
  have hr := ht (.serve r) (by simp) r rfl
  obtain ⟨A, hA, hle⟩ := life_holds hl hi other before (fun t h => ht t (by simp [h])) (by omega)
  obtain ⟨e, k, hop, hok⟩ := (accepted_op _ _ _ _).1 ha
  obtain ⟨⟨hv, hge⟩, _, _, hnm⟩ := op_facts hl hi hr.1 hop
  simp only [ldSave] at hok
  rw [save_congr hA.sim hv e none _ (hnm N hr.2) hge (by omega),
    LD.simA_save (goodZ_lawful unbound) hA.sim _ e none _ (hnm N hr.2) (by omega)] at hok
  have hstep := holds_step hl hi hA hr.1 hr.2 hop (by omega)
  have hlife : ldLife other fl (before ++ [.serve r]) =
      LD.step (serializer unbound) (ldLife other fl before) (.save r.stream e none (r.events fl)) := by
    simp only [ldLife, List.foldl_append, List.foldl_cons, List.foldl_nil, serve_cases, hop]
  unfold aSaveOut at hok
  split at hok
  · simp at hok
  · rename_i hne
    split at hok
    · simp at hok
    · rename_i hlk
      split at hok
      · rename_i hp
        have hst : A.stuck = false := by
          cases hs : A.stuck with
          | false => rfl
          | true => exact absurd (hA.sim.stuck hs) hlk
        have hA1 : aStep (goodZ unbound) A (.save r.stream e none (r.events fl)) =
            { A with log := A.log.append (goodZ unbound).view r.stream (r.events fl) } := by
          simp only [aStep, if_neg hne, if_neg hlk, hp]
        have hview : (goodZ unbound).view = id := rfl
        rw [hA1] at hstep
        refine ⟨A.log.recs, A.log.last, A.log.streamLen r.stream, ?_, rfl, ?_, ?_, ?_⟩
        · rw [holds_events hA 0 (by decide), hst]
          simp
        · exact fun x hx => (hA.sim.wf.bounded x hx).2
        · rw [hlife, holds_events hstep.1 0 (by decide)]
          simp only [hst, Log.append, hview, List.map_id, Bool.false_eq_true, if_false, ge_iff_le, Nat.zero_le, decide_true]
          rw [List.filter_eq_self.mpr (by simp)]
        · intro it hit
          obtain ⟨A', h', _, hkeep⟩ := turns_hold hl hi other after hstep.1 (fun t h => ht t (by simp [h]))
            (by have := hstep.2; simp only [] at this; omega)
          rw [← hlife] at h'
          have hend : after.foldl (Turn.after other fl) (ldLife other fl (before ++ [.serve r])) =
              ldLife other fl (before ++ .serve r :: after) := by simp [ldLife]
          rw [hend] at h'
          obtain ⟨rfl, _⟩ := holds_all h' hit
          refine ⟨?_, ((C164_agree hl hi other _ ht hb0).1 0 _ (by decide) hit).2⟩
          intro x hx
          refine hkeep x ?_ ?_
          · simp only [Log.append, hview, List.map_id]
            exact List.mem_append_right _ hx
          · rw [numbered_stream hx]
            exact hk
      · simp at hok

/-- **C164**, all or nothing: a server that is killed while it handles a request to save shows, when it is started again, what it
showed before, or all events of the request behind it; over HTTP and over gRPC alike. -/
theorem C164_killed (hl : ∀ t u, fl t = some u → scanNum u = some (u, []))
    (hi : ∀ t u, fl t = some u → fl u = some u) (other : Err → Str) (ts : List Turn) (r : Request) (n : Nat)
    (hs : r.saves = true) (ht : ∀ t ∈ ts ++ [Turn.killed r n], t.Given N fl)
    (hb : ((ts ++ [Turn.killed r n]).map (Turn.size fl)).sum < 2 ^ 64) (old : Iter)
    (hold : LD.events (serializer unbound) (ldLife other fl ts) none 0 = .ok old) :
    ∃ new, LD.events (serializer unbound) (ldLife other fl (ts ++ [.killed r n])) none 0 = .ok new ∧ Agree other fl new ∧
      (new = old ∨
        ∃ g, (∀ x ∈ old.recs, x.gsn ≤ g) ∧ new = ⟨old.recs ++ numbered r.stream g
          (old.recs.filter (fun x => x.streamName = r.stream)).length (r.events fl), none⟩) := by
  have hb0 := hb
  simp only [List.map_append, List.map_cons, List.map_nil, List.sum_append, List.sum_cons, List.sum_nil, Nat.add_zero] at hb
  obtain ⟨A, hA, hle⟩ := life_holds hl hi other ts (fun t h => ht t (by simp [h])) (by omega)
  obtain ⟨A', h', _, hstarts, hlog⟩ := turn_holds hl hi other hA (.killed r n) (ht _ (by simp)) (by omega)
  have hend : (Turn.killed r n).after other fl (ldLife other fl ts) = ldLife other fl (ts ++ [.killed r n]) := by
    simp [ldLife]
  rw [hend] at h'
  obtain ⟨rfl, _⟩ := holds_all hA hold
  have hread : LD.events (serializer unbound) (ldLife other fl (ts ++ [.killed r n])) none 0 = .ok ⟨A'.log.recs, none⟩ := by
    rw [holds_events h' 0 (by decide), (hstarts rfl).1]
    simp
  refine ⟨_, hread, ((C164_agree hl hi other _ ht hb0).1 0 _ (by decide) hread).2, ?_⟩
  rcases hlog with hlog | ⟨r', op, hr', hop, hlog⟩
  · exact Or.inl (by rw [hlog])
  · cases hr'
    cases op with
    | delete st k c =>
      rw [op_delete hop] at hs
      simp at hs
    | save st e c ers =>
      obtain ⟨rfl, rfl, rfl, _⟩ := op_saves hop
      rw [hlog]
      simp only [aStep]
      split
      · exact Or.inl rfl
      · split
        · exact Or.inl rfl
        · split
          · refine Or.inr ⟨A.log.last, fun x hx => (hA.sim.wf.bounded x hx).2, ?_⟩
            have hview : (goodZ unbound).view = id := rfl
            simp only [Log.append, hview, List.map_id]
            rfl
          · exact Or.inl rfl

/-- **C164**, a restart mends: a server that was just started answers every request and every read (C14). -/
theorem C164_works (other : Err → Str) (ts : List Turn) (t : Turn) (hs : t.starts = true) :
    (∀ st expected cancelAt ers,
      (LD.saveEvents (serializer unbound) (ldLife other fl (ts ++ [t])) st expected cancelAt ers).out ≠ .blocked) ∧
    (∀ st expected cancelled,
      (LD.deleteStream (serializer unbound) (ldLife other fl (ts ++ [t])) st expected cancelled).2 ≠ .blocked) ∧
    (∀ c g, LD.events (serializer unbound) (ldLife other fl (ts ++ [t])) c g ≠ .blocked) ∧
    (∀ c g types, LD.eventsByAggregateTypes (serializer unbound) (ldLife other fl (ts ++ [t])) c g types ≠ .blocked) ∧
    (∀ c n st, LD.eventsByStream (serializer unbound) (ldLife other fl (ts ++ [t])) c n st ≠ .blocked) := by
  have hdb : ∃ db, ldLife other fl (ts ++ [t]) = LD.reopen db := by
    rw [ldLife, List.foldl_append]
    cases t with
    | serve r => simp [Turn.starts] at hs
    | restart => exact ⟨_, rfl⟩
    | killed r n => exact ⟨_, rfl⟩
  obtain ⟨db, hdb⟩ := hdb
  rw [hdb]
  refine ⟨?_, ?_, ?_, ?_, ?_⟩
  · intro st e c ers
    simp only [LD.saveEvents, LD.reopen, Bool.false_eq_true, if_false]
    split
    · simp
    · split <;> simp
  · intro st e c
    simp only [LD.deleteStream, LD.reopen, Bool.false_eq_true, if_false]
    repeat' split
    all_goals simp
  · intro c g
    simp [LD.events, LD.reopen]
  · intro c g types
    simp [LD.eventsByAggregateTypes, LD.reopen]
  · intro c n st
    simp [LD.eventsByStream, LD.reopen]

/-! ### The hypotheses are met -/

/-- A delete with a wrong expected number, after which the store hangs until the server is started again (C14). -/
def demoBadDelete : Request := .deleteMessage [65, 33, 49] 9

/-- An event is posted, a delete fails, the server is started again, it is killed early in a message, and late in the same one. -/
def demoTurns : List Turn :=
  [.serve demoPost, .serve demoBadDelete, .restart, .killed demoMessage 1, .killed demoMessage 9]

theorem demoBadDelete_given : demoBadDelete.Given demoFl where
  data := by decide +kernel
  ids := by decide +kernel
  path := by intro q env h; simp [demoBadDelete] at h

theorem demoTurns_given : ∀ t ∈ demoTurns, t.Given Names.plain demoFl := by
  have hp : demoPost.Given demoFl ∧ NoSep demoPost.stream = true ∧ ∀ er ∈ demoPost.events demoFl, NoSep er.event.aggType = true := ⟨demoPost_given, by decide, by decide +kernel⟩
  have hm : demoMessage.Given demoFl ∧ NoSep demoMessage.stream = true ∧ ∀ er ∈ demoMessage.events demoFl, NoSep er.event.aggType = true := ⟨demoMessage_given, by decide, by decide +kernel⟩
  have hd : demoBadDelete.Given demoFl ∧ NoSep demoBadDelete.stream = true ∧ ∀ er ∈ demoBadDelete.events demoFl, NoSep er.event.aggType = true := ⟨demoBadDelete_given, by decide, by decide +kernel⟩
  intro t ht r hr
  simp only [demoTurns, List.mem_cons, List.not_mem_nil, or_false] at ht
  rcases ht with rfl | rfl | rfl | rfl | rfl <;> simp only [Turn.request, Option.some.injEq, reduceCtorEq] at hr <;>
    subst hr <;> assumption

example : (∀ t ∈ demoTurns, t.Given Names.plain demoFl) ∧ (demoTurns.map (Turn.size demoFl)).sum < 2 ^ 64 ∧
    (∀ t ∈ demoTurns.drop 2, t.Keeps demoPost.stream) := by
  refine ⟨demoTurns_given, by decide +kernel, ?_⟩
  intro t ht r hr hs
  simp only [demoTurns, List.drop_succ_cons, List.drop_zero, List.mem_cons, List.not_mem_nil, or_false] at ht
  rcases ht with rfl | rfl | rfl <;> simp only [Turn.request, Option.some.injEq, reduceCtorEq] at hr <;>
    subst hr <;> simp [Request.saves, demoMessage] at hs

example : demoPost.Accepted (ldSave (serializer unbound)) demoOther demoFl (ldLife demoOther demoFl []) := by
  refine ⟨_, rfl, ?_⟩
  decide +kernel

example : ∀ n, ((match LD.events (serializer unbound) (ldLife demoOther demoFl (demoTurns.take n)) none 0 with
    | .ok it => it.recs.map (fun r => (r.gsn, r.seq))
    | _ => []) = (if n = 0 then [] else if n < 5 then [(1, 1)] else [(1, 1), (2, 2)])) ∨ 5 < n := by
  intro n
  match n with
  | 0 | 1 | 2 | 3 | 4 | 5 => left; decide +kernel
  | n + 6 => right; omega

end RangeDB.Srv

import Verif.Spec.RemoteHistory
import Verif.Thm.Remote
import Verif.Proof.PostgresSequential

/-!
# Proofs: a remote store and a store in the program
-/

namespace RangeDB.Rem

open RangeDB.Json RangeDB.Http

/-! ## What the server holds -/

/-- The record as the server, which has no Go type for it, holds it. -/
def sent (r : Record) : Record := { r with data := inOrder r.data }

def sentLog (L : Log) : Log := { L with recs := L.recs.map sent }

theorem numbered_sent (st : Str) (ers : List EventRecord) : ∀ g n : Nat,
    numbered st g n (ers.map arrives) = (numbered st g n ers).map sent := by
  induction ers with
  | nil => intros; rfl
  | cons er ers ih => intro g n; simp only [List.map_cons, numbered, ih]; rfl

theorem sentLog_stream (L : Log) (n : Str) : (sentLog L).stream n = (L.stream n).map sent := by
  simp only [Log.stream, sentLog, List.filter_map]; rfl

theorem sentLog_streamLen (L : Log) (n : Str) : (sentLog L).streamLen n = L.streamLen n := by
  simp [Log.streamLen, sentLog_stream]

theorem sentLog_delete (L : Log) (st : Str) : (sentLog L).delete st = sentLog (L.delete st) := by
  simp only [Log.delete, sentLog, List.filter_map]; rfl

theorem sentLog_append (L : Log) (st : Str) (ers : List EventRecord) :
    (sentLog L).append id st (ers.map arrives) = sentLog (L.append id st ers) := by
  simp only [Log.append, sentLog_streamLen, numbered_sent, List.map_id, List.length_map]
  simp only [sentLog, List.map_append]

theorem sentLog_wf {L : Log} (h : L.WF) : (sentLog L).WF where
  sorted := by simp only [sentLog, List.pairwise_map]; exact h.sorted
  bounded := by
    intro r hr
    obtain ⟨x, hx, rfl⟩ := List.mem_map.mp hr
    exact h.bounded x hx
  contiguous := by
    intro name
    rw [sentLog_stream, sentLog_streamLen, List.map_map]
    exact h.contiguous name

/-- The client reads what was saved. -/
theorem numbered_back {ty : Types} {fl : Str → Option Str} {st : Str} (hv : Valid st) (ers : List EventRecord)
    (h : ∀ er ∈ ers, RoundTrips ty fl er) : ∀ g n : Nat, ∀ r ∈ numbered st g n ers,
      toRecord ty fl (sent r) = some r ∧ Servable (sent r) := by
  induction ers with
  | nil => intro g n r hr; simp [numbered] at hr
  | cons er ers ih =>
    intro g n r hr
    simp only [numbered, List.mem_cons] at hr
    rcases hr with rfl | hr
    · have hr := h er (by simp)
      have hm := numbered_map st [er] (fun x hx => by simp at hx; rw [hx]; exact hr) g n
      simp only [numbered, List.map_cons, List.map_nil, List.cons.injEq, and_true] at hm
      refine ⟨hm, ?_⟩
      obtain ⟨d, hd, _, _, ed, _⟩ := hr.data
      obtain ⟨m, hm, _, _, em⟩ := hr.metadata
      refine ⟨hv, hr.aggType, hr.aggId, hr.uuid, hr.evType, ⟨d.canon, Json.any_wf (num := id) (fun t ht => ht) hd, ?_⟩,
        ⟨m, hm, em⟩⟩
      simp only [sent, mkRecord, ed, inOrder_text hd]
    · exact ih (fun x hx => h x (by simp [hx])) _ _ r hr

/-! ## Which streams the in-memory store knows -/

theorem saveLoop_streams {z : Serializer} (st : Str) (cancelAt : Option Nat) (ers : List EventRecord) :
    ∀ (i : Nat) (s : IM.State) (pt pi : Str) (e : Option Nat) (created : List Nat) (pending : List Str) (last : Nat)
      (s' : IM.State) (x : Nat × List Str),
      IM.saveLoop z st cancelAt i s pt pi e created pending last ers = (s', .ok x) →
      ∀ n, n ≠ st → s'.streams n = s.streams n := by
  induction ers with
  | nil =>
    intro i s pt pi e created pending last s' x h n hn
    simp only [IM.saveLoop, Prod.mk.injEq] at h
    rw [h.1]
  | cons er ers ih =>
    intro i s pt pi e created pending last s' x h n hn
    simp only [IM.saveLoop] at h
    split at h
    · simp at h
    split at h
    · simp at h
    split at h
    · simp at h
    split at h
    · split at h <;> simp at h
    · rename_i s1 data record hs
      rw [ih _ _ _ _ _ _ _ _ _ _ h n hn]
      have hst : IM.saveEvent.store z s st (IM.streamSeq s st) er = (s1, .ok (data, record)) := by
        unfold IM.saveEvent at hs
        cases e with
        | none => exact hs
        | some k =>
          simp only at hs
          by_cases hk : k ≠ IM.streamSeq s st
          · rw [if_pos hk] at hs; simp at hs
          · rw [if_neg hk] at hs; exact hs
      unfold IM.saveEvent.store at hst
      simp only at hst
      split at hst
      · simp at hst
      · simp only [Prod.mk.injEq] at hst
        rw [← hst.1]
        simp [IM.setMap, hn]

theorem deleteLoop_streams (gsns : List Nat) : ∀ s : IM.State, (IM.deleteLoop s gsns).1.streams = s.streams := by
  induction gsns with
  | nil => intro s; rfl
  | cons x xs ih =>
    intro s
    have h1 : (IM.deleteOne s x).1.streams = s.streams := by unfold IM.deleteOne; split <;> rfl
    unfold IM.deleteLoop
    split
    · rename_i s' h; rw [h] at h1; exact h1
    · rename_i s' h; rw [h] at h1; rw [ih, ← h1]

theorem delete_streams (s : IM.State) (st : Str) (n : Nat) (hs : s.locked = false)
    (hp : (IM.deleteStream s st n false).2 ≠ .panic) :
    (IM.deleteStream s st n false).1.streams =
      if s.streams st ≠ none ∧ n = (IM.get s.streams st).length then IM.setMap s.streams st none else s.streams := by
  unfold IM.deleteStream at hp ⊢
  simp only [Bool.false_eq_true, if_false, hs] at hp ⊢
  cases hk : s.streams st with
  | none => simp
  | some gsns =>
    rw [hk] at hp
    simp only [IM.get, hk, Option.getD_some] at hp ⊢
    by_cases hn : n = gsns.length
    · have hl := deleteLoop_streams gsns s
      simp only [hn, ne_eq, not_true_eq_false, if_false] at hp ⊢
      split
      · rename_i s' h; rw [h] at hp; simp at hp
      · rename_i s' h; rw [h] at hl; simp [show s'.streams = s.streams from hl]
    · simp [hn]

/-! ## Both stores -/

/-- The store of the server holds what the store in the program holds, with the data of the events in order. -/
structure Pair (ty : Types) (fl : Str → Option Str) (sR sL : IM.State) (L : Log) (N : Nat) : Prop where
  wf : L.WF
  server : IM.Sim (goodZ unbound) sR (sentLog L)
  here : IM.Sim (goodZ ty) sL L
  streams : sR.streams = sL.streams
  uptoR : Upto N sR
  uptoL : Upto N sL
  last : L.last ≤ N
  back : ∀ r ∈ L.recs, toRecord ty fl (sent r) = some r ∧ Servable (sent r)

theorem pair_init (ty : Types) (fl : Str → Option Str) : Pair ty fl IM.init IM.init Log.empty 0 where
  wf := Log.WF.empty
  server := IM.sim_init
  here := IM.sim_init
  streams := rfl
  uptoR := upto_init
  uptoL := upto_init
  last := Nat.le_refl _
  back := by intro r hr; simp [Log.empty] at hr

/-- A batch of one aggregate in an in-memory store. -/
theorem save_clean {ty : Types} {s : IM.State} {L : Log} {N : Nat} (hw : L.WF) (hs : IM.Sim (goodZ ty) s L)
    (hu : Upto N s) (hl : L.last ≤ N) {st : Str} (hv : Valid st) (e : Option Nat) {ers : List EventRecord}
    (ho : OneAggregate ers) (hg : ∀ er ∈ ers, GoodEvent ty er) (hne : ers ≠ []) (hN : N + ers.length < 2 ^ 64) :
    let r := IM.saveEvents (serializer ty) s st e none ers
    Upto (N + ers.length) r.state ∧
    ((∀ x, e = some x → x = L.streamLen st) →
      r.out = .ok (L.streamLen st + ers.length) ∧ IM.Sim (goodZ ty) r.state (L.append id st ers) ∧
      (∀ n, n ≠ st → r.state.streams n = s.streams n) ∧
      r.state.streams st = some (((L.append id st ers).stream st).map (·.gsn))) ∧
    (∀ x, e = some x → x ≠ L.streamLen st →
      r.out = .err (.unexpected x (L.streamLen st)) ∧ IM.Sim (goodZ ty) r.state L ∧
      ∃ er, ers.head? = some er ∧ r.state.streams =
        IM.setMap s.streams (getStream er.event.aggType er.event.aggId)
          (some (IM.get s.streams (getStream er.event.aggType er.event.aggId)))) := by
  intro r
  have hr : r = IM.saveEvents (goodZ ty) s st e none ers := im_saveEvents_congr hu hv e none ers hg hN
  have hspec := IM.saveEvents_spec' (goodZ_lawful ty) hw hs st e none ers
    (Or.inr (fun j => batchProblem_good hw hv e none ers hg (by omega) j)) hne
  rw [← hr] at hspec
  obtain ⟨er, rest, rfl⟩ : ∃ er rest, ers = er :: rest := by
    cases ers with
    | nil => exact absurd rfl hne
    | cons a b => exact ⟨a, b, rfl⟩
  refine ⟨by rw [hr]; exact im_saveEvents_upto hu st e none _, ?_, ?_⟩
  · intro hx
    have hbp : batchProblem (goodZ ty) L st e none (er :: rest) = none :=
      PG.batchProblem_plain hw hv hg (t := er.event.aggType) (i := er.event.aggId)
        (fun x hx => ho x hx er (by simp)) (by omega) hx
    obtain ⟨h1, h2, _⟩ := hspec.1 hbp
    have h2' : IM.Sim (goodZ ty) r.state (L.append id st (er :: rest)) := h2
    refine ⟨h1, h2', ?_, ?_⟩
    · intro n hn
      have hd : r = IM.saveEvents (serializer ty) s st e none (er :: rest) := rfl
      clear_value r
      unfold IM.saveEvents at hd
      simp only [List.length_cons, hs.unlocked, Bool.false_eq_true, if_false,
        Nat.not_lt.mpr (Nat.le_add_left 1 rest.length)] at hd
      split at hd
      · rename_i s' last pending hl
        rw [hd]
        exact saveLoop_streams _ _ _ _ _ _ _ _ _ _ _ _ _ hl n hn
      all_goals (rw [hd] at h1; simp at h1)
    · have hget := h2'.streams st
      cases hk : r.state.streams st with
      | some l => simp only [IM.get, hk, Option.getD_some] at hget; rw [hget]
      | none =>
        simp only [IM.get, hk, Option.getD_none] at hget
        have hlen := congrArg List.length hget
        have := Log.streamLen_append_self (goodZ_lawful ty) L st (er :: rest)
        simp only [List.length_nil, List.length_map] at hlen
        simp only [Log.streamLen, List.length_cons, show (goodZ ty).view = id from rfl] at this
        omega
  · intro x he hx
    subst he
    obtain ⟨h1, h2, _⟩ := hspec.2 _ _ (PG.batchProblem_stale hne hx)
    refine ⟨h1, h2, er, rfl, ?_⟩
    have hsav : IM.saveEvent (serializer ty) s st (some x) er = (s, .error (.unexpected x (L.streamLen st))) := by
      simp [IM.saveEvent, hs.streamSeq, hx]
    show (IM.saveEvents (serializer ty) s st (some x) none (er :: rest)).state.streams = _
    simp [IM.saveEvents, hs.unlocked, IM.saveLoop, ctxDone, hsav, IM.removeRecentEvents, IM.rTrim]

theorem pair_step {other : Err → Str} (hq : Quiet other) {ty : Types} {fl : Str → Option Str} {sR sL : IM.State} {L : Log}
    {N : Nat} (h : Pair ty fl sR sL L N) (c : HCall) (hc : c.Clean ty fl) (hN : N + c.size < 2 ^ 64) :
    (c.remote other fl sR).2 = asClient (c.here ty sL).2 ∧
    ∃ L', Pair ty fl (c.remote other fl sR).1 (c.here ty sL).1 L' (N + c.size) := by
  have hlast := h.last
  cases c with
  | save st e ers =>
    obtain ⟨hv, he, ho, hg⟩ := hc
    simp only [HCall.size] at hN ⊢
    by_cases hne : ers = []
    · subst hne
      exact ⟨rfl, L, h⟩
    · obtain ⟨q1, q2, _, q4, _⟩ := C42_save_partial other hq (imSave (serializer unbound)) fl sR st e ers hv hne ho
        (fun er her => (hg er her).1.sendable)
      have ho' : OneAggregate (ers.map arrives) := by
        intro a ha b hb
        obtain ⟨x, hx, rfl⟩ := List.mem_map.mp ha
        obtain ⟨y, hy, rfl⟩ := List.mem_map.mp hb
        exact ho x hx y hy
      have hg' : ∀ er ∈ ers.map arrives, GoodEvent unbound er := by
        intro er her
        obtain ⟨x, hx, rfl⟩ := List.mem_map.mp her
        exact (hg x hx).1.good
      have hR := save_clean (sentLog_wf h.wf) h.server h.uptoR h.last hv e ho' hg' (by simpa using hne)
        (by simpa using hN)
      have hL := save_clean h.wf h.here h.uptoL h.last hv e ho (fun er her => (hg er her).2) hne hN
      simp only [imSave] at q1 q2 q4
      simp only [sentLog_streamLen, List.length_map, sentLog_append] at hR
      obtain ⟨r1, r2, r3⟩ := hR
      obtain ⟨l1, l2, l3⟩ := hL
      have hlen := streamLen_le_last h.wf st
      show (Rem.save other (imSave (serializer unbound)) fl sR st e ers).2 = _ ∧ ∃ L', Pair ty fl
        (Rem.save other (imSave (serializer unbound)) fl sR st e ers).1 _ L' _
      rw [q1]
      simp only [HCall.here]
      by_cases hx : ∀ x, e = some x → x = L.streamLen st
      · obtain ⟨r21, r22, r23, r24⟩ := r2 hx
        obtain ⟨l21, l22, l23, l24⟩ := l2 hx
        refine ⟨by rw [(q2 _).mpr r21, l21]; rfl, L.append id st ers, Log.WF.append (goodZ_lawful ty) h.wf st ers, r22, l22,
          ?_, r1, l1, by simp only [Log.append]; omega, ?_⟩
        · funext n
          by_cases hn : n = st
          · subst hn
            rw [r24, l24, sentLog_stream, List.map_map]; rfl
          · rw [r23 n hn, l23 n hn, h.streams]
        · intro r hr
          simp only [Log.append, List.map_id, List.mem_append] at hr
          rcases hr with hr | hr
          · exact h.back r hr
          · exact numbered_back hv _ (fun er her => (hg er her).1) _ _ r hr
      · obtain ⟨x, rfl, hxx⟩ : ∃ x, e = some x ∧ x ≠ L.streamLen st := by
          cases e with
          | none => exact absurd (fun x hx => by simp at hx) hx
          | some x => exact ⟨x, rfl, fun hxe => hx (fun y hy => by simp at hy; rw [← hy]; exact hxe)⟩
        obtain ⟨r31, r32, er, r33, r34⟩ := r3 x rfl hxx
        obtain ⟨l31, l32, er', l33, l34⟩ := l3 x rfl hxx
        have her : er = arrives er' := by
          cases ers with
          | nil => exact absurd rfl hne
          | cons a b => simp at r33 l33; rw [← r33, l33]
        refine ⟨by rw [q4 _ _ rfl (he x rfl) (by omega) r31, l31]; rfl, L, h.wf, r32, l32, ?_, r1, l1, by omega, h.back⟩
        rw [r34, l34, her, h.streams]; rfl
  | delete st n =>
    obtain ⟨hv, hn⟩ := hc
    simp only [HCall.size, Nat.add_zero] at hN ⊢
    obtain ⟨q1, q2, _, q4, q5, _⟩ := C42_delete other hq (fun s st n => IM.deleteStream s st n false) sR st n hv
    have hR := IM.deleteStream_spec (sentLog_wf h.wf) h.server st n false
    have hL := IM.deleteStream_spec h.wf h.here st n false
    have hlen := streamLen_le_last h.wf st
    simp only [sentLog_streamLen, sentLog_delete] at hR
    obtain ⟨_, r2, r3, r4⟩ := hR
    obtain ⟨_, l2, l3, l4⟩ := hL
    have hup := im_delete_upto h.uptoR st n false
    have hup' := im_delete_upto h.uptoL st n false
    -- what both stores return, and that it is one of these
    have hres : (IM.deleteStream sR st n false).2 = (IM.deleteStream sL st n false).2 ∧
        ((IM.deleteStream sL st n false).2 = .ok () ∨ (IM.deleteStream sL st n false).2 = .err .notFound ∨
          (IM.deleteStream sL st n false).2 = .err (.unexpected n (L.streamLen st))) ∧
        ∃ L', L'.WF ∧ IM.Sim (goodZ unbound) (IM.deleteStream sR st n false).1 (sentLog L') ∧
          IM.Sim (goodZ ty) (IM.deleteStream sL st n false).1 L' ∧ L'.last ≤ N ∧ ∀ r ∈ L'.recs, r ∈ L.recs := by
      by_cases h0 : L.streamLen st = 0
      · obtain ⟨r41, r42⟩ := r4 trivial h0
        obtain ⟨l41, l42⟩ := l4 rfl h0
        have hnone : ∀ s : IM.State, s.locked = false → s.streams st = none →
            (IM.deleteStream s st n false).2 = .err .notFound := by
          intro s h1 h2; simp [IM.deleteStream, h1, h2]
        refine ⟨?_, ?_, L, h.wf, r41, l41, h.last, fun r hr => hr⟩
        · by_cases hk : sL.streams st = none
          · rw [hnone sL h.here.unlocked hk, hnone sR h.server.unlocked (by rw [h.streams]; exact hk)]
          · rcases r42 with ⟨a, _⟩ | ⟨a, b⟩ | ⟨a, b⟩
            · rw [h.streams] at a; exact absurd a hk
            · rcases l42 with ⟨a', _⟩ | ⟨a', b'⟩ | ⟨a', b'⟩
              · exact absurd a' hk
              · rw [b, b']
              · exact absurd a' a
            · rcases l42 with ⟨a', _⟩ | ⟨a', b'⟩ | ⟨a', b'⟩
              · exact absurd a' hk
              · exact absurd a a'
              · rw [b, b']
        · rcases l42 with ⟨_, b⟩ | ⟨_, b⟩ | ⟨_, b⟩
          · exact Or.inr (Or.inl b)
          · exact Or.inr (Or.inr (by rw [h0]; exact b))
          · exact Or.inl b
      · by_cases hx : n = L.streamLen st
        · obtain ⟨r31, r32⟩ := r3 trivial h0 hx
          obtain ⟨l31, l32⟩ := l3 rfl h0 hx
          exact ⟨by rw [r31, l31], Or.inl l31, L.delete st, h.wf.delete st, r32, l32, h.last,
            fun r hr => (List.mem_filter.mp hr).1⟩
        · have r21 := r2 trivial h0 hx
          have l21 := l2 rfl h0 hx
          rw [r21, l21]
          exact ⟨rfl, Or.inr (Or.inr rfl), L, h.wf, h.server, h.here, h.last, fun r hr => hr⟩
    obtain ⟨e1, e2, L', w, sR', sL', hl', hsub⟩ := hres
    have hpL : (IM.deleteStream sL st n false).2 ≠ .panic := by rcases e2 with e | e | e <;> rw [e] <;> simp
    refine ⟨?_, L', w, by simp only [HCall.remote]; rw [q1]; exact sR', sL', ?_, by simp only [HCall.remote]; rw [q1]; exact hup,
      hup', hl', fun r hr => h.back r (hsub r hr)⟩
    · simp only [HCall.remote, HCall.here]
      rw [e1] at q2 q4 q5
      rcases e2 with e | e | e
      · rw [q2.mpr e, e]; rfl
      · rw [q4.mpr e, e]; rfl
      · rw [q5 _ _ hn (by omega) e, e]; rfl
    · simp only [HCall.remote, HCall.here]
      rw [q1, delete_streams sR st n h.server.unlocked (by rw [e1]; exact hpL),
        delete_streams sL st n h.here.unlocked hpL, h.streams]

theorem pair_run {other : Err → Str} (hq : Quiet other) {ty : Types} {fl : Str → Option Str} (calls : List HCall) :
    ∀ {sR sL : IM.State} {L : Log} {N : Nat}, Pair ty fl sR sL L N → (∀ c ∈ calls, c.Clean ty fl) →
      N + (calls.map HCall.size).sum < 2 ^ 64 →
      ∃ L', Pair ty fl (calls.foldl (fun s c => (c.remote other fl s).1) sR)
        (calls.foldl (fun s c => (c.here ty s).1) sL) L' (N + (calls.map HCall.size).sum) := by
  induction calls with
  | nil => intro sR sL L N h _ _; exact ⟨L, h⟩
  | cons c calls ih =>
    intro sR sL L N h hc hN
    simp only [List.map_cons, List.sum_cons] at hN ⊢
    obtain ⟨_, L', h'⟩ := pair_step hq h c (hc c (by simp)) (by omega)
    rw [← Nat.add_assoc]
    exact ih h' (fun x hx => hc x (by simp [hx])) (by omega)

/-- What the client reads of records of the server. -/
theorem read_sent (other : Err → Str) {ty : Types} {fl : Str → Option Str} (trailing : Bool) (err : Option Err)
    (recs : List Record) (h : ∀ r ∈ recs, toRecord ty fl (sent r) = some r ∧ Servable (sent r)) :
    read other ty fl trailing ⟨recs.map sent, err⟩ =
      ⟨recs, statusError (if trailing then err.map (fun e => tUnknownDesc ++ errText other e) else none)⟩ := by
  unfold read
  simp only [RecordIterator.new]
  rw [serve_ok other trailing err (recs.map sent) (fun r hr => by
    obtain ⟨x, hx, rfl⟩ := List.mem_map.mp hr
    exact (h x hx).2) .zero rfl]
  refine receive_map _ _ _ ?_
  rw [List.map_map]
  exact List.map_congr_left (fun r hr => (h r hr).1)

end RangeDB.Rem

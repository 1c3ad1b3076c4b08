import Verif.Spec.RestartsDelete
import Verif.Thm.Restarts
import Verif.Thm.BrokenDeletes
import Verif.Thm.GrpcCounts

/-!
# Theorems: deletes of a remote store whose LevelDB server is killed and started again (C159), and the counts in its replies
-/

namespace RangeDB.LD

variable {N : Names} {z : Serializer}

/-- A delete changes neither the disk nor the log, or finds as many events as expected and removes them. -/
theorem delete_step {s : State} {A : AState} (h : SimA N z s A) (st : Str) (hst : N.streams st) (e : Nat) (cancelled : Bool) :
    ((step z s (.delete st e cancelled)).db = s.db ∧ (aStep z A (.delete st e cancelled)).log = A.log ∧
      (deleteStream z s st e cancelled).2 ≠ .ok ()) ∨
    (A.leaked = false ∧ A.log.streamLen st = e ∧ e ≠ 0 ∧ aStep z A (.delete st e cancelled) = { A with log := A.log.delete st }) := by
  have hout := simA_delete h st e cancelled hst
  simp only [step, aStep]
  cases cancelled with
  | true => exact Or.inl ⟨by simp [deleteStream], by simp, by simp [deleteStream]⟩
  | false =>
    simp only [Bool.false_eq_true, if_false]
    unfold aDeleteOut at hout
    simp only [Bool.false_eq_true, if_false] at hout
    cases hl : A.leaked with
    | true =>
      rw [hl] at hout
      simp only [if_true] at hout ⊢
      refine Or.inl ⟨?_, trivial, by simp [hout]⟩
      cases hmu : s.muxHeld with
      | true => simp [deleteStream, hmu]
      | false => simp [deleteStream, hmu, h.tx, hl]
    | false =>
      have hsp := deleteStream_spec h.wf h.sim (h.free hl) (h.tx.trans hl) hst e
      simp only [Bool.false_eq_true, if_false]
      by_cases h0 : A.log.streamLen st = 0
      · rw [if_pos (Or.inl h0), hsp.1 h0]
        exact Or.inl ⟨rfl, rfl, by simp⟩
      · by_cases hx : e = A.log.streamLen st
        · rw [if_neg (by simp [h0, hx])]
          exact Or.inr ⟨trivial, hx.symm, by omega, rfl⟩
        · rw [if_pos (Or.inr hx), hsp.2.1 h0 hx]
          exact Or.inl ⟨rfl, rfl, by simp⟩

end RangeDB.LD

namespace RangeDB.Rem

open RangeDB.Json RangeDB.Http

variable {N : Names} {z : Serializer} {other : Err → Str}

/-- One call of the client. -/
theorem ldelete_sim (hz : z.Lawful) (other : Err → Str) {s : LD.State} {A : AState} (h : LD.SimA N z s A)
    (hb : A.log.last < 2 ^ 64) (st : Str) (hst : N.streams st) (e : Nat) (fate : Fate) (cancelled : Bool) :
    ∃ A', LD.SimA N z (ldelete z other s st e fate cancelled).1 A' ∧ A'.log.last ≤ A.log.last ∧
      ((ldelete z other s st e fate cancelled).1.db = s.db ∧ A'.log = A.log ∧ (ldelete z other s st e fate cancelled).2 ≠ .ok () ∨
       A.stuck = false ∧ A'.stuck = false ∧ A.log.streamLen st = e ∧ e ≠ 0 ∧ A'.log = A.log.delete st) := by
  have hno : (Op.delete st e cancelled).NamesIn N := hst
  have hs := LD.step_simA hz h (.delete st e cancelled) hno (by simp only [Op.size]; omega)
  have hfree : A.leaked = false → A.stuck = false := by
    intro hl
    cases hx : A.stuck with
    | false => rfl
    | true => rw [h.stuck hx] at hl; simp at hl
  have key : ∀ told : CResult Unit, (told = .ok () → (LD.deleteStream z s st e cancelled).2 = .ok ()) →
      ∃ A', LD.SimA N z (LD.step z s (.delete st e cancelled)) A' ∧ A'.log.last ≤ A.log.last ∧
        ((LD.step z s (.delete st e cancelled)).db = s.db ∧ A'.log = A.log ∧ told ≠ .ok () ∨
         A.stuck = false ∧ A'.stuck = false ∧ A.log.streamLen st = e ∧ e ≠ 0 ∧ A'.log = A.log.delete st) := by
    intro told ht
    refine ⟨_, hs.1, hs.2, ?_⟩
    rcases LD.delete_step h st hst e cancelled with ⟨g1, g2, g3⟩ | ⟨g0, g1, g2, g3⟩
    · exact Or.inl ⟨g1, g2, fun hx => g3 (ht hx)⟩
    · exact Or.inr ⟨hfree g0, by rw [g3]; exact hfree g0, g1, g2, by rw [g3]⟩
  unfold ldelete
  by_cases hv : (!decide (Valid st)) = true
  · cases fate with
    | net net => simp only [deleteOver, if_pos hv]; exact ⟨A, h, Nat.le_refl _, Or.inl (by simp)⟩
    | killed n status => simp only [deleteOver, if_pos hv]; exact ⟨A, h, Nat.le_refl _, Or.inl (by simp)⟩
  · cases fate with
    | net net =>
      simp only [deleteOver, if_neg hv]
      cases net with
      | noRequest t => exact ⟨A, h, Nat.le_refl _, Or.inl ⟨rfl, rfl, by simp⟩⟩
      | noReply t => exact key _ (by simp)
      | fine =>
        refine key _ ?_
        cases (LD.deleteStream z s st e cancelled).2 <;> simp
    | killed n status =>
      simp only [deleteOver, if_neg hv]
      rcases LD.crashed_cases (z := z) s (.delete st e cancelled) n with hc | hc
      · rw [hc]
        exact ⟨A.reopened, h.reopen, Nat.le_refl _, Or.inl ⟨rfl, rfl, by simp⟩⟩
      · rw [hc]
        obtain ⟨A', k1, k2, k3⟩ := key (.err (deleteError (tCode ++ status))) (by simp)
        refine ⟨A'.reopened, k1.reopen, k2, ?_⟩
        rcases k3 with ⟨g1, g2, g3⟩ | ⟨g1, _, g3⟩
        · exact Or.inl ⟨g1, g2, g3⟩
        · exact Or.inr ⟨g1, rfl, g3⟩

theorem part_alone (hz : z.Lawful) {A A' : AState} {st : Str} {p : LD.Part} (hk : (LDelTurn.another p).Alone st)
    (h : A'.log = A.log ∨ ∃ op, p.op = some op ∧ A'.log = (aStep z A op).log) :
    A'.log.stream st = A.log.stream st ∨ A'.log.stream st = [] := by
  rcases h with h | ⟨op, ho, h⟩
  · rw [h]; exact Or.inl rfl
  · rw [h]
    cases op with
    | save name e c ers =>
      have hn : name ≠ st := by
        rintro rfl
        exact hk e c ers ho
      simp only [aStep]
      repeat' split
      all_goals first | exact Or.inl rfl | skip
      exact Or.inl (Log.stream_append_other hz A.log ers (Ne.symm hn))
    | delete name e c =>
      simp only [aStep]
      repeat' split
      all_goals first | exact Or.inl rfl | skip
      by_cases hn : name = st
      · subst hn; exact Or.inr (Log.stream_delete_self A.log name)
      · exact Or.inl (Log.stream_delete_other A.log (Ne.symm hn))

/-- **C159**, every call, with others that do anything in between and a server that is killed and started again at any moment: it
leaves the disk as it was and is not answered with success, or it finds exactly the expected number of events in the stream,
and removes these events and no others. -/
theorem C159_each (hz : z.Lawful) (other : Err → Str) (parts : List LD.Part) (hn : ∀ p ∈ parts, p.NamesIn N) (st : Str)
    (hst : N.streams st) (e : Nat) (turns : List LDelTurn) (hf : ∀ t ∈ turns, t.Fair N)
    (hb : (parts.map LD.Part.size).sum + (turns.map LDelTurn.size).sum < 2 ^ 64) :
    ∀ a ∈ ldeletions z other st e (LD.live z parts) turns,
      (a.after.db = a.before.db ∧ a.told ≠ .ok ()) ∨
      (e ≠ 0 ∧ LD.totalEventsInStream a.before st false = .ok e ∧ LD.totalEventsInStream a.after st false = .ok 0 ∧
        (∀ st', st' ≠ st → N.streams st' →
          LD.totalEventsInStream a.after st' false = LD.totalEventsInStream a.before st' false) ∧
        ∃ l, LD.events z a.before none 0 = .ok ⟨l, none⟩ ∧
          LD.events z a.after none 0 = .ok ⟨l.filter (fun r => r.streamName ≠ st), none⟩) := by
  obtain ⟨A, -, h, hle⟩ := LD.live_sim hz parts hn (by omega)
  generalize LD.live z parts = s at h
  have hb' : A.log.last + (turns.map LDelTurn.size).sum < 2 ^ 64 := by omega
  clear hb hle
  induction turns generalizing s A with
  | nil => simp [ldeletions]
  | cons turn turns ih =>
    have hf' : ∀ t ∈ turns, t.Fair N := fun t ht => hf t (by simp [ht])
    simp only [List.map_cons, List.sum_cons] at hb'
    cases turn with
    | another p =>
      simp only [LDelTurn.size] at hb'
      obtain ⟨A', h', hle, _⟩ := part_step hz h p (hf (.another p) (by simp)) (by omega)
      exact ih hf' A' _ h' (by omega)
    | mine fate cancelled =>
      simp only [LDelTurn.size] at hb'
      obtain ⟨A', h', hle, hc⟩ := ldelete_sim hz other h (by omega) st hst e fate cancelled
      intro a ha
      simp only [ldeletions, List.mem_cons] at ha
      rcases ha with rfl | ha
      · rcases hc with ⟨c1, _, c3⟩ | ⟨c0, c0', c1, c2, c3⟩
        · exact Or.inl ⟨c1, c3⟩
        · refine Or.inr ⟨c2, by rw [LD.simA_total h hst, c1], by rw [LD.simA_total h' hst, c3, delete_len], ?_, ?_⟩
          · intro st' hne hst'
            rw [LD.simA_total h hst', LD.simA_total h' hst', c3, Log.streamLen, Log.streamLen, Log.stream_delete_other _ hne]
          · refine ⟨A.log.recs, ?_, ?_⟩
            · rw [LD.simA_events h none 0 (by decide), c0]
              simp [cut]
            · rw [LD.simA_events h' none 0 (by decide), c0', c3]
              simp [cut, Log.delete]
      · exact ih hf' A' _ h' (by omega) a ha

/-- Nothing is removed from a stream without events. -/
theorem ldeletions_empty (hz : z.Lawful) (other : Err → Str) (st : Str) (hst : N.streams st) (e : Nat) :
    ∀ (turns : List LDelTurn) (s : LD.State) (A : AState), LD.SimA N z s A → (∀ t ∈ turns, t.Fair N ∧ t.Alone st) →
      A.log.last + (turns.map LDelTurn.size).sum < 2 ^ 64 → A.log.streamLen st = 0 →
      ∀ a ∈ ldeletions z other st e s turns, a.after.db = a.before.db ∧ a.told ≠ .ok () ∧
        LD.totalEventsInStream a.after st false = .ok 0 ∧ a.shrank st = false
  | [], _, _, _, _, _, _ => by simp [ldeletions]
  | .another p :: turns, s, A, h, hf, hb, h0 => by
    simp only [List.map_cons, List.sum_cons, LDelTurn.size] at hb
    obtain ⟨f1, f2⟩ := hf (.another p) (by simp)
    obtain ⟨A', h', hle, hc⟩ := part_step hz h p f1 (by omega)
    refine ldeletions_empty hz other st hst e turns _ A' h' (fun t ht => hf t (by simp [ht])) (by omega) ?_
    rcases part_alone hz f2 hc with hs | hs
    · rw [Log.streamLen, hs]; exact h0
    · rw [Log.streamLen, hs]; rfl
  | .mine fate cancelled :: turns, s, A, h, hf, hb, h0 => by
    simp only [List.map_cons, List.sum_cons, LDelTurn.size] at hb
    obtain ⟨A', h', hle, hc⟩ := ldelete_sim hz other h (by omega) st hst e fate cancelled
    rcases hc with ⟨c1, c2, c3⟩ | ⟨_, _, c1, c2, _⟩
    · intro a ha
      simp only [ldeletions, List.mem_cons] at ha
      rcases ha with rfl | ha
      · refine ⟨c1, c3, by rw [LD.simA_total h' hst, c2, h0], ?_⟩
        simp [LDelAttempt.shrank, LD.simA_total h hst, LD.simA_total h' hst, c2]
      · exact ldeletions_empty hz other st hst e turns _ A' h' (fun t ht => hf t (by simp [ht])) (by omega)
          (by rw [c2]; exact h0) a ha
    · omega

/-- **C159**: a client of a remote store whose server keeps its events in LevelDB repeats a delete; connections break, and the
server is killed and started again, at whatever moments. As long as nobody else saves to the stream, at most one of the calls
changes what is on the server's disk, and only that one can be answered with success. -/
theorem C159_once (hz : z.Lawful) (other : Err → Str) (parts : List LD.Part) (hn : ∀ p ∈ parts, p.NamesIn N) (st : Str)
    (hst : N.streams st) (e : Nat) (turns : List LDelTurn) (hf : ∀ t ∈ turns, t.Fair N ∧ t.Alone st)
    (hb : (parts.map LD.Part.size).sum + (turns.map LDelTurn.size).sum < 2 ^ 64) :
    let as := ldeletions z other st e (LD.live z parts) turns
    (as.filter (·.shrank st)).length ≤ 1 ∧
    (∀ a ∈ as, a.shrank st = false → a.after.db = a.before.db) ∧
    (∀ a ∈ as, a.told = .ok () → a.shrank st = true) := by
  obtain ⟨A, -, h, hle⟩ := LD.live_sim hz parts hn (by omega)
  generalize LD.live z parts = s at h
  have hb' : A.log.last + (turns.map LDelTurn.size).sum < 2 ^ 64 := by omega
  clear hb hle
  intro as
  simp only [as]
  clear as
  induction turns generalizing s A with
  | nil => simp [ldeletions]
  | cons turn turns ih =>
    have hf' : ∀ t ∈ turns, t.Fair N ∧ t.Alone st := fun t ht => hf t (by simp [ht])
    simp only [List.map_cons, List.sum_cons] at hb'
    cases turn with
    | another p =>
      simp only [LDelTurn.size] at hb'
      obtain ⟨A', h', hle, _⟩ := part_step hz h p (hf (.another p) (by simp)).1 (by omega)
      exact ih hf' A' _ h' (by omega)
    | mine fate cancelled =>
      simp only [LDelTurn.size] at hb'
      obtain ⟨A', h', hle, hc⟩ := ldelete_sim hz other h (by omega) st hst e fate cancelled
      have hsh : LDelAttempt.shrank st ⟨s, (ldelete z other s st e fate cancelled).1, (ldelete z other s st e fate cancelled).2⟩ =
          decide (A.log.streamLen st ≠ A'.log.streamLen st) := by
        simp [LDelAttempt.shrank, LD.simA_total h hst, LD.simA_total h' hst]
      rcases hc with ⟨c1, c2, c3⟩ | ⟨_, _, c1, c2, c3⟩
      · obtain ⟨i1, i2, i3⟩ := ih hf' A' _ h' (by omega)
        rw [c2] at hsh
        simp only [ne_eq, not_true, decide_false] at hsh
        refine ⟨?_, ?_, ?_⟩
        · simp only [ldeletions, List.filter_cons, hsh, Bool.false_eq_true, if_false]; exact i1
        · intro a ha
          simp only [ldeletions, List.mem_cons] at ha
          rcases ha with rfl | ha
          · exact fun _ => c1
          · exact i2 a ha
        · intro a ha
          simp only [ldeletions, List.mem_cons] at ha
          rcases ha with rfl | ha
          · exact fun hx => absurd hx c3
          · exact i3 a ha
      · have hrest := ldeletions_empty hz other st hst e turns _ A' h' hf' (by omega) (by rw [c3, delete_len])
        have hsh : LDelAttempt.shrank st
            ⟨s, (ldelete z other s st e fate cancelled).1, (ldelete z other s st e fate cancelled).2⟩ = true := by
          rw [hsh, decide_eq_true_eq, c3, delete_len]
          omega
        have hnil : (ldeletions z other st e (ldelete z other s st e fate cancelled).1 turns).filter (·.shrank st) = [] := by
          rw [List.filter_eq_nil_iff]
          intro a ha
          simp [(hrest a ha).2.2.2]
        refine ⟨?_, ?_, ?_⟩
        · simp only [ldeletions, List.filter_cons, hsh, if_true, hnil, List.length_cons, List.length_nil]
          omega
        · intro a ha
          simp only [ldeletions, List.mem_cons] at ha
          rcases ha with rfl | ha
          · exact fun hx => by rw [hsh] at hx; simp at hx
          · exact fun _ => (hrest a ha).1
        · intro a ha
          simp only [ldeletions, List.mem_cons] at ha
          rcases ha with rfl | ha
          · exact fun _ => hsh
          · exact fun hx => absurd hx (hrest a ha).2.1

/-- What the client is told of one attempt. -/
theorem ldelete_told (hq : Quiet other) {s : LD.State} {A A' : AState} (h : LD.SimA N z s A) (st : Str) (hst : N.streams st)
    (e : Nat) (fate : Fate) (cancelled : Bool) (hp : (LDelTurn.mine fate cancelled).Plain)
    (h' : LD.SimA N z (ldelete z other s st e fate cancelled).1 A')
    (hc : (ldelete z other s st e fate cancelled).1.db = s.db ∧ A'.log = A.log ∧ (ldelete z other s st e fate cancelled).2 ≠ .ok () ∨
       A.stuck = false ∧ A'.stuck = false ∧ A.log.streamLen st = e ∧ e ≠ 0 ∧ A'.log = A.log.delete st)
    (ht : (ldelete z other s st e fate cancelled).2 = .ok () ∨
      (ldelete z other s st e fate cancelled).2 = .err (.store .notFound)) : A'.log.streamLen st = 0 := by
  rcases hc with ⟨_, c2, c3⟩ | ⟨_, _, _, _, c3⟩
  · have ht := ht.resolve_left c3
    have hno : ∀ t, contains (tCode ++ t) tErrNotFound = false → deleteError (tCode ++ t) ≠ .store .notFound := by
      intro t hx
      unfold deleteError
      rw [hx]
      repeat' split
      all_goals simp_all
    by_cases hv : Valid st
    · cases fate with
      | killed n t =>
        simp only [ldelete, deleteOver, hv, decide_true, Bool.not_true, Bool.false_eq_true, if_false, CResult.err.injEq] at ht
        exact absurd ht (hno t hp)
      | net net =>
        cases net with
        | noRequest t =>
          simp only [ldelete, deleteOver, hv, decide_true, Bool.not_true, Bool.false_eq_true, if_false, CResult.err.injEq] at ht
          exact absurd ht (hno t hp)
        | noReply t =>
          simp only [ldelete, deleteOver, hv, decide_true, Bool.not_true, Bool.false_eq_true, if_false, CResult.err.injEq] at ht
          exact absurd ht (hno t hp)
        | fine =>
          simp only [ldelete, deleteOver_fine] at ht
          obtain ⟨_, _, _, g4, _⟩ := C42_delete other hq (fun s st e => LD.deleteStream z s st e cancelled) s st e hv
          have hx := g4.mp ht
          simp only [LD.simA_delete h st e cancelled hst] at hx
          unfold aDeleteOut at hx
          rw [c2]
          repeat' split at hx
          all_goals first | (rename_i h0; exact h0) | simp at hx
    · cases fate <;> simp [ldelete, deleteOver, hv] at ht
  · rw [c3, delete_len]

/-- **C159**, what the client learns: when one of its calls succeeds, or is answered that the stream is not found, the stream has
no events any more; and if nobody else saves to it, no later call changes what is on the disk, and it has none after each. -/
theorem C159_learned (hz : z.Lawful) (hq : Quiet other) (parts : List LD.Part) (hn : ∀ p ∈ parts, p.NamesIn N) (st : Str)
    (hst : N.streams st) (e : Nat) (turns : List LDelTurn) (hf : ∀ t ∈ turns, t.Fair N ∧ t.Plain)
    (hb : (parts.map LD.Part.size).sum + (turns.map LDelTurn.size).sum < 2 ^ 64) (pre post : List LDelAttempt) (a : LDelAttempt)
    (has : ldeletions z other st e (LD.live z parts) turns = pre ++ a :: post)
    (ht : a.told = .ok () ∨ a.told = .err (.store .notFound)) :
    LD.totalEventsInStream a.after st false = .ok 0 ∧
    ((∀ t ∈ turns, t.Alone st) → ∀ b ∈ post, b.after.db = b.before.db ∧ LD.totalEventsInStream b.after st false = .ok 0) := by
  obtain ⟨A, -, h, hle⟩ := LD.live_sim hz parts hn (by omega)
  generalize LD.live z parts = s at h has
  have hb' : A.log.last + (turns.map LDelTurn.size).sum < 2 ^ 64 := by omega
  clear hb hle
  induction turns generalizing s A pre with
  | nil => simp [ldeletions] at has
  | cons turn turns ih =>
    have hf' : ∀ t ∈ turns, t.Fair N ∧ t.Plain := fun t ht => hf t (by simp [ht])
    simp only [List.map_cons, List.sum_cons] at hb'
    cases turn with
    | another p =>
      simp only [LDelTurn.size] at hb'
      obtain ⟨A', h', hle, _⟩ := part_step hz h p (hf (.another p) (by simp)).1 (by omega)
      obtain ⟨i1, i2⟩ := ih hf' pre A' _ h' has (by omega)
      exact ⟨i1, fun hal => i2 (fun t ht => hal t (by simp [ht]))⟩
    | mine fate cancelled =>
      simp only [LDelTurn.size] at hb'
      obtain ⟨A', h', hle, hc⟩ := ldelete_sim hz other h (by omega) st hst e fate cancelled
      cases pre with
      | nil =>
        simp only [ldeletions, List.nil_append, List.cons.injEq] at has
        obtain ⟨rfl, rfl⟩ := has
        have h0 := ldelete_told hq h st hst e fate cancelled (hf (.mine fate cancelled) (by simp)).2 h' hc ht
        refine ⟨by rw [LD.simA_total h' hst, h0], fun hal b hb => ?_⟩
        have := ldeletions_empty hz other st hst e turns _ A' h'
          (fun t ht => ⟨(hf' t ht).1, hal t (by simp [ht])⟩) (by omega) h0 b hb
        exact ⟨this.1, this.2.2.1⟩
      | cons b pre =>
        simp only [ldeletions, List.cons_append, List.cons.injEq] at has
        obtain ⟨i1, i2⟩ := ih hf' pre A' _ h' has.2 (by omega)
        exact ⟨i1, fun hal => i2 (fun t ht => hal t (by simp [ht]))⟩

/-- Two events; the first call is killed before its commit, the second after it, the third is answered that the stream is gone;
that leaves its transaction open (C14), so the fourth is never answered, until the server is started again. -/
def demoDelTurns : List LDelTurn :=
  [.mine (.killed 1 tClosing) false, .another (.call (.save [66, 33, 49] none none [demoRemEr])),
   .mine (.killed 9 tClosing) false, .mine (.net .fine) false, .mine (.net .fine) false, .another .restart,
   .mine (.net .fine) true]

def demoDelParts : List LD.Part := [.call (.save [65, 33, 49] none none [demoRemEr, demoRemEr])]

example : (ldeletions (serializer unbound) demoOther [65, 33, 49] 2 (LD.live (serializer unbound) demoDelParts) demoDelTurns).map
      (fun a => (a.told, LD.totalEventsInStream a.after [65, 33, 49] false)) =
      [(.err (.rpc (tCode ++ tClosing)), .ok 2), (.err (.rpc (tCode ++ tClosing)), .ok 0),
       (.err (.store .notFound), .ok 0), (.none, .ok 0),
       (.err (.rpc (tCode ++ (tUnknownDesc ++ tContextCanceled))), .ok 0)] := by decide +kernel

/-- They meet the hypotheses. -/
example : (∀ p ∈ demoDelParts, p.NamesIn Names.plain) ∧
    (∀ t ∈ demoDelTurns, t.Fair Names.plain ∧ t.Alone [65, 33, 49] ∧ t.Plain) ∧ Names.plain.streams [65, 33, 49] ∧
    (demoDelParts.map LD.Part.size).sum + (demoDelTurns.map LDelTurn.size).sum < 2 ^ 64 := by
  refine ⟨?_, ?_, show NoSep _ = true by decide, by decide⟩
  · intro p hp op ho
    simp only [demoDelParts, List.mem_singleton] at hp
    subst hp
    simp only [LD.Part.op, Option.some.injEq] at ho
    subst ho
    refine ⟨show NoSep _ = true by decide, ?_⟩
    intro er her
    simp only [List.mem_cons, List.not_mem_nil, or_false, or_self] at her
    subst her
    show NoSep _ = true
    decide
  · intro t ht
    simp only [demoDelTurns, List.mem_cons, List.not_mem_nil, or_false] at ht
    have hpl : contains (tCode ++ tClosing) tErrNotFound = false := by decide +kernel
    rcases ht with rfl | rfl | rfl | rfl | rfl | rfl | rfl
    · exact ⟨trivial, trivial, hpl⟩
    · refine ⟨?_, ?_, trivial⟩
      · intro op ho
        simp only [LD.Part.op, Option.some.injEq] at ho
        subst ho
        refine ⟨show NoSep _ = true by decide, ?_⟩
        intro er her
        simp only [List.mem_singleton] at her
        subst her
        show NoSep _ = true
        decide
      · intro _ _ _ h; simp [LD.Part.op] at h
    · exact ⟨trivial, trivial, hpl⟩
    · exact ⟨trivial, trivial, trivial⟩
    · exact ⟨trivial, trivial, trivial⟩
    · exact ⟨fun op h => by simp [LD.Part.op] at h, fun _ _ _ h => by simp [LD.Part.op] at h, trivial⟩
    · exact ⟨trivial, trivial, trivial⟩

/-! ## The counts in the replies (C138) -/

/-- **C138**, saves on a server with LevelDB, after any life of its directory: if the call succeeds, then `EventsSaved` is the
number of events of the request, cut to 32 bits, that many events are stored on top of those that were, and
`LastStreamSequenceNumber` is the new length of the stream. -/
theorem C138_leveldb_save (hz : z.Lawful) (other : Err → Str) (fl : Str → Option Str) (parts : List LD.Part)
    (hn : ∀ p ∈ parts, p.NamesIn N) (st : Str) (hst : N.streams st) (expected cancelAt : Option Nat) (es : List PbEvent)
    (hes : ∀ ers, serverEvents fl es = .ok ers → ∀ er ∈ ers, N.types er.event.aggType)
    (hb : (parts.map LD.Part.size).sum + es.length < 2 ^ 64) (s' : LD.State) (r : SaveResponse)
    (h : replySave other (fun s st e ers => ((LD.saveEvents z s st e cancelAt ers).state, (LD.saveEvents z s st e cancelAt ers).out))
      fl (LD.live z parts) st expected es = (s', some (.ok r))) :
    r.eventsSaved = es.length % 2 ^ 32 ∧
    (∃ old new, LD.events z (LD.live z parts) none 0 = .ok ⟨old, none⟩ ∧ LD.events z s' none 0 = .ok ⟨old ++ new, none⟩ ∧
      new.length = es.length ∧ ∀ r ∈ new, r.streamName = st) ∧
    ∃ n, LD.totalEventsInStream (LD.live z parts) st false = .ok n ∧ r.last = n + es.length ∧
      LD.totalEventsInStream s' st false = .ok r.last := by
  obtain ⟨A, _, hs, hle⟩ := LD.live_sim hz parts hn (by omega)
  generalize LD.live z parts = s at h hs
  unfold replySave at h
  cases hse : serverEvents fl es with
  | error t => rw [hse] at h; simp at h
  | ok ers =>
    rw [hse] at h
    have hlen := serverEvents_length es ers hse
    have hno : (Op.save st expected cancelAt ers).NamesIn N := ⟨hst, hes ers hse⟩
    simp only [Prod.mk.injEq] at h
    obtain ⟨h1, h2⟩ := h
    have hout := LD.simA_save hz hs st expected cancelAt ers hno (by omega)
    have hstep := (LD.step_simA hz hs (.save st expected cancelAt ers) hno (by simp only [Op.size]; omega)).1
    have hs' : LD.step z s (.save st expected cancelAt ers) = s' := h1
    rw [hs'] at hstep
    cases ho : (LD.saveEvents z s st expected cancelAt ers).out with
    | ok k =>
      rw [ho] at h2 hout
      simp only [Option.some.injEq, Except.ok.injEq] at h2
      subst h2
      have hA : A.leaked = false ∧ k = A.log.streamLen st + ers.length ∧
          aStep z A (.save st expected cancelAt ers) = { A with log := A.log.append z.view st ers } := by
        unfold aSaveOut at hout
        split at hout
        · simp at hout
        · rename_i hne
          split at hout
          · simp at hout
          · rename_i hl
            split at hout
            · rename_i hp
              simp only [Outcome.ok.injEq] at hout
              refine ⟨by simpa using hl, hout, ?_⟩
              simp only [aStep, if_neg hne, if_neg hl, hp]
            · simp at hout
      obtain ⟨a1, a2, a3⟩ := hA
      have hstuck : A.stuck = false := by
        cases hx : A.stuck with
        | false => rfl
        | true => rw [hs.stuck hx] at a1; simp at a1
      rw [a3] at hstep
      refine ⟨by simp [uint32, hlen], ⟨A.log.recs, (numbered st A.log.last (A.log.streamLen st) ers).map z.view, ?_, ?_, ?_, ?_⟩,
        A.log.streamLen st, LD.simA_total hs hst, by simp only [a2, hlen], ?_⟩
      · rw [LD.simA_events hs none 0 (by decide), hstuck]; simp [cut]
      · rw [LD.simA_events hstep none 0 (by decide)]
        have hd : ∀ l : List Record, l.filter (fun r => decide (r.gsn ≥ 0)) = l := fun l => List.filter_eq_self.mpr (by simp)
        simp only [hstuck, cut, Log.append, hd, Bool.false_eq_true, if_false]
      · rw [List.length_map, numbered_length, hlen]
      · intro r hr
        obtain ⟨r0, hr0, rfl⟩ := List.mem_map.mp hr
        rw [hz.streamName]
        exact numbered_stream hr0
      · rw [LD.simA_total hstep hst]
        simp only [Log.streamLen_append_self hz, a2]
    | err e => rw [ho] at h2; simp at h2
    | panic => rw [ho] at h2; simp at h2
    | blocked => rw [ho] at h2; simp at h2

/-- **C138**, deletes on a server with LevelDB, for streams of fewer than 2^32 events: if the call succeeds, `EventsDeleted` is the
number of events that were in the stream, and these are removed. Missing: longer streams, for which the claim is false. -/
theorem C138_leveldb_delete_partial (hz : z.Lawful) (other : Err → Str) (parts : List LD.Part) (hn : ∀ p ∈ parts, p.NamesIn N)
    (st : Str) (hst : N.streams st) (e : Nat) (he : e < 2 ^ 32) (cancelled : Bool) (hb : (parts.map LD.Part.size).sum < 2 ^ 64)
    (s' : LD.State) (k : Nat)
    (h : replyDelete other (fun s st e => LD.deleteStream z s st e cancelled) (LD.live z parts) st e = (s', some (.ok k))) :
    LD.totalEventsInStream (LD.live z parts) st false = .ok k ∧ LD.totalEventsInStream s' st false = .ok 0 ∧
    ∃ l, LD.events z (LD.live z parts) none 0 = .ok ⟨l, none⟩ ∧
      LD.events z s' none 0 = .ok ⟨l.filter (fun r => r.streamName ≠ st), none⟩ ∧
      l.length = (l.filter (fun r => r.streamName ≠ st)).length + k := by
  obtain ⟨A, _, hs, hle⟩ := LD.live_sim hz parts hn (by omega)
  generalize LD.live z parts = s at h hs
  simp only [replyDelete, Prod.mk.injEq] at h
  obtain ⟨h1, h2⟩ := h
  have hno : (Op.delete st e cancelled).NamesIn N := hst
  have hstep := (LD.step_simA hz hs (.delete st e cancelled) hno (by simp only [Op.size]; omega)).1
  have hs' : LD.step z s (.delete st e cancelled) = s' := h1
  cases ho : (LD.deleteStream z s st e cancelled).2 with
  | ok u =>
    rw [ho] at h2
    simp only [Option.some.injEq, Except.ok.injEq] at h2
    have hk : k = e := by rw [← h2, uint32]; exact Nat.mod_eq_of_lt he
    rcases LD.delete_step hs st hst e cancelled with ⟨_, _, g⟩ | ⟨g0, g1, g2, g3⟩
    · exact absurd ho g
    · rw [hs', g3] at hstep
      have hstuck : A.stuck = false := by
        cases hx : A.stuck with
        | false => rfl
        | true => rw [hs.stuck hx] at g0; simp at g0
      refine ⟨by rw [LD.simA_total hs hst, g1, hk], by rw [LD.simA_total hstep hst]; simp only [delete_len], A.log.recs, ?_, ?_, ?_⟩
      · rw [LD.simA_events hs none 0 (by decide), hstuck]; simp [cut]
      · rw [LD.simA_events hstep none 0 (by decide)]
        simp [hstuck, cut, Log.delete]
      · have hsp := filter_split (fun r => decide (r.streamName = st)) A.log.recs
        rw [hk, ← g1]
        simpa [Log.streamLen, Log.stream] using hsp
  | err x => rw [ho] at h2; simp at h2
  | panic => rw [ho] at h2; simp at h2
  | blocked => rw [ho] at h2; simp at h2

/-- Two events are saved on top of two, on a server that was started again. -/
example : (replySave demoOther (fun s st e ers => ((LD.saveEvents (serializer unbound) s st e none ers).state,
      (LD.saveEvents (serializer unbound) s st e none ers).out)) demoFl
    (LD.live (serializer unbound) (demoDelParts ++ [.restart])) [65, 33, 49] none
    [⟨[65], [49], [69], [49], [], [117], 7⟩, ⟨[65], [49], [69], [50], [], [117], 7⟩]).2.map (fun r => r.toOption) =
      some (some ⟨2, 4⟩) := by decide +kernel

/-- Two events are deleted, on a server that was started again. -/
example : (replyDelete demoOther (fun s st e => LD.deleteStream (serializer unbound) s st e false)
    (LD.live (serializer unbound) (demoDelParts ++ [.restart])) [65, 33, 49] 2).2.map (fun r => r.toOption) = some (some 2) := by decide +kernel

end RangeDB.Rem

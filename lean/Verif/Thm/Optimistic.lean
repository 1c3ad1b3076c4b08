import Verif.Thm.InMemory
import Verif.Thm.LevelDB
import Verif.Thm.PostgresReads

/-!
# What an optimistic save that succeeds says about the stream: C91

A client reads a stream, other clients act, and the client saves with the number of events it has read as the expected
number.
-/

namespace RangeDB

/-- The call is not a delete of the stream. -/
def Op.Keeps (st : Str) : Op → Prop
  | .save _ _ _ _ => True
  | .delete name _ _ => name ≠ st

theorem stream_append (view : Record → Record) (L : Log) (name st : Str) (ers : List EventRecord) :
    ∃ x, (L.append view name ers).stream st = L.stream st ++ x :=
  ⟨_, by simp only [Log.append, Log.stream, List.filter_append]; rfl⟩

theorem stream_delete (L : Log) {name st : Str} (h : name ≠ st) : (L.delete name).stream st = L.stream st := by
  simp only [Log.delete, Log.stream, List.filter_filter]
  refine List.filter_congr (fun r _ => ?_)
  by_cases e : r.streamName = st
  · simp [e, Ne.symm h]
  · simp [e]

theorem numbered_len (st : Str) : ∀ (g n : Nat) (l : List EventRecord), (numbered st g n l).length = l.length
  | _, _, [] => rfl
  | g, n, a :: l => by simp [numbered, numbered_len st (g + 1) (n + 1) l]

theorem numbered_name (st : Str) : ∀ (g n : Nat) (l : List EventRecord), ∀ y ∈ numbered st g n l, y.streamName = st
  | _, _, [], y, hy => by cases hy
  | g, n, a :: l, y, hy => by
    rcases List.mem_cons.mp hy with rfl | hy
    · rfl
    · exact numbered_name st _ _ l y hy

/-- A call of the in-memory store that is not a delete of the stream only adds to the stream. -/
theorem specStep_grows (z : Serializer) (L : Log) (st : Str) (op : Op) (h : op.Keeps st) :
    ∃ x, (specStep z L op).stream st = L.stream st ++ x := by
  cases op with
  | save name expected cancelAt ers =>
    simp only [specStep]
    split
    · exact ⟨[], by simp⟩
    · split
      · exact stream_append _ _ _ _ _
      · rename_i j e _
        unfold afterFail
        split
        · exact ⟨[], by simp⟩
        · exact ⟨[], by simp [Log.stream]⟩
        · exact stream_append _ _ _ _ _
  | delete name expected cancelled =>
    simp only [specStep]
    split
    · exact ⟨[], by rw [stream_delete L h, List.append_nil]⟩
    · exact ⟨[], by simp⟩

theorem specRun_grows (z : Serializer) (st : Str) : ∀ (ops : List Op) (L : Log), (∀ op ∈ ops, op.Keeps st) →
    ∃ x, (ops.foldl (specStep z) L).stream st = L.stream st ++ x
  | [], L, _ => ⟨[], by simp⟩
  | op :: ops, L, h => by
    obtain ⟨x, hx⟩ := specStep_grows z L st op (h op List.mem_cons_self)
    obtain ⟨y, hy⟩ := specRun_grows z st ops (specStep z L op) (fun o ho => h o (List.mem_cons_of_mem _ ho))
    exact ⟨x ++ y, by rw [List.foldl_cons, hy, hx, List.append_assoc]⟩

/-- The same for the LevelDB store. -/
theorem aStep_grows (z : Serializer) (A : AState) (st : Str) (op : Op) (h : op.Keeps st) :
    ∃ x, (aStep z A op).log.stream st = A.log.stream st ++ x := by
  cases op with
  | save name expected cancelAt ers =>
    simp only [aStep]
    split
    · exact ⟨[], by simp⟩
    · split
      · exact ⟨[], by simp⟩
      · split
        · exact stream_append _ _ _ _ _
        · exact ⟨[], by simp⟩
  | delete name expected cancelled =>
    simp only [aStep]
    split
    · exact ⟨[], by simp⟩
    · split
      · exact ⟨[], by simp⟩
      · split
        · exact ⟨[], by simp⟩
        · exact ⟨[], by simp only [stream_delete A.log h, List.append_nil]⟩

theorem aRun_grows (z : Serializer) (st : Str) : ∀ (ops : List Op) (A : AState), (∀ op ∈ ops, op.Keeps st) →
    ∃ x, (ops.foldl (aStep z) A).log.stream st = A.log.stream st ++ x
  | [], A, _ => ⟨[], by simp⟩
  | op :: ops, A, h => by
    obtain ⟨x, hx⟩ := aStep_grows z A st op (h op List.mem_cons_self)
    obtain ⟨y, hy⟩ := aRun_grows z st ops (aStep z A op) (fun o ho => h o (List.mem_cons_of_mem _ ho))
    exact ⟨x ++ y, by rw [List.foldl_cons, hy, hx, List.append_assoc]⟩

/-! ## In memory -/

namespace IM

/-- The full statement of **C91**: a client has read `read`, which are all events of the stream; later, an `OptimisticSave`
that expects their number succeeds; then the stream held, until this save, exactly the events that were read. -/
def C91_full : Prop :=
  ∀ (z : Serializer), z.Lawful → ∀ (ops₁ ops₂ : List Op), (∀ op ∈ ops₁ ++ ops₂, op.Guarded z) →
    ∀ (st : Str) (read : List Record) (c : Option Nat) (ers : List EventRecord) (k : Nat),
    (eventsByStream z (run z ops₁) none 0 st).recs = read →
    (saveEvents z (run z (ops₁ ++ ops₂)) st (some read.length) c ers).out = .ok k →
    (eventsByStream z (run z (ops₁ ++ ops₂)) none 0 st).recs = read

theorem read_spec {z : Serializer} {s : State} {L : Log} (h : Sim z s L) (st : Str) :
    (eventsByStream z s none 0 st).recs = L.stream st := by
  rw [eventsByStream_spec h]
  split
  · rename_i h0
    exact (List.length_eq_zero_iff.mp h0).symm
  · simp only [cut]
    exact List.filter_eq_self.mpr (by simp)

/-- **C91**, in memory, partial: it holds as long as nobody deletes the stream in between. Missing: streams that are deleted
and filled again to the same length, see `C91_false`. -/
theorem C91_inmemory_partial (z : Serializer) (hz : z.Lawful) {c : Option Nat} (ops₁ ops₂ : List Op)
    (hg : ∀ op ∈ ops₁ ++ ops₂, op.Guarded z) (st : Str) (hk : ∀ op ∈ ops₂, op.Keeps st) (read : List Record)
    (ers : List EventRecord) (k : Nat) (hr : (eventsByStream z (run z ops₁) none 0 st).recs = read)
    (hs : (saveEvents z (run z (ops₁ ++ ops₂)) st (some read.length) c ers).out = .ok k) :
    (eventsByStream z (run z (ops₁ ++ ops₂)) none 0 st).recs = read := by
  have h1 := (run_sim hz ops₁ (fun op ho => hg op (List.mem_append_left _ ho))).2
  have h2 := (run_sim hz (ops₁ ++ ops₂) hg).2
  have hlen := C05_success_only_if_match (ops₁ ++ ops₂) st read.length k c ers hs
  rw [total_spec h2 st, Outcome.ok.injEq] at hlen
  obtain ⟨x, hx⟩ := specRun_grows z st ops₂ (specRun z ops₁) hk
  have e : ops₂.foldl (specStep z) (specRun z ops₁) = specRun z (ops₁ ++ ops₂) := by
    simp [specRun, List.foldl_append]
  rw [e] at hx
  rw [read_spec h1] at hr
  rw [read_spec h2, hx]
  unfold Log.streamLen at hlen
  rw [hx, List.length_append, hr] at hlen
  have : x = [] := List.length_eq_zero_iff.mp (by omega)
  rw [this, List.append_nil, hr]

/-- **C91**, one winner, in memory: after an `OptimisticSave` that succeeded, and as long as nobody deletes the stream, no
other one that expects the same number succeeds. -/
theorem C91_inmemory_one_winner (z : Serializer) (hz : z.Lawful) {c c' : Option Nat} (ops₁ ops₂ : List Op) (st : Str) (e : Nat)
    (ers ers' : List EventRecord) (k k' : Nat)
    (hg : ∀ op ∈ ops₁ ++ Op.save st (some e) c ers :: ops₂, op.Guarded z) (hk : ∀ op ∈ ops₂, op.Keeps st)
    (h1 : (saveEvents z (run z ops₁) st (some e) c ers).out = .ok k) :
    (saveEvents z (run z (ops₁ ++ Op.save st (some e) c ers :: ops₂)) st (some e) c' ers').out ≠ .ok k' := by
  intro h2
  have hne : ers ≠ [] := by
    rintro rfl
    simp [saveEvents] at h1
  have hl2 := C05_success_only_if_match _ st e k' c' ers' h2
  obtain ⟨n, g, hn, _, _, _, hev, _⟩ := C01_save_appends hz ops₁ st (some e) c ers k h1
  have hl1 := C05_success_only_if_match ops₁ st e k c ers h1
  rw [hl1, Outcome.ok.injEq] at hn
  subst hn
  have hg3 : ∀ op ∈ ops₁ ++ [Op.save st (some e) c ers], op.Guarded z := by
    intro op ho
    apply hg
    simp only [List.mem_append, List.mem_cons, List.not_mem_nil, or_false] at ho ⊢
    rcases ho with h | h
    · exact .inl h
    · exact .inr (.inl h)
  have s1 := (run_sim hz ops₁ (fun op ho => hg op (List.mem_append_left _ ho))).2
  have s3 := (run_sim hz (ops₁ ++ [Op.save st (some e) c ers]) hg3).2
  have s4 := (run_sim hz (ops₁ ++ Op.save st (some e) c ers :: ops₂) hg).2
  have hrun : run z (ops₁ ++ [Op.save st (some e) c ers]) = (saveEvents z (run z ops₁) st (some e) c ers).state := by
    simp [run, List.foldl_append, step]
  rw [← hrun, events_spec s3, events_spec s1] at hev
  have hall : ∀ l : List Record, l.filter (fun r => decide (r.gsn ≥ 0)) = l := fun l => List.filter_eq_self.mpr (by simp)
  simp only [cut, hall, Iter.mk.injEq, and_true] at hev
  obtain ⟨x, hx⟩ := specRun_grows z st ops₂ (specRun z (ops₁ ++ [Op.save st (some e) c ers])) hk
  have e1 : ops₂.foldl (specStep z) (specRun z (ops₁ ++ [Op.save st (some e) c ers])) =
      specRun z (ops₁ ++ Op.save st (some e) c ers :: ops₂) := by
    simp [specRun, List.foldl_append]
  rw [e1] at hx
  rw [total_spec s1 st, Outcome.ok.injEq] at hl1
  rw [total_spec s4 st, Outcome.ok.injEq] at hl2
  have hcnt : (specRun z (ops₁ ++ [Op.save st (some e) c ers])).streamLen st = e + ers.length := by
    have hf : ((numbered st g e ers).map z.view).filter (fun r => r.streamName = st) = (numbered st g e ers).map z.view := by
      refine List.filter_eq_self.mpr ?_
      intro r hr
      obtain ⟨y, hy, rfl⟩ := List.mem_map.mp hr
      simp [hz.streamName y, numbered_name _ _ _ _ y hy]
    unfold Log.streamLen Log.stream
    rw [hev, List.filter_append, List.length_append, hf, List.length_map, numbered_len]
    unfold Log.streamLen Log.stream at hl1
    rw [hl1]
  have : (specRun z (ops₁ ++ Op.save st (some e) c ers :: ops₂)).streamLen st = e + ers.length + x.length := by
    rw [← hcnt]
    unfold Log.streamLen
    rw [hx, List.length_append]
  have := List.length_pos_iff.mpr hne
  omega

open Demo in
/-- **C91** is false: the client reads one event; the stream is deleted and one other event is saved; the client's
`OptimisticSave(1)` succeeds. -/
theorem C91_false : ¬ C91_full := by
  intro h
  have := h demo demo_lawful [.save sA none none [evA [1]]] [.delete sA 1 false, .save sA none none [evA [2]]]
    (by intro op ho; simp at ho; rcases ho with rfl | rfl | rfl <;> simp [Op.Guarded, RangeDB.Guarded]) sA _ none [evA [3]] 2 rfl
    (by decide)
  exact absurd this (by decide)

open Demo in
example : (∀ op ∈ [Op.save sA none none [evA [2]], Op.delete sB 0 false], op.Keeps sA) ∧
    (saveEvents demo (run demo [.save sA none none [evA [1]], .save sB none none [evB [2]], .delete sB 1 false]) sA (some 1)
      none [evA [3]]).out = .ok 2 := by
  refine ⟨?_, by decide⟩
  intro op ho
  simp at ho
  rcases ho with rfl | rfl <;> simp [Op.Keeps, sA, sB]

end IM

/-! ## LevelDB -/

namespace LD

theorem stuck_leaked (z : Serializer) : ∀ (ops : List Op) (A : AState), (A.stuck = true → A.leaked = true) →
    ((ops.foldl (aStep z) A).stuck = true → (ops.foldl (aStep z) A).leaked = true)
  | [], _, h => h
  | op :: ops, A, h => by
    refine stuck_leaked z ops _ ?_
    cases op with
    | save name expected cancelAt ers =>
      simp only [aStep]
      split
      · exact h
      · split
        · rename_i hl; intro _; exact hl
        · split <;> exact h
    | delete name expected cancelled =>
      simp only [aStep]
      split
      · exact h
      · split
        · rename_i hl; intro _; exact hl
        · split
          · intro _; rfl
          · exact h

/-- **C91**, LevelDB, partial: as `IM.C91_inmemory_partial`. Missing: streams that are deleted and filled again to the same
length, see `C91_leveldb_false`. -/
theorem C91_leveldb_partial (z : Serializer) (hz : z.Lawful) {c : Option Nat} (ops₁ ops₂ : List Op) (hn : ∀ op ∈ ops₁ ++ ops₂, op.NamesIn N)
    (st : Str) (hk : ∀ op ∈ ops₂, op.Keeps st) (it : Iter) (ers : List EventRecord) (k : Nat)
    (hno : (Op.save st (some it.recs.length) c ers).NamesIn N)
    (hb : ((ops₁ ++ ops₂).map Op.size).sum + ers.length < 2 ^ 64)
    (hr : eventsByStream z (run z ops₁) none 0 st = .ok it)
    (hs : (saveEvents z (run z (ops₁ ++ ops₂)) st (some it.recs.length) c ers).out = .ok k) :
    ∃ it', eventsByStream z (run z (ops₁ ++ ops₂)) none 0 st = .ok it' ∧ it'.recs = it.recs := by
  have hn1 : ∀ op ∈ ops₁, op.NamesIn N := fun op ho => hn op (List.mem_append_left _ ho)
  have hb1 : (ops₁.map Op.size).sum < 2 ^ 64 := by
    rw [List.map_append, List.sum_append] at hb
    omega
  have r1 := C11_reads hz ops₁ hn1 hb1
  have r2 := C11_reads hz (ops₁ ++ ops₂) hn (by omega)
  have hout := ((C11_calls hz (ops₁ ++ ops₂) hn).1 st (some it.recs.length) c ers hno hb).1
  rw [hs] at hout
  have hlk : (aRun z (ops₁ ++ ops₂)).leaked = false := by
    cases hx : (aRun z (ops₁ ++ ops₂)).leaked with
    | false => rfl
    | true =>
      unfold aSaveOut at hout
      split at hout
      · cases hout
      · simp at hout
  have hst : (aRun z (ops₁ ++ ops₂)).stuck = false := by
    cases hx : (aRun z (ops₁ ++ ops₂)).stuck with
    | false => rfl
    | true =>
      have := stuck_leaked z (ops₁ ++ ops₂) AState.init (by simp [AState.init]) hx
      unfold aRun at hlk
      rw [hlk] at this
      cases this
  have hst1 : (aRun z ops₁).stuck = false := by
    cases hx : (aRun z ops₁).stuck with
    | false => rfl
    | true =>
      have stays : ∀ (ops : List Op) (A : AState), A.leaked = true → A.stuck = true →
          (ops.foldl (aStep z) A).stuck = true := by
        intro ops
        induction ops with
        | nil => intro A _ h; exact h
        | cons op ops ih =>
          intro A h1 h2
          refine ih _ ?_ ?_ <;> cases op <;> simp only [aStep] <;> repeat (first | split | assumption | rfl) 
      have := stays ops₂ (aRun z ops₁) (stuck_leaked z ops₁ AState.init (by simp [AState.init]) hx) hx
      unfold aRun at hst this
      rw [List.foldl_append, this] at hst
      cases hst
  have hev1 := (r1.1 hst1).2.2.2 none 0 st hno.1
  have hev2 := (r2.1 hst).2.2.2 none 0 st hno.1
  have hfil : ∀ L : Log, (if L.streamLen st = 0 then (⟨[], some .notFound⟩ : Iter)
      else cut none ((L.stream st).filter (fun r => r.seq ≥ 0))).recs = L.stream st := by
    intro L
    split
    · rename_i h0
      exact (List.length_eq_zero_iff.mp h0).symm
    · simp only [cut]
      exact List.filter_eq_self.mpr (by simp)
  rw [hr, Outcome.ok.injEq] at hev1
  have hit : it.recs = (aRun z ops₁).log.stream st := by rw [hev1]; exact hfil _
  refine ⟨_, hev2, ?_⟩
  rw [hfil]
  obtain ⟨x, hx⟩ := aRun_grows z st ops₂ (aRun z ops₁) hk
  have e : ops₂.foldl (aStep z) (aRun z ops₁) = aRun z (ops₁ ++ ops₂) := by
    simp [aRun, List.foldl_append]
  rw [e] at hx
  have hold := (r2.1 hst).1 none 0 (by omega)
  have hm := ((C11_save_appends hz (ops₁ ++ ops₂) hn st (some it.recs.length) c ers hno hb _ _ hold
    (r2.2.1 st hno.1)).1 k hs).2.1 _ rfl
  unfold Log.streamLen at hm
  rw [hx, List.length_append, ← hit] at hm
  have : x = [] := List.length_eq_zero_iff.mp (by omega)
  rw [hx, this, List.append_nil, hit]

/-- An `OptimisticSave` that succeeds: the store is not stuck, and the number of events is the one it expects. -/
theorem saved_spec {z : Serializer} {c : Option Nat} (hz : z.Lawful) (ops : List Op) (hn : ∀ op ∈ ops, op.NamesIn N) (st : Str) (e : Nat)
    (ers : List EventRecord) (k : Nat) (hno : (Op.save st (some e) c ers).NamesIn N)
    (hb : (ops.map Op.size).sum + ers.length < 2 ^ 64)
    (hs : (saveEvents z (run z ops) st (some e) c ers).out = .ok k) :
    ers ≠ [] ∧ (aRun z ops).leaked = false ∧ batchProblem z (aRun z ops).log st (some e) c ers = none ∧
      e = (aRun z ops).log.streamLen st := by
  have hout := ((C11_calls hz ops hn).1 st (some e) c ers hno hb).1
  rw [hs] at hout
  have hne : ers ≠ [] := by
    rintro rfl
    simp [aSaveOut] at hout
  have hlk : (aRun z ops).leaked = false := by
    cases hx : (aRun z ops).leaked with
    | false => rfl
    | true => simp [aSaveOut, hne, hx] at hout
  have hst : (aRun z ops).stuck = false := by
    cases hx : (aRun z ops).stuck with
    | false => rfl
    | true =>
      have := stuck_leaked z ops AState.init (by simp [AState.init]) hx
      unfold aRun at hlk
      rw [hlk] at this
      cases this
  have r := C11_reads hz ops hn (by omega)
  have hold := (r.1 hst).1 none 0 (by omega)
  refine ⟨hne, hlk, ?_, ((C11_save_appends hz ops hn st (some e) c ers hno hb _ _ hold (r.2.1 st hno.1)).1 k hs).2.1 _ rfl⟩
  cases hp : batchProblem z (aRun z ops).log st (some e) c ers with
  | none => rfl
  | some p => simp [aSaveOut, hne, hlk, hp] at hout

/-- **C91**, one winner, LevelDB: as `IM.C91_inmemory_one_winner`. -/
theorem C91_leveldb_one_winner (z : Serializer) (hz : z.Lawful) {c c' : Option Nat} (ops₁ ops₂ : List Op) (st : Str) (e : Nat)
    (ers ers' : List EventRecord) (k k' : Nat)
    (hn : ∀ op ∈ ops₁ ++ Op.save st (some e) c ers :: ops₂, op.NamesIn N)
    (hno : (Op.save st (some e) c' ers').NamesIn N)
    (hb : ((ops₁ ++ Op.save st (some e) c ers :: ops₂).map Op.size).sum + ers'.length < 2 ^ 64)
    (hk : ∀ op ∈ ops₂, op.Keeps st)
    (h1 : (saveEvents z (run z ops₁) st (some e) c ers).out = .ok k) :
    (saveEvents z (run z (ops₁ ++ Op.save st (some e) c ers :: ops₂)) st (some e) c' ers').out ≠ .ok k' := by
  intro h2
  obtain ⟨_, _, _, he2⟩ := saved_spec hz _ hn st e ers' k' hno hb h2
  obtain ⟨hne, hlk, hp, he1⟩ := saved_spec hz ops₁ (fun op ho => hn op (List.mem_append_left _ ho)) st e ers k
    (hn _ (List.mem_append_right _ List.mem_cons_self))
    (by simp only [List.map_append, List.map_cons, List.sum_append, List.sum_cons, Op.size] at hb; omega) h1
  obtain ⟨x, hx⟩ := aRun_grows z st ops₂ (aRun z (ops₁ ++ [Op.save st (some e) c ers])) hk
  have e1 : ops₂.foldl (aStep z) (aRun z (ops₁ ++ [Op.save st (some e) c ers])) =
      aRun z (ops₁ ++ Op.save st (some e) c ers :: ops₂) := by
    simp [aRun, List.foldl_append]
  have e2 : (aRun z (ops₁ ++ [Op.save st (some e) c ers])).log = (aRun z ops₁).log.append z.view st ers := by
    have : aRun z (ops₁ ++ [Op.save st (some e) c ers]) = aStep z (aRun z ops₁) (.save st (some e) c ers) := by
      simp [aRun, List.foldl_append]
    rw [this]
    simp only [aStep, if_neg hne, hlk, Bool.false_eq_true, if_false, hp]
  rw [e1, e2] at hx
  have h3 := Log.streamLen_append_self hz (aRun z ops₁).log (st := st) ers
  have := List.length_pos_iff.mpr hne
  unfold Log.streamLen at he1 he2 h3
  rw [hx, List.length_append] at he2
  omega

open Demo in
/-- **C91** is false of the LevelDB store in the same way. -/
theorem C91_leveldb_false :
    let before := run demo [.save sA none none [evA [1]]]
    let after := run demo [.save sA none none [evA [1]], .delete sA 1 false, .save sA none none [evA [2]]]
    ∃ a b, eventsByStream demo before none 0 sA = .ok a ∧ a.recs.length = 1 ∧
      (saveEvents demo after sA (some 1) none [evA [3]]).out = .ok 2 ∧
      eventsByStream demo after none 0 sA = .ok b ∧ b.recs ≠ a.recs := by
  refine ⟨_, _, rfl, by decide, by decide, rfl, by decide⟩

end LD

/-! ## PostgreSQL -/

namespace PG
open RangeDB.Json

theorem hist_grows (cfg : Config) (s : State) (ms : Schedule) : ∃ x, (runFrom cfg s ms).hist = s.hist ++ x := by
  refine run_induct (P := fun s' => ∃ x, s'.hist = s.hist ++ x) ?_ ms s ⟨[], by simp⟩
  rintro s1 p m s2 ⟨x, hx⟩ he
  cases he with
  | commit st e ers rows y hp hy =>
    refine ⟨x ++ [(st, e, rows)], ?_⟩
    show s1.hist ++ [(st, e, rows)] = _
    rw [hx, List.append_assoc]
  | _ => exact ⟨x, hx⟩

theorem readRows_append {cfg : Config} {ms : Schedule} (h : AllReadable cfg ms) : ∀ x y : List Record,
    (∀ r ∈ x, r ∈ (run cfg ms).rows) →
      (readRows cfg.ty (x ++ y)).recs = (readRows cfg.ty x).recs ++ (readRows cfg.ty y).recs
  | [], _, _ => rfl
  | r :: x, y, hx => by
    obtain ⟨d, _, hd⟩ := readable_rows cfg ms h r (hx r (by simp))
    simp only [List.cons_append, readRows, hd, readRows_append h x y (fun z hz => hx z (by simp [hz]))]

/-- The records of a stream in the log are its rows, decoded. -/
theorem log_stream {cfg : Config} {ms : Schedule} (h : AllReadable cfg ms) (st : Str) :
    (logOf cfg (run cfg ms)).filter (fun r => r.streamName = st) = (readRows cfg.ty ((run cfg ms).streamRows st)).recs := by
  rw [logOf_eq, streamRows_eq, readRows_all (run cfg ms).rows (readable_rows cfg ms h) (fun r => decide (r.streamName = st))
    (fun _ _ => rfl)]

theorem byStream_log {cfg : Config} {ms : Schedule} (h : AllReadable cfg ms) (st : Str) :
    (eventsByStream cfg (run cfg ms) 0 st).recs = (logOf cfg (run cfg ms)).filter (fun r => r.streamName = st) := by
  rw [(C89_partial cfg ms h).2.2.2 0 st]
  split
  · refine List.filter_congr (fun r _ => ?_)
    simp
  · rename_i hn
    refine (List.filter_eq_nil_iff.mpr ?_).symm
    intro r hr hx
    exact hn ⟨r, hr, by simpa using hx, Nat.zero_le _⟩

/-- **C91**, PostgreSQL, partial: a client has read the stream after the schedule `ms₁`; an `OptimisticSave` that expects the
number of events it has read is acknowledged in the course of `ms₂`; then its events directly follow those that were read. No
other client, however the calls overlap, saved anything in between. Missing: streams that are deleted, see
`C91_postgres_false`. -/
theorem C91_postgres_partial (cfg : Config) (ms₁ ms₂ : Schedule) (h : AllReadable cfg (ms₁ ++ ms₂)) (st : Str)
    (hd : NoDelete st (ms₁ ++ ms₂)) (read : List Record)
    (hr : (eventsByStream cfg (run cfg ms₁) 0 st).recs = read) (p : Nat) (ers : List EventRecord) (n : Nat)
    (hp : (run cfg (ms₁ ++ ms₂)).procs p = .returned (.save st (some read.length) ers) (.ok n)) :
    ∃ mine after, (eventsByStream cfg (run cfg (ms₁ ++ ms₂)) 0 st).recs = read ++ mine ++ after ∧
      mine.map (·.eventId) = ers.map (·.uuid) := by
  have h1 : AllReadable cfg ms₁ := fun m hm => h m (List.mem_append_left _ hm)
  have hd1 : NoDelete st ms₁ := fun m hm => hd m (List.mem_append_left _ hm)
  obtain ⟨x, hx⟩ := hist_grows cfg (run cfg ms₁) ms₂
  have hrun : runFrom cfg (run cfg ms₁) ms₂ = run cfg (ms₁ ++ ms₂) := by
    simp [run, runFrom, List.foldl_append]
  rw [hrun] at hx
  have hsplit : (run cfg (ms₁ ++ ms₂)).streamRows st = (run cfg ms₁).streamRows st ++ putInto st x := by
    rw [C38_serial cfg st _ hd, C38_serial cfg st _ hd1, hx, putInto_append]
  have hsub : ∀ r ∈ (run cfg ms₁).streamRows st, r ∈ (run cfg (ms₁ ++ ms₂)).rows := by
    intro r hr'
    have : r ∈ (run cfg (ms₁ ++ ms₂)).streamRows st := by rw [hsplit]; exact List.mem_append_left _ hr'
    exact (List.mem_filter.mp this).1
  rw [byStream_log h1, log_stream h1] at hr
  rw [byStream_log h]
  have hlog : (logOf cfg (run cfg (ms₁ ++ ms₂))).filter (fun r => r.streamName = st) =
      read ++ (readRows cfg.ty (putInto st x)).recs := by
    rw [log_stream h, hsplit, readRows_append h _ _ hsub, hr]
  obtain ⟨b, rows, a, hs, hc, hq, _, he⟩ := C38_acknowledged cfg st _ hd p (some read.length) ers n hp
  obtain ⟨before, mine, after, e1, e2, e3, e4⟩ := C89_acknowledged cfg st _ h hd p (some read.length) ers n hp
  have hbl : before.length = read.length := by
    have hn : n = b.length + ers.length := by assumption
    have := he _ rfl
    omega
  rw [hlog, List.append_assoc] at e1
  have hb := (List.append_inj e1.symm hbl).1
  refine ⟨mine, after, ?_, ?_⟩
  · rw [hlog, e1, hb, List.append_assoc]
  · apply List.ext_getElem?
    intro i
    by_cases hi : i < ers.length
    · obtain ⟨r, g1, _, _, _, _, g2, _⟩ := e4 i hi
      simp [g1, g2, hi]
    · rw [List.getElem?_eq_none (by simp [e3]; omega), List.getElem?_eq_none (by simp; omega)]

/-- **C91** is false of the PostgreSQL store in the same way. -/
theorem C91_postgres_false :
    let ms₁ := fullSave 0 pA none (demoEr goodData)
    let ms₂ := [(1, Move.call (.delete pA 1)), (1, .go), (1, .go), (1, .go), (1, .go)] ++ fullSave 2 pA none (demoEr goodData) ++
      fullSave 3 pA (some 1) (demoEr goodData)
    (eventsByStream demoCfg (run demoCfg ms₁) 0 pA).recs.map (·.gsn) = [1] ∧
    (run demoCfg (ms₁ ++ ms₂)).procs 3 = .returned (.save pA (some 1) [demoEr goodData]) (.ok 2) ∧
    (eventsByStream demoCfg (run demoCfg (ms₁ ++ ms₂)) 0 pA).recs.map (·.gsn) = [2, 3] := by
  refine ⟨by decide +kernel, rfl, by decide +kernel⟩

example : (run demoCfg (fullSave 0 pA none (demoEr goodData) ++ fullSave 3 pA (some 1) (demoEr goodData))).procs 3 =
    .returned (.save pA (some 1) [demoEr goodData]) (.ok 2) := rfl

end PG
end RangeDB

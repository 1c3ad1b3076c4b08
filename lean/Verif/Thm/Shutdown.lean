import Verif.Model.Shutdown
import Verif.Thm.Lock

/-!
# Saving never waits for a subscriber (C88); a subscription that ends says so (C87)
-/

namespace RangeDB.Stop

/-- What every reachable state satisfies. -/
structure Inv (s : State) : Prop where
  regs : ∀ x ∈ s.regs, x.2 < s.subs.length
  sending : ∀ r todo, s.bc = .sending r todo → todo ≠ [] ∧ ∀ x ∈ todo, x.2 < s.subs.length
  leaving : ∀ x ∈ s.subs, ∀ why, x.pc ≠ .leaving [] why

theorem inv_init (cap : Nat) : Inv (init cap) :=
  ⟨by simp [init], by simp [init], by simp [init]⟩

theorem Inv.set {s : State} (h : Inv s) (i : Nat) (y : Subscr) (hy : ∀ why, y.pc ≠ .leaving [] why) :
    Inv (s.setSub i y) := by
  refine ⟨?_, ?_, ?_⟩
  · intro x hx; simp only [State.setSub, List.length_set]; exact h.regs x hx
  · intro r todo hb; simp only [State.setSub, List.length_set]; exact h.sending r todo hb
  · intro x hx why
    rcases Lock.mem_set_cases hx with rfl | hx
    · exact hy why
    · exact h.leaving x hx why

theorem Inv.next {s : State} {r : Record} {x : Topic × Nat} {todo : List (Topic × Nat)} (h : Inv s)
    (hb : s.bc = .sending r (x :: todo)) : Inv { s with bc := next r todo } := by
  refine ⟨h.regs, ?_, h.leaving⟩
  intro r' todo' hb'
  have := (h.sending r _ hb).2
  cases todo with
  | nil => simp [Stop.next] at hb'
  | cons y ys =>
    simp only [Stop.next, Bc.sending.injEq] at hb'
    obtain ⟨rfl, rfl⟩ := hb'
    exact ⟨by simp, fun z hz => this z (List.mem_cons_of_mem _ hz)⟩

theorem Inv.unreg {s : State} (h : Inv s) (x : Topic × Nat) :
    Inv { s with regs := s.regs.filter (fun y => y ≠ x) } :=
  ⟨fun y hy => h.regs y (List.mem_filter.mp hy).1, h.sending, h.leaving⟩

theorem leavingPC_ne (why : Cause) (ts : List Topic) (w : Cause) : leavingPC why ts ≠ .leaving [] w := by
  cases ts <;> simp [leavingPC]

theorem started_ne (x : Subscr) (ts : List Topic) (w : Cause) : started x ≠ .leaving ts w := by
  unfold started; split <;> simp

theorem inv_step {s s' : State} (h : Inv s) (l : Label) (hs : step s l = some s') : Inv s' := by
  cases l with
  | newSaver rs => obtain rfl := Option.some.inj hs; exact ⟨h.regs, h.sending, h.leaving⟩
  | newSub topics cap live =>
    obtain rfl := Option.some.inj hs
    refine ⟨?_, ?_, ?_⟩
    · intro x hx; have := h.regs x hx; simp only [List.length_append]; omega
    · intro r todo hb
      obtain ⟨h1, h2⟩ := h.sending r todo hb
      refine ⟨h1, fun x hx => ?_⟩
      have := h2 x hx
      simp only [List.length_append]; omega
    · intro x hx why
      rcases List.mem_append.mp hx with hx | hx
      · exact h.leaving x hx why
      · obtain rfl := List.mem_singleton.mp hx
        simp only
        split
        · exact started_ne _ _ _
        · simp
  | stopSub i =>
    simp only [step] at hs
    split at hs
    · cases hs
    · rename_i x hx
      obtain rfl := Option.some.inj hs
      exact h.set i _ (h.leaving x (List.mem_of_getElem? hx))
  | consumeFail i =>
    simp only [step] at hs
    split at hs
    · cases hs
    · split at hs
      · obtain rfl := Option.some.inj hs
        exact h.set i _ (leavingPC_ne _ _)
      · cases hs
  | readFail i =>
    simp only [step] at hs
    split at hs
    · cases hs
    · split at hs
      · obtain rfl := Option.some.inj hs
        exact h.set i _ (leavingPC_ne _ _)
      · cases hs
  | close =>
    simp only [step] at hs
    split at hs
    · obtain rfl := Option.some.inj hs
      refine ⟨?_, by simp, ?_⟩
      · intro x hx; simp only [List.length_mapIdx]; exact h.regs x hx
      · intro x hx why
        obtain ⟨i, hi, rfl⟩ := List.mem_mapIdx.mp hx
        have := h.leaving _ (List.getElem_mem hi) why
        split <;> simpa using this
    · cases hs
  | accept k =>
    simp only [step] at hs
    split at hs
    · split at hs
      · obtain rfl := Option.some.inj hs
        exact ⟨h.regs, h.sending, h.leaving⟩
      · cases hs
    · cases hs
  | take order =>
    simp only [step] at hs
    split at hs
    · rename_i r q hb hq
      split at hs
      · rename_i hp
        obtain rfl := Option.some.inj hs
        rw [List.isPerm_iff] at hp
        refine ⟨h.regs, ?_, h.leaving⟩
        intro r' todo' hb'
        cases order with
        | nil => simp [Stop.next] at hb'
        | cons y ys =>
          simp only [Stop.next, Bc.sending.injEq] at hb'
          obtain ⟨rfl, rfl⟩ := hb'
          refine ⟨by simp, fun z hz => h.regs z ?_⟩
          exact (List.mem_filter.mp (hp.mem_iff.mp hz)).1
      · cases hs
    · cases hs
  | deliver =>
    simp only [step] at hs
    split at hs
    · rename_i r t i todo hb
      split at hs
      · cases hs
      · rename_i x hx
        split at hs
        · obtain rfl := Option.some.inj hs
          exact (h.set i { x with buf := x.buf ++ [r] } (h.leaving x (List.mem_of_getElem? hx))).next (x := (t, i))
            (by simpa [State.setSub] using hb)
        · cases hs
    · cases hs
  | timeout =>
    simp only [step] at hs
    split at hs
    · rename_i r t i todo hb
      split at hs
      · cases hs
      · rename_i x hx
        split at hs
        · cases hs
        · obtain rfl := Option.some.inj hs
          exact ((h.set i { x with cancelled := true } (h.leaving x (List.mem_of_getElem? hx))).next (x := (t, i))
            (by simpa [State.setSub] using hb)).unreg (t, i)
    · cases hs
  | register i =>
    simp only [step] at hs
    split at hs
    · rename_i x hb hx
      split at hs
      · obtain rfl := Option.some.inj hs
        exact h.set i _ (started_ne x _)
      · rename_i t todo hpc
        obtain rfl := Option.some.inj hs
        have hlt : i < s.subs.length := (List.getElem?_eq_some_iff.mp hx).1
        have h' := h.set i { x with pc := if todo.isEmpty then started x else .starting todo } (by
          intro why
          simp only
          split
          · exact started_ne _ _ _
          · simp)
        refine ⟨?_, h'.sending, h'.leaving⟩
        intro y hy
        simp only [addReg] at hy
        split at hy
        · exact h'.regs y hy
        · rcases List.mem_append.mp hy with hy | hy
          · exact h'.regs y hy
          · obtain rfl := List.mem_singleton.mp hy
            simpa [State.setSub] using hlt
      · cases hs
    · cases hs
  | caughtUp i =>
    simp only [step] at hs
    split at hs
    · cases hs
    · split at hs
      · obtain rfl := Option.some.inj hs
        exact h.set i _ (by simp)
      · cases hs
  | pick i =>
    simp only [step] at hs
    split at hs
    · cases hs
    · split at hs
      · obtain rfl := Option.some.inj hs
        exact h.set i _ (by simp)
      · cases hs
  | quit i =>
    simp only [step] at hs
    split at hs
    · cases hs
    · split at hs
      · obtain rfl := Option.some.inj hs
        exact h.set i _ (leavingPC_ne _ _)
      · cases hs
  | consume i =>
    simp only [step] at hs
    split at hs
    · cases hs
    · split at hs
      · obtain rfl := Option.some.inj hs
        exact h.set i _ (by simp)
      · cases hs
  | leave i =>
    simp only [step] at hs
    split at hs
    · rename_i x hb hx
      split at hs
      · rename_i t todo why hpc
        obtain rfl := Option.some.inj hs
        exact (h.set i { x with pc := leavingPC why todo } (leavingPC_ne _ _)).unreg (t, i)
      · cases hs
    · cases hs

theorem inv_exec (ls : List Label) : ∀ {s s' : State}, Inv s → exec s ls = some s' → Inv s' := by
  induction ls with
  | nil => intro s s' h hs; obtain rfl := Option.some.inj hs; exact h
  | cons l ls ih =>
    intro s s' h hs
    simp only [exec] at hs
    cases hst : step s l with
    | none => simp [hst] at hs
    | some s1 => simp only [hst] at hs; exact ih (inv_step h l hst) hs

/-- Only `Close` ends the broadcaster. -/
theorem open_step {s s' : State} (h : s.bc ≠ .closed) (l : Label) (hl : l ≠ .close) (hs : step s l = some s') :
    s'.bc ≠ .closed := by
  have hn : ∀ (r : Record) (ts : List (Topic × Nat)), next r ts ≠ .closed := by intro r ts; cases ts <;> simp [next]
  cases l <;> simp only [step] at hs <;> (try exact absurd rfl hl) <;> (repeat' split at hs) <;>
    first
    | (obtain rfl := Option.some.inj hs; first | exact h | exact hn _ _ | simpa [State.setSub] using h)
    | cases hs

theorem open_exec (ls : List Label) : ∀ {s s' : State}, s.bc ≠ .closed → .close ∉ ls → exec s ls = some s' →
    s'.bc ≠ .closed := by
  induction ls with
  | nil => intro s s' h _ hs; obtain rfl := Option.some.inj hs; exact h
  | cons l ls ih =>
    intro s s' h hl hs
    simp only [exec] at hs
    cases hst : step s l with
    | none => simp [hst] at hs
    | some s1 =>
      simp only [hst] at hs
      exact ih (open_step h l (fun hc => hl (by simp [hc])) hst) (fun hc => hl (List.mem_cons_of_mem _ hc)) hs

theorem exec_append (a b : List Label) : ∀ (s : State), exec s (a ++ b) = (exec s a).bind (fun s' => exec s' b) := by
  induction a with
  | nil => intro s; rfl
  | cons l a ih =>
    intro s
    simp only [List.cons_append, exec]
    cases step s l with
    | none => rfl
    | some s1 => exact ih s1

/-- A broadcaster that is sending can go on, whatever the subscribers do. -/
theorem sending_goes_on {s : State} (h : Inv s) {r : Record} {todo : List (Topic × Nat)}
    (hb : s.bc = .sending r todo) : ∃ l s', Core l ∧ step s l = some s' := by
  obtain ⟨hne, hall⟩ := h.sending r todo hb
  cases todo with
  | nil => exact absurd rfl hne
  | cons x todo =>
    obtain ⟨t, i⟩ := x
    have hlt : i < s.subs.length := hall (t, i) (by simp)
    by_cases hroom : s.subs[i].room = true
    · have hsome : (step s .deliver).isSome = true := by
        simp only [step, hb, List.getElem?_eq_getElem hlt, hroom, if_true, Option.isSome_some]
      obtain ⟨s', hs'⟩ := Option.isSome_iff_exists.mp hsome
      exact ⟨.deliver, s', trivial, hs'⟩
    · have : ¬ s.subs[i].buf.length < s.subs[i].cap := by
        intro hlt'
        simp [Subscr.room, hlt'] at hroom
      have hsome : (step s .timeout).isSome = true := by
        simp only [step, hb, List.getElem?_eq_getElem hlt, this, if_false, Option.isSome_some]
      obtain ⟨s', hs'⟩ := Option.isSome_iff_exists.mp hsome
      exact ⟨.timeout, s', trivial, hs'⟩

/-! ## C88 -/

/-- Records not yet accepted, queued and being sent. -/
def load (s : State) : Nat :=
  3 * (s.savers.map List.length).sum + 2 * s.queue.length + (match s.bc with | .sending _ _ => 1 | _ => 0)

/-- Sends left of the record being sent. -/
def sends (s : State) : Nat := match s.bc with | .sending _ todo => todo.length | _ => 0

theorem sum_set (l : List (List Record)) (k : Nat) (r : Record) (rest : List Record) (h : l[k]? = some (r :: rest)) :
    ((l.set k rest).map List.length).sum + 1 = (l.map List.length).sum := by
  induction l generalizing k with
  | nil => simp at h
  | cons a l ih =>
    cases k with
    | zero =>
      simp only [List.getElem?_cons_zero, Option.some.injEq] at h
      subst h
      simp; omega
    | succ k =>
      simp only [List.getElem?_cons_succ] at h
      have := ih k h
      simp only [List.set_cons_succ, List.map_cons, List.sum_cons]
      omega

theorem load_step {s s' : State} (l : Label) (hl : ∀ rs, l ≠ .newSaver rs) (hs : step s l = some s') :
    (Core l → Prod.Lex (· < ·) (· < ·) (load s', sends s') (load s, sends s)) ∧
    (¬ Core l → (load s', sends s') = (load s, sends s)) := by
  cases l with
  | newSaver rs => exact absurd rfl (hl rs)
  | accept k =>
    refine ⟨fun _ => ?_, fun h => absurd trivial h⟩
    simp only [step] at hs
    split at hs
    · rename_i r rest hk
      split at hs
      · obtain rfl := Option.some.inj hs
        apply Prod.Lex.left
        have := sum_set s.savers k r rest hk
        simp only [load, List.length_append, List.length_singleton]
        omega
      · cases hs
    · cases hs
  | take order =>
    refine ⟨fun _ => ?_, fun h => absurd trivial h⟩
    simp only [step] at hs
    split at hs
    · rename_i r q hb hq
      split at hs
      · obtain rfl := Option.some.inj hs
        apply Prod.Lex.left
        simp only [load, hb, hq, List.length_cons]
        cases order <;> simp [next] <;> omega
      · cases hs
    · cases hs
  | deliver =>
    refine ⟨fun _ => ?_, fun h => absurd trivial h⟩
    simp only [step] at hs
    split at hs
    · rename_i r t i todo hb
      split at hs
      · cases hs
      · split at hs
        · obtain rfl := Option.some.inj hs
          cases todo with
          | nil => exact Prod.Lex.left _ _ (by simp [load, hb, next, State.setSub])
          | cons y ys =>
            simp only [load, sends, hb, next, State.setSub, List.length_cons]
            exact Prod.Lex.right _ (by omega)
        · cases hs
    · cases hs
  | timeout =>
    refine ⟨fun _ => ?_, fun h => absurd trivial h⟩
    simp only [step] at hs
    split at hs
    · rename_i r t i todo hb
      split at hs
      · cases hs
      · split at hs
        · cases hs
        · obtain rfl := Option.some.inj hs
          cases todo with
          | nil => exact Prod.Lex.left _ _ (by simp [load, hb, next, State.setSub])
          | cons y ys =>
            simp only [load, sends, hb, next, State.setSub, List.length_cons]
            exact Prod.Lex.right _ (by omega)
    · cases hs
  | close =>
    refine ⟨fun h => h.elim, fun _ => ?_⟩
    simp only [step] at hs
    split at hs
    · rename_i hb
      obtain rfl := Option.some.inj hs
      simp [load, sends, hb]
    · cases hs
  | newSub _ _ _ => refine ⟨fun h => h.elim, fun _ => ?_⟩; obtain rfl := Option.some.inj hs; rfl
  | stopSub _ | consumeFail _ | readFail _ | caughtUp _ | pick _ | quit _ | consume _ | register _ | leave _ =>
    refine ⟨fun h => h.elim, fun _ => ?_⟩
    simp only [step] at hs
    (repeat' split at hs) <;> first | (obtain rfl := Option.some.inj hs; rfl) | cases hs

/-- Somebody is still in `Accept`, that is, in `Save`. -/
def Saving (s : State) : Prop := ∃ rs ∈ s.savers, rs ≠ []

theorem core_goes_on {s : State} (h : Inv s) (ho : s.bc ≠ .closed) (hs : Saving s) :
    ∃ l s', Core l ∧ step s l = some s' := by
  cases hb : s.bc with
  | closed => exact absurd hb ho
  | sending r todo => exact sending_goes_on h hb
  | idle =>
    cases hq : s.queue with
    | nil =>
      obtain ⟨rs, hm, hne⟩ := hs
      obtain ⟨k, hk⟩ := List.getElem?_of_mem hm
      cases rs with
      | nil => exact absurd rfl hne
      | cons r rest =>
        have hsome : (step s (.accept k)).isSome = true := by
          simp only [step, hk]
          rw [if_pos (by simp [State.room, hq, hb])]
          rfl
        obtain ⟨s', hs'⟩ := Option.isSome_iff_exists.mp hsome
        exact ⟨.accept k, s', trivial, hs'⟩
    | cons r q =>
      have hsome : (step s (.take (targets s r))).isSome = true := by
        simp only [step, hb, hq]
        rw [if_pos (by rw [List.isPerm_iff])]
        rfl
      obtain ⟨s', hs'⟩ := Option.isSome_iff_exists.mp hsome
      exact ⟨.take (targets s r), s', trivial, hs'⟩

/-- **C88**. For every number and kind of subscribers, every buffer size and every history in which the broadcaster
is not closed (no store closes its own): while a caller is in `Accept`, the broadcaster or a caller of `Accept` can
go on by itself, without any callback returning (1). If they do, every caller comes through (2). They cannot go on
forever, whatever the subscribers and users do meanwhile, unless new saves arrive (3). So no subscriber, however
slow, and even if its callback never returns, keeps a save from being finished. -/
theorem C88_save (cap : Nat) (ls : List Label) (s : State) (hx : exec (init cap) ls = some s) (hc : .close ∉ ls) :
    (Saving s → ∃ l s', Core l ∧ step s l = some s') ∧
    (∃ ls' s', (∀ l ∈ ls', Core l) ∧ exec s ls' = some s' ∧ ¬ Saving s') ∧
    ¬ ∃ (f : Nat → State) (lab : Nat → Label), f 0 = s ∧
      (∀ n, step (f n) (lab n) = some (f (n + 1)) ∧ ∀ rs, lab n ≠ .newSaver rs) ∧
      ∀ n, ∃ m, n ≤ m ∧ Core (lab m) := by
  have hI := inv_exec ls (inv_init cap) hx
  have ho : s.bc ≠ .closed := open_exec ls (by simp [init]) hc hx
  refine ⟨core_goes_on hI ho, ?_, ?_⟩
  · have key : ∀ m : Nat × Nat, ∀ s : State, (load s, sends s) = m → Inv s → s.bc ≠ .closed →
        ∃ ls' s', (∀ l ∈ ls', Core l) ∧ exec s ls' = some s' ∧ ¬ Saving s' := by
      intro m
      induction m using Lock.lex_wf.induction with
      | _ m ih =>
        intro s hm hI ho
        by_cases hd : Saving s
        · obtain ⟨l, s1, hw, h1⟩ := core_goes_on hI ho hd
          have hl : ∀ rs, l ≠ .newSaver rs := by rintro rs rfl; exact hw.elim
          have hlc : l ≠ .close := by rintro rfl; exact hw.elim
          obtain ⟨ls', s', e1, e2, e3⟩ := ih _ (hm ▸ (load_step l hl h1).1 hw) s1 rfl (inv_step hI l h1)
            (open_step ho l hlc h1)
          exact ⟨l :: ls', s', by simpa using ⟨hw, e1⟩, by simp [exec, h1, e2], e3⟩
        · exact ⟨[], s, by simp, rfl, hd⟩
    exact key _ s rfl hI ho
  · rintro ⟨f, lab, -, hf, hinf⟩
    have key : ∀ m : Nat × Nat, ∀ n, (load (f n), sends (f n)) = m → False := by
      intro m
      induction m using Lock.lex_wf.induction with
      | _ m ih =>
        intro n hm
        obtain ⟨k, hk, hcore⟩ := hinf n
        -- the first core step from `n` on
        have : ∀ d n, (load (f n), sends (f n)) = m → Core (lab (n + d)) → False := by
          intro d
          induction d with
          | zero =>
            intro n hm hcore
            exact ih _ (hm ▸ (load_step (lab n) (hf n).2 (hf n).1).1 hcore) (n + 1) rfl
          | succ d ihd =>
            intro n hm hcore
            by_cases hn : Core (lab n)
            · exact ih _ (hm ▸ (load_step (lab n) (hf n).2 (hf n).1).1 hn) (n + 1) rfl
            · refine ihd (n + 1) ?_ (by rw [show n + 1 + d = n + (d + 1) by omega]; exact hcore)
              rw [(load_step (lab n) (hf n).2 (hf n).1).2 hn, hm]
        exact this (k - n) n hm (by rw [show n + (k - n) = k by omega]; exact hcore)
    exact key _ 0 rfl

/-- Four records. -/
def four : List Record := [1, 2, 3, 4].map (fun n => ⟨[65, 33, 49], [65], [49], n, n, 7, [85], [69], [n], []⟩)

/-- A subscriber with a buffer of one whose callback never returns, and a save of four events: after one record in
the callback, one in the buffer and one time-out the save is through. -/
example : (exec (init 1) [.newSub [none] 1 true, .register 0, .newSaver four, .accept 0, .take [(none, 0)],
    .deliver, .pick 0, .accept 0, .take [(none, 0)], .deliver, .accept 0, .take [(none, 0)], .timeout, .accept 0,
    .take []]).map (fun s => (s.savers.map List.length, s.regs.length, s.subs.map (fun x => (x.pc, x.cancelled))))
    = some ([0], 0, [(.consuming, true)]) := by decide

/-- The buffers are not longer than they were made; one without room holds at most the record being handed over. -/
structure Fits (cap : Nat) (s : State) : Prop where
  size : s.cap = cap
  queue : s.queue.length ≤ max cap 1
  subs : ∀ x ∈ s.subs, x.buf.length ≤ max x.cap 1

theorem Fits.set {cap : Nat} {s : State} (h : Fits cap s) {i : Nat} {x y : Subscr} (hx : s.subs[i]? = some x)
    (hcap : y.cap = x.cap) (hbuf : y.buf.length ≤ max x.cap 1) : Fits cap (s.setSub i y) where
  size := h.size
  queue := h.queue
  subs := by
    intro w hw
    rcases List.mem_or_eq_of_mem_set hw with hw | rfl
    · exact h.subs w hw
    · rw [hcap]; exact hbuf

theorem fits_step {cap : Nat} {s s' : State} (h : Fits cap s) (l : Label) (hs : step s l = some s') : Fits cap s' := by
  have hin : ∀ {i : Nat} {x : Subscr}, s.subs[i]? = some x → x.buf.length ≤ max x.cap 1 :=
    fun hx => h.subs _ (List.mem_of_getElem? hx)
  cases l with
  | newSaver rs => obtain rfl := Option.some.inj hs; exact ⟨h.size, h.queue, h.subs⟩
  | newSub topics c live =>
    obtain rfl := Option.some.inj hs
    refine ⟨h.size, h.queue, ?_⟩
    intro w hw
    rcases List.mem_append.mp hw with hw | hw
    · exact h.subs w hw
    · obtain rfl := List.mem_singleton.mp hw
      simp
  | close =>
    simp only [step] at hs
    split at hs
    · obtain rfl := Option.some.inj hs
      refine ⟨h.size, h.queue, ?_⟩
      intro w hw
      obtain ⟨i, hi, rfl⟩ := List.mem_mapIdx.mp hw
      have := h.subs _ (List.getElem_mem hi)
      split <;> exact this
    · cases hs
  | accept k =>
    simp only [step] at hs
    split at hs
    · split at hs
      · rename_i hroom
        obtain rfl := Option.some.inj hs
        refine ⟨h.size, ?_, h.subs⟩
        have hc := h.size
        simp only [State.room, Bool.or_eq_true, decide_eq_true_eq, Bool.and_eq_true, List.isEmpty_iff] at hroom
        rw [List.length_append, List.length_singleton]
        rcases hroom with hr | ⟨hr, _⟩
        · omega
        · rw [hr]; simp only [List.length_nil]; omega
      · cases hs
    · cases hs
  | take order =>
    simp only [step] at hs
    split at hs
    · rename_i r q _ hq
      split at hs
      · obtain rfl := Option.some.inj hs
        have := h.queue
        rw [hq, List.length_cons] at this
        exact ⟨h.size, by simp only; omega, h.subs⟩
      · cases hs
    · cases hs
  | deliver =>
    simp only [step] at hs
    split at hs
    · rename_i r _ i _ _
      split at hs
      · cases hs
      · rename_i x hx
        split at hs
        · rename_i hroom
          obtain rfl := Option.some.inj hs
          have h1 : Fits cap (s.setSub i { x with buf := x.buf ++ [r] }) := h.set hx rfl (by
            simp only [Subscr.room, Bool.or_eq_true, decide_eq_true_eq, Bool.and_eq_true, List.isEmpty_iff] at hroom
            rw [List.length_append, List.length_singleton]
            rcases hroom with hr | ⟨hr, _⟩
            · omega
            · rw [hr]; simp only [List.length_nil]; omega)
          exact ⟨h1.size, h1.queue, h1.subs⟩
        · cases hs
    · cases hs
  | timeout =>
    simp only [step] at hs
    split at hs
    · split at hs
      · cases hs
      · rename_i x hx
        split at hs
        · cases hs
        · obtain rfl := Option.some.inj hs
          have h1 := h.set (y := { x with cancelled := true }) hx rfl (by have := hin hx; exact this)
          exact ⟨h1.size, h1.queue, h1.subs⟩
    · cases hs
  | register i =>
    simp only [step] at hs
    split at hs
    · rename_i x _ hx
      split at hs
      · obtain rfl := Option.some.inj hs
        exact h.set hx rfl (by have := hin hx; exact this)
      · obtain rfl := Option.some.inj hs
        rename_i t todo _
        have h1 := h.set (y := { x with pc := if todo.isEmpty then started x else .starting todo }) hx rfl (by have := hin hx; exact this)
        exact ⟨h1.size, h1.queue, h1.subs⟩
      · cases hs
    · cases hs
  | leave i =>
    simp only [step] at hs
    split at hs
    · rename_i x _ hx
      split at hs
      · obtain rfl := Option.some.inj hs
        rename_i t todo why _
        have h1 := h.set (y := { x with pc := leavingPC why todo }) hx rfl (by have := hin hx; exact this)
        exact ⟨h1.size, h1.queue, h1.subs⟩
      · cases hs
    · cases hs
  | pick i =>
    simp only [step] at hs
    split at hs
    · cases hs
    · rename_i x hx
      split at hs
      · obtain rfl := Option.some.inj hs
        rename_i r buf _ hb
        refine h.set hx rfl ?_
        have := hin hx
        rw [hb, List.length_cons] at this
        simp only
        omega
      · cases hs
  | stopSub i =>
    simp only [step] at hs
    split at hs
    · cases hs
    · rename_i x hx
      obtain rfl := Option.some.inj hs
      exact h.set hx rfl (by have := hin hx; exact this)
  | _ =>
    simp only [step] at hs
    split at hs
    · cases hs
    · rename_i x hx
      split at hs
      · obtain rfl := Option.some.inj hs
        exact h.set hx rfl (by have := hin hx; exact this)
      · cases hs

/-- **C88, buffers**: in every schedule the broadcaster holds back at most as many records as its buffer was made
for, and so does every subscription (an unbuffered channel hands over one record at a time). A save of more records
waits. -/
theorem C88_buffers (cap : Nat) (ls : List Label) (s : State) (hs : exec (init cap) ls = some s) :
    s.queue.length ≤ max cap 1 ∧ ∀ x ∈ s.subs, x.buf.length ≤ max x.cap 1 := by
  have key : ∀ (ls : List Label) (s0 : State), Fits cap s0 → exec s0 ls = some s → Fits cap s := by
    intro ls
    induction ls with
    | nil => intro s0 h0 h1; obtain rfl := Option.some.inj h1; exact h0
    | cons l ls ih =>
      intro s0 h0 h1
      simp only [exec] at h1
      split at h1
      · cases h1
      · rename_i s1 hs1
        exact ih s1 (fits_step h0 l hs1) h1
  have h := key ls (init cap) ⟨rfl, by simp [init], by simp [init]⟩ hs
  exact ⟨h.queue, h.subs⟩

/-- A broadcaster with room for one record takes one and not a second. -/
example : (exec (init 1) [.newSaver four, .accept 0]).isSome ∧ (exec (init 1) [.newSaver four, .accept 0, .accept 0]).isNone ∧
    (exec (init 2) [.newSaver four, .accept 0, .accept 0]).isSome := by decide

/-- A subscription without a buffer takes a record only while its goroutine waits for one: not while a callback runs,
and not while it reads what happened before. -/
example : (exec (init 2) [.newSub [none] 0 true, .register 0, .newSaver four, .accept 0, .accept 0, .take [(none, 0)],
      .deliver]).isSome ∧
    (exec (init 2) [.newSub [none] 0 true, .register 0, .newSaver four, .accept 0, .accept 0, .take [(none, 0)],
      .deliver, .pick 0, .take [(none, 0)], .deliver]).isNone ∧
    (exec (init 2) [.newSub [none] 0 false, .register 0, .newSaver four, .accept 0, .take [(none, 0)],
      .deliver]).isNone ∧
    (exec (init 2) [.newSub [none] 1 false, .register 0, .newSaver four, .accept 0, .take [(none, 0)],
      .deliver]).isSome := by decide

/-! ## C87 -/

/-- The full claim of **C87**: whenever a subscription is to end, `Done` can still be closed. -/
def C87_full : Prop :=
  ∀ (cap : Nat) (ls : List Label) (s : State) (i : Nat), exec (init cap) ls = some s → Ending s i →
    ∃ ls' s', (∀ l ∈ ls', Work l) ∧ exec s ls' = some s' ∧ Told s' i

/-- The pc of subscription `i` satisfies `P`. -/
def At (P : Subscr → Prop) (s : State) (i : Nat) : Prop := ∃ x, s.subs[i]? = some x ∧ P x

theorem At.set {P : Subscr → Prop} {s : State} {i : Nat} (h : At P s i) (j : Nat) (x y : Subscr)
    (hx : s.subs[j]? = some x) (hy : j = i → P x → P y) : At P (s.setSub j y) i := by
  obtain ⟨x0, h0, hp⟩ := h
  by_cases hj : j = i
  · subst hj
    have hlt : j < s.subs.length := (List.getElem?_eq_some_iff.mp h0).1
    rw [hx] at h0
    obtain rfl := Option.some.inj h0
    exact ⟨y, by simp [State.setSub, hlt], hy rfl hp⟩
  · exact ⟨x0, by simp only [State.setSub]; rw [List.getElem?_set_ne hj]; exact h0, hp⟩

/-- What the actions may do to one subscription. -/
theorem at_step {P : Subscr → Prop} {s s' : State} {i : Nat} (h : At P s i) (l : Label) (hs : step s l = some s')
    (hcancel : ∀ x, P x → P { x with cancelled := true })
    (hbuf : ∀ x buf, P x → P { x with buf := buf })
    (hfail : ∀ x, P x → x.pc = .consuming → l = .consumeFail i → P { x with pc := leavingPC .consumer x.topics })
    (hread : ∀ x, P x → x.pc = .catchUp → P { x with pc := leavingPC .startError x.topics })
    (hstart : ∀ x todo, P x → x.pc = .starting todo → ∀ todo', P { x with pc := .starting todo' } ∧
      P { x with pc := started x })
    (hcatch : ∀ x, P x → x.pc = .catchUp → P { x with pc := .loop })
    (hpick : ∀ x buf, P x → x.pc = .loop → P { x with buf := buf, pc := .consuming })
    (hquit : ∀ x, P x → x.pc = .loop → x.cancelled = true → P { x with pc := leavingPC .context x.topics })
    (hcons : ∀ x, P x → x.pc = .consuming → P { x with pc := .loop })
    (hleave : ∀ x t todo why, P x → x.pc = .leaving (t :: todo) why → s.bc = .idle →
      P { x with pc := leavingPC why todo }) : At P s' i := by
  cases l with
  | newSaver rs => obtain rfl := Option.some.inj hs; exact h
  | newSub topics cap live =>
    obtain rfl := Option.some.inj hs
    obtain ⟨x, hx, hp⟩ := h
    exact ⟨x, by simp only; rw [List.getElem?_append_left (List.getElem?_eq_some_iff.mp hx).1]; exact hx, hp⟩
  | stopSub j =>
    simp only [step] at hs
    split at hs
    · cases hs
    · rename_i x hx
      obtain rfl := Option.some.inj hs
      exact h.set j x _ hx (fun _ => hcancel x)
  | consumeFail j =>
    simp only [step] at hs
    split at hs
    · cases hs
    · rename_i x hx
      split at hs
      · rename_i hpc
        obtain rfl := Option.some.inj hs
        exact h.set j x _ hx (fun hj hp => hfail x hp hpc (by subst hj; rfl))
      · cases hs
  | readFail j =>
    simp only [step] at hs
    split at hs
    · cases hs
    · rename_i x hx
      split at hs
      · rename_i hpc
        obtain rfl := Option.some.inj hs
        exact h.set j x _ hx (fun _ hp => hread x hp hpc)
      · cases hs
  | close =>
    simp only [step] at hs
    split at hs
    · obtain rfl := Option.some.inj hs
      obtain ⟨x, hx, hp⟩ := h
      refine ⟨_, by simp only [List.getElem?_mapIdx, hx, Option.map_some]; rfl, ?_⟩
      split
      · exact hcancel x hp
      · exact hp
    · cases hs
  | accept k =>
    simp only [step] at hs
    split at hs
    · split at hs
      · obtain rfl := Option.some.inj hs; exact h
      · cases hs
    · cases hs
  | take order =>
    simp only [step] at hs
    split at hs
    · split at hs
      · obtain rfl := Option.some.inj hs; exact h
      · cases hs
    · cases hs
  | deliver =>
    simp only [step] at hs
    split at hs
    · rename_i r t j todo hb
      split at hs
      · cases hs
      · rename_i x hx
        split at hs
        · obtain rfl := Option.some.inj hs
          exact h.set j x _ hx (fun _ => hbuf x _)
        · cases hs
    · cases hs
  | timeout =>
    simp only [step] at hs
    split at hs
    · rename_i r t j todo hb
      split at hs
      · cases hs
      · rename_i x hx
        split at hs
        · cases hs
        · obtain rfl := Option.some.inj hs
          exact h.set j x _ hx (fun _ => hcancel x)
    · cases hs
  | register j =>
    simp only [step] at hs
    split at hs
    · rename_i x hb hx
      split at hs
      · rename_i hpc
        obtain rfl := Option.some.inj hs
        exact h.set j x _ hx (fun _ hp => (hstart x _ hp hpc []).2)
      · rename_i t todo hpc
        obtain rfl := Option.some.inj hs
        refine h.set j x _ hx (fun _ hp => ?_)
        split
        · exact (hstart x _ hp hpc []).2
        · exact (hstart x _ hp hpc todo).1
      · cases hs
    · cases hs
  | caughtUp j =>
    simp only [step] at hs
    split at hs
    · cases hs
    · rename_i x hx
      split at hs
      · rename_i hpc
        obtain rfl := Option.some.inj hs
        exact h.set j x _ hx (fun _ hp => hcatch x hp hpc)
      · cases hs
  | pick j =>
    simp only [step] at hs
    split at hs
    · cases hs
    · rename_i x hx
      split at hs
      · rename_i r buf hpc hb
        obtain rfl := Option.some.inj hs
        exact h.set j x _ hx (fun _ hp => hpick x _ hp hpc)
      · cases hs
  | quit j =>
    simp only [step] at hs
    split at hs
    · cases hs
    · rename_i x hx
      split at hs
      · rename_i hpc
        obtain rfl := Option.some.inj hs
        exact h.set j x _ hx (fun _ hp => hquit x hp hpc.1 hpc.2)
      · cases hs
  | consume j =>
    simp only [step] at hs
    split at hs
    · cases hs
    · rename_i x hx
      split at hs
      · rename_i hpc
        obtain rfl := Option.some.inj hs
        exact h.set j x _ hx (fun _ hp => hcons x hp hpc)
      · cases hs
  | leave j =>
    simp only [step] at hs
    split at hs
    · rename_i x hb hx
      split at hs
      · rename_i t todo why hpc
        obtain rfl := Option.some.inj hs
        exact h.set j x _ hx (fun _ hp => hleave x t todo why hp hpc hb)
      · cases hs
    · cases hs

/-- The goroutine leaves, or has left, because the callback returned an error. -/
def Failed (x : Subscr) : Prop := x.pc = .ended .consumer ∨ ∃ todo, x.pc = .leaving todo .consumer

theorem leavingPC_failed (x : Subscr) (ts : List Topic) : Failed { x with pc := leavingPC .consumer ts } := by
  cases ts with
  | nil => exact Or.inl rfl
  | cons t ts => exact Or.inr ⟨_, rfl⟩

theorem failed_step {s s' : State} {i : Nat} (h : At Failed s i) (l : Label) (hs : step s l = some s') :
    At Failed s' i := by
  refine at_step h l hs (fun _ h => h) (fun _ _ h => h) ?_ ?_ ?_ ?_ ?_ ?_ ?_ ?_
  · intro x _ _ _; exact leavingPC_failed x _
  · rintro x (h | ⟨_, h⟩) hp <;> rw [hp] at h <;> cases h
  · rintro x todo (h | ⟨_, h⟩) hp <;> rw [hp] at h <;> cases h
  · rintro x (h | ⟨_, h⟩) hp <;> rw [hp] at h <;> cases h
  · rintro x _ (h | ⟨_, h⟩) hp <;> rw [hp] at h <;> cases h
  · rintro x (h | ⟨_, h⟩) hp <;> rw [hp] at h <;> cases h
  · rintro x (h | ⟨_, h⟩) hp <;> rw [hp] at h <;> cases h
  · rintro x t todo why (h | ⟨_, h⟩) hp _ <;> rw [hp] at h
    · cases h
    · injection h with h1 h2
      subst h2
      exact leavingPC_failed x _

/-- **C87 fails, consumer.** In every history: once the callback of a subscription has returned an error, its `Done`
is never closed, whatever happens afterwards. -/
theorem C87_false_consumer (s : State) (i : Nat) (s1 : State) (hs : step s (.consumeFail i) = some s1)
    (ls : List Label) (s' : State) (hx : exec s1 ls = some s') : ¬ Told s' i := by
  have h1 : At Failed s1 i := by
    simp only [step] at hs
    split at hs
    · cases hs
    · rename_i x hx'
      split at hs
      · obtain rfl := Option.some.inj hs
        have hlt : i < s.subs.length := (List.getElem?_eq_some_iff.mp hx').1
        exact ⟨_, by simp [State.setSub, hlt]; rfl, leavingPC_failed x _⟩
      · cases hs
  have h2 : At Failed s' i := by
    clear hs
    induction ls generalizing s1 with
    | nil => obtain rfl := Option.some.inj hx; exact h1
    | cons l ls ih =>
      simp only [exec] at hx
      cases hst : step s1 l with
      | none => simp [hst] at hx
      | some s2 => simp only [hst] at hx; exact ih s2 hx (failed_step h1 l hst)
  rintro ⟨x, hx', hp⟩
  obtain ⟨y, hy, hf⟩ := h2
  rw [hx'] at hy
  obtain rfl := Option.some.inj hy
  rcases hf with h | ⟨_, h⟩ <;> rw [hp] at h <;> cases h

/-- The subscription has topics to withdraw and has not ended. -/
def Pending (x : Subscr) : Prop := x.topics ≠ [] ∧ ∀ why, x.pc ≠ .ended why

theorem closed_step {s s' : State} (h : s.bc = .closed) (l : Label) (hs : step s l = some s') : s'.bc = .closed := by
  cases l <;> simp only [step, h] at hs <;> (repeat' split at hs) <;>
    first
    | (obtain rfl := Option.some.inj hs; first | exact h | simpa [State.setSub] using h)
    | cases hs

theorem leavingPC_pending (x : Subscr) (why : Cause) (hx : Pending x) :
    Pending { x with pc := leavingPC why x.topics } := by
  refine ⟨hx.1, ?_⟩
  intro w
  cases ht : x.topics with
  | nil => exact absurd ht hx.1
  | cons t ts => simp [leavingPC]

theorem pending_step {s s' : State} {i : Nat} (hb : s.bc = .closed) (h : At Pending s i) (l : Label)
    (hs : step s l = some s') : At Pending s' i := by
  refine at_step h l hs (fun _ h => h) (fun _ _ h => h) ?_ ?_ ?_ ?_ ?_ ?_ ?_ ?_
  · intro x hx _ _; exact leavingPC_pending x _ hx
  · intro x hx _; exact leavingPC_pending x _ hx
  · intro x todo hx _ todo'
    refine ⟨⟨hx.1, by simp⟩, hx.1, ?_⟩
    intro why
    simp only [started]
    split <;> simp
  · intro x hx _; exact ⟨hx.1, by simp⟩
  · intro x _ hx _; exact ⟨hx.1, by simp⟩
  · intro x hx _ _; exact leavingPC_pending x _ hx
  · intro x hx _; exact ⟨hx.1, by simp⟩
  · intro x t todo why hx _ hidle; rw [hb] at hidle; cases hidle

/-- **C87 fails, closing.** In every history: when the broadcaster is closed (`Stop` of the WebSocket and of the gRPC
server), no subscription that has not ended by then ever ends: its goroutine waits forever to withdraw from a
broadcaster that has returned. -/
theorem C87_false_close (s s1 : State) (hs : step s .close = some s1) (i : Nat) (hp : At Pending s i)
    (ls : List Label) (s' : State) (hx : exec s1 ls = some s') : ¬ Told s' i := by
  have hp1 : At Pending s1 i := by
    simp only [step] at hs
    split at hs
    · obtain rfl := Option.some.inj hs
      obtain ⟨x, hx, hp⟩ := hp
      refine ⟨_, by simp only [List.getElem?_mapIdx, hx, Option.map_some]; rfl, ?_⟩
      split <;> exact hp
    · cases hs
  have hb1 : s1.bc = .closed := by
    simp only [step] at hs
    split at hs
    · obtain rfl := Option.some.inj hs; rfl
    · cases hs
  have h2 : At Pending s' i := by
    clear hs hp
    induction ls generalizing s1 with
    | nil => obtain rfl := Option.some.inj hx; exact hp1
    | cons l ls ih =>
      simp only [exec] at hx
      cases hst : step s1 l with
      | none => simp [hst] at hx
      | some s2 => simp only [hst] at hx; exact ih s2 hx (pending_step hb1 hp1 l hst) (closed_step hb1 l hst)
  rintro ⟨x, hx', hpc⟩
  obtain ⟨y, hy, -, hne⟩ := h2
  rw [hx'] at hy
  obtain rfl := Option.some.inj hy
  exact hne _ hpc

/-- A consumer that returns an error for the first event. -/
def lsFail : List Label :=
  [.newSub [none] 10 true, .register 0, .newSaver (four.take 1), .accept 0, .take [(none, 0)], .deliver, .pick 0,
   .consumeFail 0, .leave 0]

/-- A server is stopped while a client is connected. -/
def lsClose : List Label := [.newSub [none] 10 true, .register 0, .close]

/-- **C87 is false.** -/
theorem C87_false : ¬ C87_full := by
  intro h
  obtain ⟨s, hs⟩ : ∃ s, exec (init 100) lsFail = some s := ⟨_, rfl⟩
  obtain ⟨ls', s', -, hx, ht⟩ := h 100 lsFail s 0 hs (by
    obtain rfl : s = _ := Option.some.inj (hs.symm.trans rfl)
    exact ⟨_, rfl, Or.inr (Or.inr (Or.inr rfl))⟩)
  have e : lsFail = [.newSub [none] 10 true, .register 0, .newSaver (four.take 1), .accept 0, .take [(none, 0)],
    .deliver, .pick 0] ++ ([.consumeFail 0] ++ [.leave 0]) := rfl
  rw [e, exec_append] at hs
  have h7 := Option.bind_eq_some_iff.mp hs
  obtain ⟨s7, -, hs7⟩ := h7
  rw [exec_append] at hs7
  obtain ⟨s8, hs8, hs9⟩ := Option.bind_eq_some_iff.mp hs7
  have hstep : step s7 (.consumeFail 0) = some s8 := by
    simp only [exec] at hs8
    split at hs8
    · cases hs8
    · rename_i heq; rw [heq]; exact hs8
  refine C87_false_consumer s7 0 s8 hstep ([.leave 0] ++ ls') s' ?_ ht
  rw [exec_append, hs9]
  exact hx

/-- Steps a subscription's goroutine has left, apart from consuming. -/
def life (x : Subscr) : Nat :=
  match x.pc with
  | .starting todo => todo.length + x.topics.length + 4
  | .catchUp => x.topics.length + 3
  | .loop => x.topics.length + 2
  | .consuming => x.topics.length + 2
  | .leaving todo _ => todo.length + 1
  | .ended _ => 0

/-- Records a subscription has left to consume. -/
def backlog (x : Subscr) : Nat := 2 * x.buf.length + (if x.pc = .consuming then 1 else 0)

def lives (s : State) : Nat := (s.subs.map life).sum
def backlogs (s : State) : Nat := (s.subs.map backlog).sum

/-- The work left, as a tuple ordered lexicographically. -/
def left (s : State) : Nat × (Nat × Nat) × Nat := (lives s, (load s, sends s), backlogs s)

abbrev Less : (Nat × (Nat × Nat) × Nat) → (Nat × (Nat × Nat) × Nat) → Prop :=
  Prod.Lex (· < ·) (Prod.Lex (Prod.Lex (· < ·) (· < ·)) (· < ·))

theorem less_wf : WellFounded Less :=
  (Prod.lex Nat.lt_wfRel (Prod.lex (Prod.lex Nat.lt_wfRel Nat.lt_wfRel) Nat.lt_wfRel)).wf

theorem sum_set_eq {α : Type} (f : α → Nat) (l : List α) (i : Nat) (x y : α) (h : l[i]? = some x) (he : f y = f x) :
    ((l.set i y).map f).sum = (l.map f).sum := by
  induction l generalizing i with
  | nil => simp
  | cons a l ih =>
    cases i with
    | zero =>
      simp only [List.getElem?_cons_zero, Option.some.injEq] at h
      subst h
      simp [he]
    | succ i =>
      simp only [List.getElem?_cons_succ] at h
      simp only [List.set_cons_succ, List.map_cons, List.sum_cons, ih i h]

theorem life_leavingPC (x : Subscr) (why : Cause) (ts : List Topic) :
    life { x with pc := leavingPC why ts } ≤ ts.length + 1 := by
  cases ts <;> simp [leavingPC, life]

theorem life_started (x : Subscr) : life { x with pc := started x } ≤ x.topics.length + 3 := by
  unfold started
  split <;> simp [life]

/-- Every step of the work decreases what is left. -/
theorem left_decreases {s s' : State} (l : Label) (hw : Work l) (hs : step s l = some s') : Less (left s') (left s) := by
  have hl : ∀ rs, l ≠ .newSaver rs := by rintro rs rfl; exact hw.elim
  have hload := load_step l hl hs
  have core : Core l → lives s' = lives s → Less (left s') (left s) := by
    intro hc he
    unfold left
    rw [he]
    exact Prod.Lex.right _ (Prod.Lex.left _ _ (hload.1 hc))
  have other : ¬ Core l → ∀ (j : Nat) (x y : Subscr), s.subs[j]? = some x → s'.subs = s.subs.set j y →
      (life y < life x ∨ (life y = life x ∧ backlog y < backlog x)) → Less (left s') (left s) := by
    intro hc j x y hx he h
    unfold left
    rw [hload.2 hc]
    rcases h with h | ⟨h1, h2⟩
    · apply Prod.Lex.left
      unfold lives
      rw [he]
      exact Lock.sum_set_lt life s.subs j x y hx h
    · have e1 : lives s' = lives s := by
        unfold lives
        rw [he]
        exact sum_set_eq life s.subs j x y hx h1
      rw [e1]
      refine Prod.Lex.right _ (Prod.Lex.right _ ?_)
      unfold backlogs
      rw [he]
      exact Lock.sum_set_lt backlog s.subs j x y hx h2
  cases l with
  | newSaver _ | newSub _ _ _ | stopSub _ | consumeFail _ | readFail _ | close => exact hw.elim
  | accept k =>
    refine core trivial ?_
    simp only [step] at hs
    split at hs
    · split at hs
      · obtain rfl := Option.some.inj hs; rfl
      · cases hs
    · cases hs
  | take order =>
    refine core trivial ?_
    simp only [step] at hs
    split at hs
    · split at hs
      · obtain rfl := Option.some.inj hs; rfl
      · cases hs
    · cases hs
  | deliver =>
    refine core trivial ?_
    simp only [step] at hs
    split at hs
    · split at hs
      · cases hs
      · rename_i x hx
        split at hs
        · obtain rfl := Option.some.inj hs
          exact sum_set_eq life s.subs _ x _ hx rfl
        · cases hs
    · cases hs
  | timeout =>
    refine core trivial ?_
    simp only [step] at hs
    split at hs
    · split at hs
      · cases hs
      · rename_i x hx
        split at hs
        · cases hs
        · obtain rfl := Option.some.inj hs
          exact sum_set_eq life s.subs _ x _ hx rfl
    · cases hs
  | register j =>
    simp only [step] at hs
    split at hs
    · rename_i x hb hx
      split at hs
      · rename_i hpc
        obtain rfl := Option.some.inj hs
        refine other (fun h => h) j x _ hx rfl (Or.inl ?_)
        have := life_started x
        have e : life x = x.topics.length + 4 := by simp [life, hpc]
        omega
      · rename_i t todo hpc
        obtain rfl := Option.some.inj hs
        refine other (fun h => h) j x _ hx rfl (Or.inl ?_)
        have e : life x = todo.length + 1 + x.topics.length + 4 := by simp [life, hpc]
        have := life_started x
        by_cases hemp : todo.isEmpty = true
        · simp only [hemp, if_true]; omega
        · simp only [hemp]
          rw [e]
          simp [life]
      · cases hs
    · cases hs
  | caughtUp j =>
    simp only [step] at hs
    split at hs
    · cases hs
    · rename_i x hx
      split at hs
      · rename_i hpc
        obtain rfl := Option.some.inj hs
        exact other (fun h => h) j x _ hx rfl (Or.inl (by simp [life, hpc]))
      · cases hs
  | pick j =>
    simp only [step] at hs
    split at hs
    · cases hs
    · rename_i x hx
      split at hs
      · rename_i r buf hpc hb
        obtain rfl := Option.some.inj hs
        exact other (fun h => h) j x _ hx rfl (Or.inr ⟨by simp [life, hpc], by simp [backlog, hpc, hb]; omega⟩)
      · cases hs
  | quit j =>
    simp only [step] at hs
    split at hs
    · cases hs
    · rename_i x hx
      split at hs
      · rename_i hpc
        obtain rfl := Option.some.inj hs
        refine other (fun h => h) j x _ hx rfl (Or.inl ?_)
        have := life_leavingPC x .context x.topics
        have e : life x = x.topics.length + 2 := by simp [life, hpc.1]
        omega
      · cases hs
  | consume j =>
    simp only [step] at hs
    split at hs
    · cases hs
    · rename_i x hx
      split at hs
      · rename_i hpc
        obtain rfl := Option.some.inj hs
        exact other (fun h => h) j x _ hx rfl (Or.inr ⟨by simp [life, hpc], by simp [backlog, hpc]⟩)
      · cases hs
  | leave j =>
    simp only [step] at hs
    split at hs
    · rename_i x hb hx
      split at hs
      · rename_i t todo why hpc
        obtain rfl := Option.some.inj hs
        refine other (fun h => h) j x _ hx rfl (Or.inl ?_)
        have := life_leavingPC x why todo
        have e : life x = todo.length + 1 + 1 := by simp [life, hpc]
        omega
      · cases hs
    · cases hs

/-- The goroutine runs and its context is done, or it leaves or has left for that reason. -/
def Bound (x : Subscr) : Prop :=
  (x.cancelled = true ∧ (x.pc = .loop ∨ x.pc = .consuming)) ∨ (∃ todo, x.pc = .leaving todo .context) ∨
  x.pc = .ended .context

theorem leavingPC_bound (x : Subscr) (ts : List Topic) : Bound { x with pc := leavingPC .context ts } := by
  cases ts with
  | nil => exact Or.inr (Or.inr rfl)
  | cons t ts => exact Or.inr (Or.inl ⟨_, rfl⟩)

theorem bound_step {s s' : State} {i : Nat} (h : At Bound s i) (l : Label) (hl : l ≠ .consumeFail i)
    (hs : step s l = some s') : At Bound s' i := by
  refine at_step h l hs ?_ (fun _ _ h => h) ?_ ?_ ?_ ?_ ?_ ?_ ?_ ?_
  · rintro x (⟨_, h⟩ | h)
    · exact Or.inl ⟨rfl, h⟩
    · exact Or.inr h
  · intro x _ _ h; exact absurd h hl
  · rintro x (⟨_, h | h⟩ | ⟨_, h⟩ | h) hp <;> rw [hp] at h <;> cases h
  · rintro x todo (⟨_, h | h⟩ | ⟨_, h⟩ | h) hp <;> rw [hp] at h <;> cases h
  · rintro x (⟨_, h | h⟩ | ⟨_, h⟩ | h) hp <;> rw [hp] at h <;> cases h
  · rintro x _ (⟨hc, h | h⟩ | ⟨_, h⟩ | h) hp <;> rw [hp] at h <;> first | exact Or.inl ⟨hc, Or.inr rfl⟩ | cases h
  · intro x _ _ _; exact leavingPC_bound x _
  · rintro x (⟨hc, h | h⟩ | ⟨_, h⟩ | h) hp <;> rw [hp] at h <;> first | exact Or.inl ⟨hc, Or.inl rfl⟩ | cases h
  · rintro x t todo why (⟨hc, h | h⟩ | ⟨_, h⟩ | h) hp _ <;> rw [hp] at h
    · cases h
    · cases h
    · injection h with h1 h2
      subst h2
      exact leavingPC_bound x _
    · cases h

/-- While it has not ended, work is possible. -/
theorem bound_goes_on {s : State} {i : Nat} (hI : Inv s) (ho : s.bc ≠ .closed) (h : At Bound s i) (hn : ¬ Told s i) :
    ∃ l s', Work l ∧ step s l = some s' := by
  cases hb : s.bc with
  | closed => exact absurd hb ho
  | sending r todo =>
    obtain ⟨l, s', hc, hs⟩ := sending_goes_on hI hb
    refine ⟨l, s', ?_, hs⟩
    cases l <;> first | exact hc.elim | trivial
  | idle =>
    obtain ⟨x, hx, hB⟩ := h
    have fin : ∀ l, Work l → (step s l).isSome = true → ∃ l s', Work l ∧ step s l = some s' := by
      intro l hw hsome
      obtain ⟨s', hs'⟩ := Option.isSome_iff_exists.mp hsome
      exact ⟨l, s', hw, hs'⟩
    rcases hB with ⟨hc, hp | hp⟩ | ⟨todo, hp⟩ | hp
    · exact fin (.quit i) trivial (by simp [step, hx, hp, hc])
    · exact fin (.consume i) trivial (by simp [step, hx, hp])
    · cases todo with
      | nil => exact absurd hp (hI.leaving x (List.mem_of_getElem? hx) _)
      | cons t todo => exact fin (.leave i) trivial (by simp [step, hx, hp, hb])
    · exact absurd ⟨x, hx, hp⟩ hn

/-- **C87**, what holds. In every history in which the broadcaster is not closed: if the context of a subscription is
done (because the user stopped it, or the broadcaster found it too slow) and its callback returns no error, then
`Done` gets closed, for every schedule: until then somebody can go on (1), nobody can go on forever (2), so it
happens (3). Missing: callbacks that return an error and closed broadcasters, for which it is false. -/
theorem C87_partial (cap : Nat) (ls : List Label) (s : State) (i : Nat) (hx : exec (init cap) ls = some s)
    (hc : .close ∉ ls) (hB : At Bound s i) :
    (∀ ls' s', (∀ l ∈ ls', Work l) → exec s ls' = some s' → ¬ Told s' i → ∃ l s'', Work l ∧ step s' l = some s'') ∧
    (¬ ∃ f : Nat → State, f 0 = s ∧ ∀ n, ∃ l, Work l ∧ step (f n) l = some (f (n + 1))) ∧
    ∃ ls' s', (∀ l ∈ ls', Work l) ∧ exec s ls' = some s' ∧ Told s' i := by
  have hI := inv_exec ls (inv_init cap) hx
  have ho : s.bc ≠ .closed := open_exec ls (by simp [init]) hc hx
  have hwc : ∀ l, Work l → l ≠ .close ∧ l ≠ .consumeFail i := by
    intro l hw
    constructor <;> (rintro rfl; exact hw.elim)
  refine ⟨?_, ?_, ?_⟩
  · intro ls' s' hw he hn
    have hB' : At Bound s' i := by
      clear hx hI ho hn
      induction ls' generalizing s with
      | nil => obtain rfl := Option.some.inj he; exact hB
      | cons l ls' ih =>
        simp only [exec] at he
        cases hst : step s l with
        | none => simp [hst] at he
        | some s1 =>
          simp only [hst] at he
          exact ih s1 (bound_step hB l (hwc l (hw l (by simp))).2 hst) (fun l hl => hw l (List.mem_cons_of_mem _ hl)) he
    exact bound_goes_on (inv_exec ls' hI he)
      (open_exec ls' ho (fun hm => (hw _ hm).elim) he) hB' hn
  · rintro ⟨f, -, hf⟩
    have key : ∀ m, ∀ n, left (f n) = m → False := by
      intro m
      induction m using less_wf.induction with
      | _ m ih =>
        intro n hm
        obtain ⟨l, hw, h1⟩ := hf n
        exact ih _ (hm ▸ left_decreases l hw h1) (n + 1) rfl
    exact key _ 0 rfl
  · have key : ∀ m, ∀ s : State, left s = m → Inv s → s.bc ≠ .closed → At Bound s i →
        ∃ ls' s', (∀ l ∈ ls', Work l) ∧ exec s ls' = some s' ∧ Told s' i := by
      intro m
      induction m using less_wf.induction with
      | _ m ih =>
        intro s hm hI ho hB
        by_cases hd : Told s i
        · exact ⟨[], s, by simp, rfl, hd⟩
        · obtain ⟨l, s1, hw, h1⟩ := bound_goes_on hI ho hB hd
          obtain ⟨ls', s', e1, e2, e3⟩ := ih _ (hm ▸ left_decreases l hw h1) s1 rfl (inv_step hI l h1)
            (open_step ho l (hwc l hw).1 h1) (bound_step hB l (hwc l hw).2 h1)
          exact ⟨l :: ls', s', by simpa using ⟨hw, e1⟩, by simp [exec, h1, e2], e3⟩
    exact key _ s rfl hI ho hB

/-- A slow subscription is found, stopped by the broadcaster, and its `Done` is closed. -/
example : (exec (init 1) [.newSub [some [65], some [66]] 1 true, .register 0, .register 0, .newSaver four, .accept 0,
    .take [(some [65], 0)], .deliver, .pick 0, .accept 0, .take [(some [65], 0)], .deliver, .accept 0,
    .take [(some [65], 0)], .timeout, .consume 0, .quit 0, .leave 0, .leave 0]).map
      (fun s => s.subs.map (fun x => (x.pc, x.buf.length))) = some [(.ended .context, 1)] := by decide

/-- The client of a stopped server: its goroutine waits to withdraw. -/
example : (exec (init 100) (lsClose ++ [.quit 0])).map (fun s => s.subs.map (·.pc))
    = some [.leaving [none] .context] := by decide

example : ∃ s s1, exec (init 100) [.newSub [none] 10 true, .register 0] = some s ∧ step s .close = some s1 ∧
    At Pending s 0 := ⟨_, _, rfl, rfl, _, rfl, by simp, by simp [started]⟩

end RangeDB.Stop

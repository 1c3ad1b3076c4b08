import Verif.Model.WsSession
import Verif.Proof.Paging
import Verif.Thm.Http

/-!
# The WebSocket API: how sessions end (C122) and which types they can ask for (C123)
-/

namespace RangeDB.Ws

/-! ## C122 -/

/-- The server's own steps: of the handler and of the subscriber's goroutine. -/
def Own : Label → Prop
  | .hWrite | .hFail | .hNext _ | .hWithdraw | .hRead | .wTake | .wSkip | .wWrite | .wFail | .wQuit | .wLeave => True
  | _ => False

/-- Nothing of the session is left in the server. -/
def Ended (s : Session) : Prop :=
  s.handler = .returned ∧ (s.worker = .none ∨ s.worker = .ended) ∧ s.registered = false ∧ s.connOpen = false

/-- What ends a session, in whatever way: the client leaves or sends a message, it is too slow, the API is stopped. -/
def Ending : Label → Prop
  | .clientSends | .clientLeaves | .timeout _ | .stop => True
  | _ => False

/-- Starting from `s` the server, left to itself, ends the session: it can go on as long as the session has not ended, but
not for ever. -/
def EndsItself (s : Session) : Prop :=
  (∀ ls s', (∀ l ∈ ls, Own l) → exec s ls = some s' → (∀ l, Own l → step s' l = none) → Ended s') ∧
  ¬ ∃ (f : Nat → Session) (lab : Nat → Label), f 0 = s ∧ ∀ n, Own (lab n) ∧ step (f n) (lab n) = some (f (n + 1))

/-- The full claim **C122**: a session lasts until the client leaves, the client is found too slow or the API is stopped, and
then it ends. -/
def C122_full : Prop := ∀ (n : Nat) (ls : List Label) (s : Session), exec (opened n) ls = some s →
  (s.clientHere = false ∨ s.cancelled = true → EndsItself s) ∧
  (s.clientHere = true → s.stopped = false → (∀ b, .timeout b ∉ ls) → s.connOpen = true ∧ s.handler ≠ .returned)

structure Inv (s : Session) : Prop where
  worker : s.worker = .none ∨ s.handler = .reading ∨ s.handler = .returned
  reads : s.handler = .reading → s.worker ≠ .none
  reg : s.registered = true → s.worker = .none → (∃ k, s.handler = .catchUp k) ∨ s.handler = .withdraw
  done : s.handler = .returned → s.connOpen = false ∧ s.cancelled = true
  gone : s.worker = .ended → s.registered = false ∧ s.connOpen = false
  shut : s.connOpen = false → s.handler = .returned ∨ s.worker = .ended

theorem inv_opened (n : Nat) : Inv (opened n) := by
  constructor <;> simp [opened]

theorem inv_step {s s' : Session} {l : Label} (h : Inv s) (hs : step s l = some s') : Inv s' := by
  obtain ⟨h1, h2, h3, h4, h5, h6⟩ := h
  cases l <;> simp only [step] at hs <;> (repeat' split at hs) <;>
    (first
      | (cases hs; done)
      | (obtain rfl := Option.some.inj hs
         constructor <;> simp_all [Session.ret])
      | skip)

theorem inv_exec : ∀ (ls : List Label) {s s' : Session}, Inv s → exec s ls = some s' → Inv s' := by
  intro ls
  induction ls with
  | nil => intro s s' h he; obtain rfl := Option.some.inj he; exact h
  | cons l ls ih =>
    intro s s' h he
    simp only [exec] at he
    split at he
    · rename_i s1 hs; exact ih (inv_step h hs) he
    · cases he

/-- The session is over for the server: the client has gone; or the subscriber was stopped or the client has sent a message,
and the client reads. -/
def Over (s : Session) : Prop := s.clientHere = false ∨ ((s.cancelled = true ∨ 0 < s.inbox) ∧ s.stalled = false)

theorem over_step {s s' : Session} {l : Label} (ho : Own l) (h : Over s) (hs : step s l = some s') :
    Over s' ∧ s'.stopped = s.stopped := by
  unfold Over at *
  cases l <;> simp only [Own] at ho <;> simp only [step] at hs <;> (repeat' split at hs) <;>
    (first
      | (cases hs; done)
      | (obtain rfl := Option.some.inj hs
         refine ⟨?_, rfl⟩
         rcases h with h | ⟨h, h'⟩
         · exact Or.inl h
         · simp_all [Session.ret]))

theorem over_goes_on {s : Session} (hi : Inv s) (ho : Over s) (hb : s.stopped = false) (he : ¬ Ended s) :
    ∃ l, Own l ∧ step s l ≠ none := by
  obtain ⟨h1, h2, h3, h4, h5, h6⟩ := hi
  have wr : s.takes = true ∨ s.refuses = true := by
    unfold Session.takes Session.refuses
    cases s.connOpen <;> simp
    rcases ho with h | ⟨_, h⟩
    · exact Or.inr h
    · simp [h]
  -- the subscriber's goroutine
  have hw : s.worker ≠ .none → s.worker ≠ .ended → s.cancelled = true ∨ s.handler ≠ .returned →
      (∃ l, Own l ∧ step s l ≠ none) ∨ (s.worker = .idle ∧ s.cancelled = false) := by
    intro n1 n2 _
    cases hwk : s.worker with
    | none => exact absurd hwk n1
    | ended => exact absurd hwk n2
    | leaving => exact Or.inl ⟨.wLeave, trivial, by simp [step, hwk, hb]⟩
    | writing =>
      rcases wr with h | h
      · exact Or.inl ⟨.wWrite, trivial, by simp [step, hwk, h]⟩
      · exact Or.inl ⟨.wFail, trivial, by simp [step, hwk, h]⟩
    | idle =>
      cases hc : s.cancelled with
      | true => exact Or.inl ⟨.wQuit, trivial, by simp [step, hwk, hc]⟩
      | false => exact Or.inr ⟨rfl, rfl⟩
  cases hh : s.handler with
  | history n =>
    cases n with
    | zero => exact ⟨.hNext 0, trivial, by simp [step, hh]⟩
    | succ n =>
      rcases wr with h | h
      · exact ⟨.hWrite, trivial, by simp [step, hh, h]⟩
      · exact ⟨.hFail, trivial, by simp [step, hh, h]⟩
  | subscribe => exact ⟨.hNext 0, trivial, by simp [step, hh, hb]⟩
  | catchUp n =>
    cases n with
    | zero => exact ⟨.hNext 0, trivial, by simp [step, hh]⟩
    | succ n =>
      rcases wr with h | h
      · exact ⟨.hWrite, trivial, by simp [step, hh, h]⟩
      · exact ⟨.hFail, trivial, by simp [step, hh, h]⟩
  | withdraw => exact ⟨.hWithdraw, trivial, by simp [step, hh, hb]⟩
  | reading =>
    by_cases hin : 0 < s.inbox
    · exact ⟨.hRead, trivial, by simp [step, hh, hin]⟩
    by_cases hr : s.refuses = true
    · exact ⟨.hRead, trivial, by simp [step, hh, hin, hr]⟩
    have hcl : s.clientHere = true ∧ s.connOpen = true := by
      unfold Session.refuses at hr
      cases h : s.clientHere <;> cases h' : s.connOpen <;> simp_all
    have hcan : s.cancelled = true := by
      rcases ho with h | ⟨h | h, _⟩
      · rw [hcl.1] at h; cases h
      · exact h
      · exact absurd h hin
    rcases hw (h2 hh) (fun e => by rw [(h5 e).2] at hcl; exact absurd hcl.2 (by decide)) (Or.inl hcan) with h | h
    · exact h
    · rw [hcan] at h; exact absurd h.2 (by decide)
  | returned =>
    obtain ⟨hc, hcan⟩ := h4 hh
    by_cases n1 : s.worker = .none
    · refine absurd ⟨hh, Or.inl n1, ?_, hc⟩ he
      cases hr : s.registered with
      | false => rfl
      | true =>
        rcases h3 hr n1 with ⟨k, e⟩ | e <;> rw [hh] at e <;> cases e
    by_cases n2 : s.worker = .ended
    · exact absurd ⟨hh, Or.inr n2, (h5 n2).1, hc⟩ he
    rcases hw n1 n2 (Or.inl hcan) with h | h
    · exact h
    · rw [hcan] at h; exact absurd h.2 (by decide)

/-- How much work a session has before it: the part the handler is in, what it has to write, what the subscriber has to do. -/
def work (s : Session) : Nat × Nat × Nat :=
  (match s.handler with
    | .history _ => 5 | .subscribe => 4 | .catchUp _ => 3 | .withdraw => 2 | .reading => 1 | .returned => 0,
   match s.handler with
    | .history n => n | .catchUp n => n | _ => 0,
   4 * s.buf + match s.worker with
    | .none => 0 | .idle => 3 | .writing => 6 | .leaving => 1 | .ended => 0)

abbrev Less : Nat × Nat × Nat → Nat × Nat × Nat → Prop := Prod.Lex (· < ·) (Prod.Lex (· < ·) (· < ·))

theorem less_wf : WellFounded Less := (Prod.lex ⟨_, Nat.lt_wfRel.wf⟩ (Prod.lex ⟨_, Nat.lt_wfRel.wf⟩ ⟨_, Nat.lt_wfRel.wf⟩)).wf

theorem work_step {s s' : Session} {l : Label} (ho : Own l) (hs : step s l = some s') : Less (work s') (work s) := by
  cases l <;> simp only [Own] at ho <;> simp only [step] at hs <;> (repeat' split at hs) <;>
    (first
      | (cases hs; done)
      | (obtain rfl := Option.some.inj hs
         simp_all only [work, Session.ret, Less, Prod.lex_def]
         omega)
      | (obtain rfl := Option.some.inj hs
         simp_all [work, Session.ret, Less, Prod.lex_def]
         done)
      | (obtain rfl := Option.some.inj hs
         simp_all [work, Session.ret, Less, Prod.lex_def]
         omega))

theorem over_ends {s : Session} (hi : Inv s) (ho : Over s) (hb : s.stopped = false) : EndsItself s := by
  constructor
  · intro ls
    induction ls generalizing s with
    | nil =>
      intro s' _ he hstuck
      obtain rfl := Option.some.inj he
      by_cases he : Ended s
      · exact he
      · obtain ⟨l, hl, hne⟩ := over_goes_on hi ho hb he
        exact absurd (hstuck l hl) hne
    | cons l ls ih =>
      intro s' hown he hstuck
      simp only [exec] at he
      split at he
      · rename_i s1 hs
        have := over_step (hown l (by simp)) ho hs
        exact ih (inv_step hi hs) this.1 (this.2.trans hb) s' (fun l' h' => hown l' (by simp [h'])) he hstuck
      · cases he
  · rintro ⟨f, lab, -, hf⟩
    have : ∀ x : Nat × Nat × Nat, ∀ n, work (f n) = x → False := by
      intro x
      induction x using less_wf.induction with
      | _ x ih =>
        intro n hn
        exact ih (work (f (n + 1))) (hn ▸ work_step (hf n).1 (hf n).2) (n + 1) rfl
    exact this _ 0 rfl

/-- **C122**, the end. In every history in which the API has not been stopped: once the client has gone, or it is too slow and
reads again, or it has sent a message and reads, the server ends the session by itself, whatever the schedule: the handler
returns, the subscriber's goroutine ends, the subscription is withdrawn and the connection closed. Missing: clients that do
not read and `Stop`, for which it is false (`C122_false_slow`, `C122_false_stop`). -/
theorem C122_partial (n : Nat) (ls : List Label) (s : Session) (hx : exec (opened n) ls = some s) (hb : s.stopped = false)
    (h : s.clientHere = false ∨ ((s.cancelled = true ∨ 0 < s.inbox) ∧ s.stalled = false)) : EndsItself s :=
  over_ends (inv_exec ls (inv_opened n) hx) h hb

/-- The client leaves while 3 records wait in the channel; a schedule of the server that ends the session. -/
def lsLeave : List Label :=
  [.hWrite, .hNext 0, .hNext 1, .deliver, .hWrite, .hNext 0, .deliver, .deliver, .deliver, .wTake, .clientLeaves]

example : (exec (opened 1) lsLeave).map (fun s => (s.handler, s.worker, s.registered, s.buf, s.clientHere, s.stopped)) =
    some (.reading, .writing, true, 3, false, false) := by decide

example : (exec (opened 1) (lsLeave ++ [.wWrite, .hRead, .wTake, .wFail, .wLeave])).map
    (fun s => (s.handler, s.worker, s.registered, s.connOpen)) = some (.returned, .ended, false, false) := by decide

/-- A session that nothing has ended. -/
structure Healthy (s : Session) : Prop where
  here : s.clientHere = true
  conn : s.connOpen = true
  live : s.cancelled = false
  quiet : s.inbox = 0
  running : s.stopped = false
  handler : s.handler ≠ .returned ∧ s.handler ≠ .withdraw
  worker : s.worker ≠ .leaving ∧ s.worker ≠ .ended
  serves : s.handler = .reading → s.registered = true ∧ s.worker ≠ .none

theorem healthy_opened (n : Nat) : Healthy (opened n) := by
  constructor <;> simp [opened]

theorem healthy_step {s s' : Session} {l : Label} (hl : ¬ Ending l) (hi : ∀ k, s.handler = .catchUp k → s.registered = true)
    (h : Healthy s) (hs : step s l = some s') :
    Healthy s' ∧ ∀ k, s'.handler = .catchUp k → s'.registered = true := by
  obtain ⟨h1, h2, h3, h4, h5, h6, h7, h8⟩ := h
  cases l <;> simp only [Ending, not_true_eq_false] at hl <;> simp only [step] at hs <;> (repeat' split at hs) <;>
    (first
      | (cases hs; done)
      | (obtain rfl := Option.some.inj hs
         refine ⟨?_, ?_⟩
         · constructor <;> simp_all [Session.refuses, Session.ret]
         · simp_all [Session.refuses, Session.ret])
      | (simp_all [Session.refuses]; done))

/-- **C122**, the life. In every history in which the client neither leaves nor sends a message, is never too slow and the API
is not stopped: the connection is open, the handler has not returned, and once it has come to wait for the client the
subscriber is registered and its goroutine serves it. -/
theorem C122_stays (n : Nat) (ls : List Label) (s : Session) (hx : exec (opened n) ls = some s) (hl : ∀ l ∈ ls, ¬ Ending l) :
    s.connOpen = true ∧ s.cancelled = false ∧ s.handler ≠ .returned ∧ s.handler ≠ .withdraw ∧
    (s.handler = .reading → s.registered = true ∧ (s.worker = .idle ∨ s.worker = .writing)) := by
  have key : ∀ (ls : List Label) (s0 : Session), (∀ l ∈ ls, ¬ Ending l) → Healthy s0 →
      (∀ k, s0.handler = .catchUp k → s0.registered = true) → exec s0 ls = some s → Healthy s := by
    intro ls
    induction ls with
    | nil => intro s0 _ h _ he; obtain rfl := Option.some.inj he; exact h
    | cons l ls ih =>
      intro s0 hl h hr he
      simp only [exec] at he
      split at he
      · rename_i s1 hs
        have := healthy_step (hl l (by simp)) hr h hs
        exact ih s1 (fun l' h' => hl l' (by simp [h'])) this.1 this.2 he
      · cases he
  have h := key ls (opened n) hl (healthy_opened n) (by simp [opened]) hx
  refine ⟨h.conn, h.live, h.handler.1, h.handler.2, fun e => ⟨(h.serves e).1, ?_⟩⟩
  have := h.worker
  have := (h.serves e).2
  cases hw : s.worker <;> simp_all

/-- A client that gets 22 events, more than fit into the subscriber's channel, stalls for a while and then reads them. -/
example : ∃ s, exec (opened 2) ([.hWrite, .hWrite, .hNext 0, .hNext 0, .hNext 0, .clientStalls, .deliver, .wTake] ++
    List.replicate 20 .deliver ++ [.clientReads, .wWrite, .wTake, .deliver]) = some s ∧ s.handler = .reading ∧ s.buf = 20 := by
  exact ⟨_, rfl, by decide⟩

/-- **C122**, one writer: the handler and the subscriber's goroutine never write to the connection at the same time, which the
WebSocket library forbids. -/
theorem C122_one_writer (n : Nat) (ls : List Label) (s : Session) (hx : exec (opened n) ls = some s) :
    ¬ ((∃ k, s.handler = .history k ∨ s.handler = .catchUp k) ∧ s.worker = .writing) := by
  rintro ⟨⟨k, hk⟩, hw⟩
  rcases (inv_exec ls (inv_opened n) hx).worker with h | h | h
  · rw [hw] at h; cases h
  · rcases hk with e | e <;> rw [h] at e <;> cases e
  · rcases hk with e | e <;> rw [h] at e <;> cases e

/-- **C122 is false, messages**: in every state in which the handler waits, the first message of a client that is there and
keeps up makes the handler close the connection. -/
theorem C122_false_message (s : Session) (h : s.handler = .reading) (hc : s.clientHere = true) :
    ∃ s', exec s [.clientSends, .hRead] = some s' ∧ s'.handler = .returned ∧ s'.connOpen = false ∧ s'.clientHere = true := by
  refine ⟨_, by simp [exec, step, hc, h, Session.ret]; rfl, rfl, rfl, rfl⟩

/-- What the client does to be noticed. -/
def Noticed : Label → Prop
  | .clientSends | .clientLeaves | .clientReads => True
  | _ => False

/-- A client that does not read, with a write to it under way. -/
structure Stuck (s : Session) : Prop where
  here : s.clientHere = true
  stalled : s.stalled = true
  quiet : s.inbox = 0
  conn : s.connOpen = true
  handler : s.handler = .reading
  worker : s.worker = .writing

/-- **C122 is false, slow clients**: a client that stays connected without reading is found too slow and taken out of the
broadcaster, but the two goroutines and the connection stay for as long as it keeps still. -/
theorem C122_false_slow (s : Session) (h : Stuck s) (ls : List Label) (s' : Session) (hl : ∀ l ∈ ls, ¬ Noticed l)
    (hx : exec s ls = some s') : Stuck s' ∧ ¬ Ended s' := by
  have key : ∀ (ls : List Label) (s : Session), Stuck s → (∀ l ∈ ls, ¬ Noticed l) → exec s ls = some s' → Stuck s' := by
    intro ls
    induction ls with
    | nil => intro s h _ he; obtain rfl := Option.some.inj he; exact h
    | cons l ls ih =>
      intro s h hl he
      simp only [exec] at he
      split at he
      · rename_i s1 hs
        refine ih s1 ?_ (fun l' h' => hl l' (by simp [h'])) he
        have hn := hl l (by simp)
        obtain ⟨h1, h2, h3, h4, h5, h6⟩ := h
        cases l <;> simp only [Noticed, not_true_eq_false] at hn <;>
          simp [step, h1, h2, h3, h4, h5, h6, Session.takes, Session.refuses] at hs <;>
          (first
            | (subst hs; exact ⟨rfl, rfl, rfl, rfl, rfl, rfl⟩)
            | (obtain ⟨-, rfl⟩ := hs; exact ⟨rfl, rfl, rfl, rfl, rfl, rfl⟩))
      · cases he
  have h' := key ls s h hl hx
  exact ⟨h', fun e => by have := e.1; rw [h'.handler] at this; cases this⟩

/-- Such a session: 21 events for a client that has stopped reading, and the time-out. -/
def lsSlow : List Label :=
  [.hNext 0, .hNext 0, .hNext 0, .clientStalls, .deliver, .wTake] ++ List.replicate 20 .deliver ++ [.timeout false]

def slow : Session := ⟨true, true, 0, true, true, .reading, .writing, false, false, 20⟩

theorem exec_slow : exec (opened 0) lsSlow = some slow := by decide

theorem stuck_slow : Stuck slow := ⟨rfl, rfl, rfl, rfl, rfl, rfl⟩

/-- **C122 is false, `Stop`**: a session whose subscriber's goroutine is running when the API is stopped never ends: the
goroutine waits for ever for a broadcaster that has returned. As long as the client keeps still its connection stays open:
the client is not told that nothing will come any more. -/
theorem C122_false_stop (s s1 : Session) (hs : step s .stop = some s1) (hh : s.handler = .reading) (hc : s.connOpen = true)
    (hw : s.worker ≠ .none ∧ s.worker ≠ .ended) (ls : List Label) (s' : Session) (hx : exec s1 ls = some s') :
    s'.worker ≠ .ended ∧ s'.worker ≠ .none ∧ ¬ Ended s' ∧
    (s.inbox = 0 → s.clientHere = true → (∀ l ∈ ls, l ≠ .clientSends ∧ l ≠ .clientLeaves) →
      s'.connOpen = true ∧ s'.handler = .reading) := by
  have h1 : s1.stopped = true ∧ s1.worker = s.worker ∧ s1.handler = .reading ∧ s1.connOpen = true ∧ s1.inbox = s.inbox ∧
      s1.clientHere = s.clientHere := by
    simp only [step] at hs
    split at hs
    · cases hs
    · obtain rfl := Option.some.inj hs
      exact ⟨rfl, rfl, hh, hc, rfl, rfl⟩
  have keyA : ∀ (ls : List Label) (s : Session), s.stopped = true → s.worker ≠ .ended → s.worker ≠ .none →
      exec s ls = some s' → s'.worker ≠ .ended ∧ s'.worker ≠ .none := by
    intro ls
    induction ls with
    | nil => intro s _ a b he; obtain rfl := Option.some.inj he; exact ⟨a, b⟩
    | cons l ls ih =>
      intro s hb a b he
      simp only [exec] at he
      split at he
      · rename_i s2 hs2
        have : s2.stopped = true ∧ s2.worker ≠ .ended ∧ s2.worker ≠ .none := by
          cases l <;> simp only [step] at hs2 <;> (repeat' split at hs2) <;>
            (first
              | (cases hs2; done)
              | (obtain rfl := Option.some.inj hs2
                 simp_all [Session.ret]; done)
              | (simp_all; done))
        exact ih s2 this.1 this.2.1 this.2.2 he
      · cases he
  have keyB : ∀ (ls : List Label) (s : Session), s.stopped = true → s.handler = .reading → s.connOpen = true → s.inbox = 0 →
      s.clientHere = true → (∀ l ∈ ls, l ≠ .clientSends ∧ l ≠ .clientLeaves) → exec s ls = some s' →
      s'.connOpen = true ∧ s'.handler = .reading := by
    intro ls
    induction ls with
    | nil => intro s _ a b _ _ _ he; obtain rfl := Option.some.inj he; exact ⟨b, a⟩
    | cons l ls ih =>
      intro s hb a b c d hl he
      simp only [exec] at he
      split at he
      · rename_i s2 hs2
        have hl0 := hl l (by simp)
        have : s2.stopped = true ∧ s2.handler = .reading ∧ s2.connOpen = true ∧ s2.inbox = 0 ∧ s2.clientHere = true := by
          cases l <;> simp only [step] at hs2 <;> (repeat' split at hs2) <;>
            (first
              | (cases hs2; done)
              | (obtain rfl := Option.some.inj hs2
                 simp_all [Session.ret]; done)
              | (simp_all [Session.refuses]; done))
        exact ih s2 this.1 this.2.1 this.2.2.1 this.2.2.2.1 this.2.2.2.2 (fun l' h' => hl l' (by simp [h'])) he
      · cases he
  have hA := keyA ls s1 h1.1 (h1.2.1 ▸ hw.2) (h1.2.1 ▸ hw.1) hx
  refine ⟨hA.1, hA.2, fun e => ?_, fun hi hc' hl =>
    keyB ls s1 h1.1 h1.2.2.1 h1.2.2.2.1 (h1.2.2.2.2.1.trans hi) (h1.2.2.2.2.2.trans hc') hl hx⟩
  rcases e.2.1 with e | e
  · exact hA.2 e
  · exact hA.1 e

/-- A session that is being served when the API is stopped. -/
example : ∃ s s1, exec (opened 0) [.hNext 0, .hNext 0, .hNext 0, .deliver] = some s ∧ step s .stop = some s1 ∧
    s.handler = .reading ∧ s.connOpen = true ∧ s.worker = .idle ∧ s.inbox = 0 ∧ s.clientHere = true := by
  exact ⟨_, _, rfl, rfl, by decide⟩

/-- **C122 is false.** -/
theorem C122_false : ¬ C122_full := by
  intro h
  have h1 := (h 0 lsSlow slow exec_slow).1 (Or.inr rfl)
  have := h1.1 [] slow (by simp) rfl (by
    intro l hl
    cases l <;> simp only [Own] at hl <;> simp [step, slow, Session.takes, Session.refuses])
  exact (C122_false_slow slow stuck_slow [] slow (by simp) rfl).2 this

/-! ## C123 -/

/-- The query that asks for the events from number `n` on: `global-sequence-number=n`. -/
def startQuery (n : Nat) : Str := kStart ++ 61 :: Dec.natText n

theorem startFromRequest_startQuery (n : Nat) (hn : n < 2 ^ 64) : startFromRequest (startQuery n) = some n := by
  have hd : ∀ {d : Nat}, d < 48 ∨ 57 < d → d ∉ Dec.natText n := by
    intro d h e; have := Txt.natText_all e; omega
  have h38 : 38 ∉ startQuery n := by
    simp only [startQuery, List.mem_append, List.mem_cons, not_or]
    exact ⟨by decide, by decide, hd (by omega)⟩
  have h59 : 59 ∉ startQuery n := by
    simp only [startQuery, List.mem_append, List.mem_cons, not_or]
    exact ⟨by decide, by decide, hd (by omega)⟩
  have hg : Pg.queryGet (startQuery n) kStart = Dec.natText n := by
    unfold Pg.queryGet
    rw [Txt.split_none (Txt.cut_byte_none h38)]
    have hc : Pg.cutAt 61 (startQuery n) = (kStart, Dec.natText n) := by
      unfold Pg.cutAt startQuery
      rw [Txt.cut_byte _ (by decide)]
      rfl
    have hne : startQuery n ≠ [] := by simp [startQuery]
    simp only [List.filterMap_cons, List.filterMap_nil, hne, h59, or_self, if_false, hc]
    rw [Pg.unescape_plain true kStart (by decide) (by intro _; decide), Pg.unescape_plain true (Dec.natText n) (hd (by omega))
      (fun _ => hd (by omega))]
    simp
  unfold startFromRequest
  rw [hg]
  simp only [Dec.natText_ne, if_false]
  exact Dec.parseUint_natText n hn

theorem split_clean {c : Nat} : ∀ (k : Nat) (s : Str), s.length ≤ k → ∀ x ∈ Txt.split [c] s, c ∉ x := by
  intro k
  induction k with
  | zero =>
    intro s hs x hx
    obtain rfl := List.length_eq_zero_iff.mp (Nat.le_zero.mp hs)
    rw [Txt.split_none (Txt.cut_byte_none (by simp))] at hx
    simp at hx
    simp [hx]
  | succ k ih =>
    intro s hs x hx
    by_cases hc : c ∈ s
    · obtain ⟨a, b, hab, ha⟩ := List.eq_append_cons_of_mem hc
      rw [hab, Txt.split_some (by simp) (Txt.cut_byte b ha)] at hx
      rcases List.mem_cons.mp hx with rfl | hx
      · exact ha
      · refine ih b ?_ x hx
        rw [hab] at hs
        simp at hs
        omega
    · rw [Txt.split_none (Txt.cut_byte_none hc)] at hx
      simp at hx
      rwa [hx]

theorem mem_join {c : Nat} {sep : Str} : ∀ {xs : List Str}, c ∈ Txt.join sep xs → c ∈ sep ∨ ∃ x ∈ xs, c ∈ x := by
  intro xs
  induction xs with
  | nil => intro h; simp [Txt.join] at h
  | cons a as ih =>
    intro h
    cases as with
    | nil => exact Or.inr ⟨a, by simp, h⟩
    | cons b bs =>
      simp only [Txt.join, List.mem_append] at h
      rcases h with (h | h) | h
      · exact Or.inr ⟨a, by simp, h⟩
      · exact Or.inl h
      · rcases ih h with h | ⟨x, hx, hc⟩
        · exact Or.inl h
        · exact Or.inr ⟨x, List.mem_cons_of_mem _ hx, hc⟩

theorem mem_join_of {c : Nat} {sep : Str} : ∀ {xs : List Str} {x : Str}, x ∈ xs → c ∈ x → c ∈ Txt.join sep xs := by
  intro xs
  induction xs with
  | nil => intro x h; simp at h
  | cons a as ih =>
    intro x hx hc
    cases as with
    | nil =>
      simp at hx
      subst hx
      exact hc
    | cons b bs =>
      simp only [Txt.join, List.mem_append]
      rcases List.mem_cons.mp hx with rfl | hx
      · exact Or.inl (Or.inl hc)
      · exact Or.inr (ih hx hc)

/-- The full claim **C123**: whatever the names of the aggregate types, the command subscribes to the types it was given. -/
def C123_full : Prop := ∀ names : List Str, names ≠ [] → (∀ x ∈ names, x ≠ [] ∧ 44 ∉ x) →
  ∀ n < 2 ^ 64, request (commandPath (Txt.join [44] names)) (startQuery n) = .types n names

/-- **C123**: a request with the names of types, separated by commas, subscribes to exactly these types from the number asked
for, if and only if the names consist of letters and `-`. Missing: all other names (`C123_false`). -/
theorem C123_partial (names : List Str) (hne : names ≠ []) (hx : ∀ x ∈ names, x ≠ []) (n : Nat) (hn : n < 2 ^ 64) :
    request (commandPath (Txt.join [44] names)) (startQuery n) = .types n names ↔
      ∀ x ∈ names, ∀ c ∈ x, Http.LinkByte c := by
  have hj : Txt.join [44] names ≠ [] := by
    cases names with
    | nil => exact absurd rfl hne
    | cons a as =>
      intro e
      obtain ⟨c, cs, hc⟩ := List.exists_cons_of_ne_nil (hx a (by simp))
      have := mem_join_of (sep := [44]) (xs := a :: as) (x := a) (c := c) (by simp) (by simp [hc])
      rw [e] at this
      simp at this
  have hb : ∀ c, Http.typeByte c = true ↔ Http.LinkByte c ∨ c = 44 := by
    intro c
    simp only [Http.typeByte, Json.btw, Http.LinkByte, Bool.or_eq_true, Bool.and_eq_true, decide_eq_true_eq]
    omega
  have hreq : request (commandPath (Txt.join [44] names)) (startQuery n) =
      match Http.typesOfPath (Txt.join [44] names) with
      | none => .notFound
      | some names => .types n names := by
    unfold request commandPath
    rw [if_pos hj]
    have h1 : tEvents ++ ([47] ++ Txt.join [44] names) ≠ tEvents := by
      intro e
      have := congrArg List.length e
      simp at this
    have h2 : (tEvents ++ ([47] ++ Txt.join [44] names)).take 8 = tEvents ++ [47] := by simp [tEvents]
    have h3 : (tEvents ++ ([47] ++ Txt.join [44] names)).drop 8 = Txt.join [44] names := by simp [tEvents]
    rw [if_neg h1, if_pos h2, h3, startFromRequest_startQuery n hn]
    cases Http.typesOfPath (Txt.join [44] names) <;> rfl
  rw [hreq]
  unfold Http.typesOfPath
  constructor
  · intro h x hxm c hc
    by_cases hall : Txt.join [44] names ≠ [] ∧ (Txt.join [44] names).all Http.typeByte = true
    · rw [if_pos hall] at h
      have hs : Txt.split [44] (Txt.join [44] names) = names := by
        simpa using h
      rcases (hb c).mp (List.all_eq_true.mp hall.2 c (mem_join_of hxm hc)) with h1 | h1
      · exact h1
      · subst h1
        rw [← hs] at hxm
        exact absurd hc (split_clean _ _ (Nat.le_refl _) x hxm)
    · rw [if_neg hall] at h
      cases h
  · intro h
    have hall : (Txt.join [44] names).all Http.typeByte = true := by
      rw [List.all_eq_true]
      intro c hc
      rcases mem_join hc with h1 | ⟨x, hxm, h1⟩
      · exact (hb c).mpr (Or.inr (by simpa using h1))
      · exact (hb c).mpr (Or.inl (h x hxm c h1))
    rw [if_pos ⟨hj, hall⟩]
    rw [Txt.split_join names hne (fun x hxm hc => by
      have := h x hxm 44 hc
      unfold Http.LinkByte at this
      omega)]

/-- Without a type, the command subscribes to all events; without a number, from the first event on. -/
theorem C123_all (n : Nat) (hn : n < 2 ^ 64) :
    request (commandPath []) (startQuery n) = .all n ∧ request (commandPath []) [] = .all 0 := by
  constructor
  · simp [request, commandPath, startFromRequest_startQuery n hn]
  · decide

/-- Two types. -/
example : request (commandPath [116, 104, 105, 110, 103, 44, 116, 104, 97, 116]) (startQuery 7) =
    .types 7 [[116, 104, 105, 110, 103], [116, 104, 97, 116]] := by decide

/-- **C123 is false**: the type `user2` cannot be subscribed to. -/
theorem C123_false : ¬ C123_full ∧
    request (commandPath [117, 115, 101, 114, 50]) (startQuery 0) = .notFound := by
  refine ⟨fun h => absurd (h [[117, 115, 101, 114, 50]] (by simp) (by simp) 0 (by decide)) (by decide), by decide⟩

/-- A number that is none, or too large, is refused before anything is subscribed to. -/
example : request tEvents (kStart ++ [61, 45, 49]) = .badRequest ∧
    request tEvents (kStart ++ 61 :: Dec.natText (2 ^ 64)) = .badRequest := by decide

end RangeDB.Ws

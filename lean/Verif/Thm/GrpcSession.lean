import Verif.Model.GrpcSession

/-!
# gRPC subscriptions: an open call has lost nothing, and calls end (C126)
-/

namespace RangeDB.Grpc

/-- The server's own steps: of the handler and of the subscriber's goroutine. -/
def Own : Label → Prop
  | .hSend | .hFail | .hBad | .hNext _ | .hWithdraw | .hDone | .wTake | .wSkip | .wSend | .wFail | .wBad | .wQuit | .wLeave => True
  | _ => False

/-- Nothing of the call is left in the server. -/
def Ended (s : Session) : Prop :=
  s.handler = .returned ∧ (s.worker = .none ∨ s.worker = .ended) ∧ s.registered = false

/-- Starting from `s` the server, left to itself, ends the call: it can go on as long as the call has not ended, but not for
ever. -/
def EndsItself (s : Session) : Prop :=
  (∀ ls s', (∀ l ∈ ls, Own l) → exec s ls = some s' → (∀ l, Own l → step s' l = none) → Ended s') ∧
  ¬ ∃ (f : Nat → Session) (lab : Nat → Label), f 0 = s ∧ ∀ n, Own (lab n) ∧ step (f n) (lab n) = some (f (n + 1))

/-- A new call of any of the three kinds. -/
def New (s : Session) : Prop := s = openedLive ∨ ∃ n, s = opened n

/-- The full claim **C126**: as long as the call of a client is open, no event of the subscription has been lost; and when the
client has left, the call ends. -/
def C126_full : Prop := ∀ (s0 : Session) (ls : List Label) (s : Session), New s0 → exec s0 ls = some s →
  (s.clientHere = true → s.handler ≠ .returned → s.lost = 0) ∧ (s.clientHere = false → EndsItself s)

structure Inv (s : Session) : Prop where
  worker : s.worker = .none ∨ s.handler = .waiting ∨ s.handler = .returned
  waits : s.handler = .waiting → s.worker ≠ .none
  reg : s.registered = true → s.worker = .none → (∃ k, s.handler = .catchUp k) ∨ s.handler = .withdraw
  gone : s.worker = .ended → s.registered = false
  left : s.handler = .returned → s.worker ≠ .none → s.clientHere = false

theorem inv_new {s : Session} (h : New s) : Inv s := by
  rcases h with rfl | ⟨n, rfl⟩ <;> constructor <;> simp [opened, openedLive]

theorem inv_step {s s' : Session} {l : Label} (h : Inv s) (hs : step s l = some s') : Inv s' := by
  obtain ⟨h1, h2, h3, h4, h5⟩ := h
  cases l <;> simp only [step] at hs <;> (repeat' split at hs) <;>
    (first
      | (cases hs; done)
      | (obtain rfl := Option.some.inj hs
         constructor <;> simp_all)
      | skip)

theorem inv_exec : ∀ (ls : List Label) {s s' : Session}, Inv s → exec s ls = some s' → Inv s' := by
  intro ls
  induction ls with
  | nil => intro s s' h he; obtain rfl := Option.some.inj he; exact h
  | cons l ls ih =>
    intro s s' h he
    simp only [exec] at he
    split at he
    · rename_i s1 hs; exact ih (inv_step h hs) he
    · cases he

theorem left_step {s s' : Session} {l : Label} (ho : Own l) (hs : step s l = some s') :
    s'.clientHere = s.clientHere ∧ s'.stopped = s.stopped := by
  cases l <;> simp only [Own] at ho <;> simp only [step] at hs <;> (repeat' split at hs) <;>
    (first
      | (cases hs; done)
      | (obtain rfl := Option.some.inj hs; exact ⟨rfl, rfl⟩))

theorem goes_on {s : Session} (hi : Inv s) (hc : s.clientHere = false) (hb : s.stopped = false) (he : ¬ Ended s) :
    ∃ l, Own l ∧ step s l ≠ none := by
  obtain ⟨h1, h2, h3, h4, h5⟩ := hi
  cases hh : s.handler with
  | start => exact ⟨.hNext 0, trivial, by simp [step, hh, hc]⟩
  | history n =>
    cases n with
    | zero => exact ⟨.hNext 0, trivial, by simp [step, hh]⟩
    | succ n => exact ⟨.hFail, trivial, by simp [step, hh, hc]⟩
  | subscribe => exact ⟨.hNext 0, trivial, by simp [step, hh, hb]⟩
  | catchUp n =>
    cases n with
    | zero => exact ⟨.hNext 0, trivial, by simp [step, hh]⟩
    | succ n => exact ⟨.hFail, trivial, by simp [step, hh, hc]⟩
  | withdraw => exact ⟨.hWithdraw, trivial, by simp [step, hh, hb]⟩
  | waiting => exact ⟨.hDone, trivial, by simp [step, hh, hc]⟩
  | returned =>
    cases hw : s.worker with
    | none =>
      refine absurd ⟨hh, Or.inl hw, ?_⟩ he
      cases hr : s.registered with
      | false => rfl
      | true => rcases h3 hr hw with ⟨k, e⟩ | e <;> rw [hh] at e <;> cases e
    | idle => exact ⟨.wQuit, trivial, by simp [step, hw, hc]⟩
    | sending => exact ⟨.wFail, trivial, by simp [step, hw, hc]⟩
    | leaving => exact ⟨.wLeave, trivial, by simp [step, hw, hb]⟩
    | ended => exact absurd ⟨hh, Or.inr hw, h4 hw⟩ he

/-- How much work a call has before it: the part the handler is in, what it has to send, what the subscriber has to do. -/
def work (s : Session) : Nat × Nat × Nat :=
  (match s.handler with
    | .start => 6 | .history _ => 5 | .subscribe => 4 | .catchUp _ => 3 | .withdraw => 2 | .waiting => 1 | .returned => 0,
   match s.handler with
    | .history n => n | .catchUp n => n | _ => 0,
   4 * s.buf + match s.worker with
    | .none => 0 | .idle => 3 | .sending => 6 | .leaving => 1 | .ended => 0)

abbrev Less : Nat × Nat × Nat → Nat × Nat × Nat → Prop := Prod.Lex (· < ·) (Prod.Lex (· < ·) (· < ·))

theorem less_wf : WellFounded Less := (Prod.lex ⟨_, Nat.lt_wfRel.wf⟩ (Prod.lex ⟨_, Nat.lt_wfRel.wf⟩ ⟨_, Nat.lt_wfRel.wf⟩)).wf

theorem work_step {s s' : Session} {l : Label} (ho : Own l) (hs : step s l = some s') : Less (work s') (work s) := by
  cases l <;> simp only [Own] at ho <;> simp only [step] at hs <;> (repeat' split at hs) <;>
    (first
      | (cases hs; done)
      | (obtain rfl := Option.some.inj hs
         simp_all only [work, Less, Prod.lex_def]
         omega)
      | (obtain rfl := Option.some.inj hs
         simp_all [work, Less, Prod.lex_def]
         done)
      | (obtain rfl := Option.some.inj hs
         simp_all [work, Less, Prod.lex_def]
         omega))

/-- **C126**, the end. In every history in which the broadcaster has not been stopped: once the client has left, the server
ends the call by itself, whatever the schedule: the handler returns, the subscriber's goroutine ends and the subscription is
withdrawn. Missing: calls that are open when `Stop` is called, for which it is false (`C126_false_stop`). -/
theorem C126_ends_partial (s0 : Session) (ls : List Label) (s : Session) (h0 : New s0) (hx : exec s0 ls = some s)
    (hb : s.stopped = false) (hc : s.clientHere = false) : EndsItself s := by
  have hi := inv_exec ls (inv_new h0) hx
  constructor
  · intro ls
    clear hx
    induction ls generalizing s with
    | nil =>
      intro s' _ he hstuck
      obtain rfl := Option.some.inj he
      by_cases he : Ended s
      · exact he
      · obtain ⟨l, hl, hne⟩ := goes_on hi hc hb he
        exact absurd (hstuck l hl) hne
    | cons l ls ih =>
      intro s' hown he hstuck
      simp only [exec] at he
      split at he
      · rename_i s1 hs
        have := left_step (hown l (by simp)) hs
        exact ih s1 (this.2.trans hb) (this.1.trans hc) (inv_step hi hs) s' (fun l' h' => hown l' (by simp [h'])) he hstuck
      · cases he
  · rintro ⟨f, lab, -, hf⟩
    have : ∀ x : Nat × Nat × Nat, ∀ n, work (f n) = x → False := by
      intro x
      induction x using less_wf.induction with
      | _ x ih =>
        intro n hn
        exact ih (work (f (n + 1))) (hn ▸ work_step (hf n).1 (hf n).2) (n + 1) rfl
    exact this _ 0 rfl

/-- The client leaves while 2 records wait in the channel; a schedule of the server that ends the call. -/
def lsLeave : List Label :=
  [.hSend, .hNext 0, .hNext 1, .event, .hSend, .hNext 0, .event, .event, .wTake, .clientLeaves]

example : (exec (opened 1) lsLeave).map (fun s => (s.handler, s.worker, s.registered, s.buf, s.clientHere, s.stopped)) =
    some (.waiting, .sending, true, 2, false, false) := by decide

example : (exec (opened 1) (lsLeave ++ [.wFail, .hDone, .wLeave])).map (fun s => (s.handler, s.worker, s.registered)) =
    some (.returned, .ended, false) := by decide

/-- What makes a subscription lose events while the client is there: it is too slow, `Stop` is called, or an event cannot be
encoded. -/
def Losing : Label → Prop
  | .timeout _ | .stop | .hBad | .wBad => True
  | _ => False

/-- A call that nothing has disturbed. -/
structure Healthy (s : Session) : Prop where
  live : s.cancelled = false
  running : s.stopped = false
  handler : s.handler ≠ .returned ∧ s.handler ≠ .withdraw
  worker : s.worker ≠ .leaving ∧ s.worker ≠ .ended
  serves : s.handler = .waiting → s.registered = true ∧ s.worker ≠ .none
  catching : ∀ k, s.handler = .catchUp k → s.registered = true
  all : s.lost = 0

theorem here_back {s s' : Session} {l : Label} (hs : step s l = some s') (h : s'.clientHere = true) : s.clientHere = true := by
  cases l <;> simp only [step] at hs <;> (repeat' split at hs) <;>
    (first
      | (cases hs; done)
      | (obtain rfl := Option.some.inj hs; first | exact h | cases h))

theorem here_exec : ∀ (ls : List Label) {s s' : Session}, exec s ls = some s' → s'.clientHere = true → s.clientHere = true := by
  intro ls
  induction ls with
  | nil => intro s s' he h; obtain rfl := Option.some.inj he; exact h
  | cons l ls ih =>
    intro s s' he h
    simp only [exec] at he
    split at he
    · rename_i s1 hs; exact here_back hs (ih he h)
    · cases he

theorem healthy_step {s s' : Session} {l : Label} (hl : ¬ Losing l) (hc : s.clientHere = true) (h : Healthy s)
    (hs : step s l = some s') : Healthy s' := by
  obtain ⟨h1, h2, h3, h4, h5, h6, h7⟩ := h
  cases l <;> simp only [Losing, not_true_eq_false] at hl <;> simp only [step] at hs <;> (repeat' split at hs) <;>
    (first
      | (cases hs; done)
      | (obtain rfl := Option.some.inj hs
         constructor <;> simp_all)
      | (simp_all; done))

/-- **C126**, no loss. In every history in which the client is there and was never too slow, `Stop` was not called and every
event could be encoded: the call is open, no event was lost, and once the handler has come to wait the subscriber is registered
and its goroutine serves it, which sends whatever is in the channel as soon as the client reads. Missing: the three cases named,
for which it is false (`C126_false_slow`, `C126_false_stop`, `C126_false_bad`). -/
theorem C126_partial (s0 : Session) (ls : List Label) (s : Session) (h0 : New s0) (hx : exec s0 ls = some s)
    (hc : s.clientHere = true) (hl : ∀ l ∈ ls, ¬ Losing l) :
    s.handler ≠ .returned ∧ s.lost = 0 ∧ s.cancelled = false ∧
    (s.handler = .waiting → s.registered = true ∧ (s.worker = .idle ∨ s.worker = .sending) ∧
      (s.stalled = false → 0 < s.buf → step s .wTake ≠ none ∨ step s .wSend ≠ none)) := by
  have key : ∀ (ls : List Label) (s0 : Session), (∀ l ∈ ls, ¬ Losing l) → Healthy s0 → exec s0 ls = some s → Healthy s := by
    intro ls
    induction ls with
    | nil => intro s0 _ h he; obtain rfl := Option.some.inj he; exact h
    | cons l ls ih =>
      intro s0 hl h he
      simp only [exec] at he
      split at he
      · rename_i s1 hs
        exact ih s1 (fun l' h' => hl l' (by simp [h'])) (healthy_step (hl l (by simp)) (here_back hs (here_exec ls he hc)) h hs) he
      · cases he
  have hn : Healthy s0 := by
    rcases h0 with rfl | ⟨n, rfl⟩ <;> constructor <;> simp [opened, openedLive]
  have h := key ls s0 hl hn hx
  refine ⟨h.handler.1, h.all, h.live, fun e => ⟨(h.serves e).1, ?_, fun hs hb => ?_⟩⟩
  · have := h.worker
    have := (h.serves e).2
    cases hw : s.worker <;> simp_all
  · have := h.worker
    have := (h.serves e).2
    cases hw : s.worker with
    | idle => exact Or.inl (by simp [step, hw, hb])
    | sending => exact Or.inr (by simp [step, hw, Session.takes, hc, hs])
    | _ => simp_all

/-- A client that gets 22 events, more than fit into the subscriber's channel, stalls for a while and then reads. -/
example : ∃ s, exec (opened 2) ([.hSend, .hSend, .hNext 0, .hNext 0, .hNext 0, .clientStalls, .event, .wTake] ++
    List.replicate 20 .event ++ [.clientReads, .wSend, .wTake, .event]) = some s ∧ s.handler = .waiting ∧ s.buf = 20 ∧
    s.clientHere = true := by
  exact ⟨_, rfl, by decide⟩

example : ∃ s, exec openedLive [.event, .hNext 0, .event, .wTake, .wSend] = some s ∧ s.handler = .waiting ∧ s.lost = 0 := by
  exact ⟨_, rfl, by decide⟩

/-- **C126**, only the client ends a call: in every history, a call that has ended was left by its client, or an event could
not be encoded before the handler came to wait. No other call is told anything. -/
theorem C126_only (s0 : Session) (ls : List Label) (s : Session) (h0 : New s0) (hx : exec s0 ls = some s)
    (hr : s.handler = .returned) : s.clientHere = false ∨ Label.hBad ∈ ls := by
  by_cases hb : Label.hBad ∈ ls
  · exact Or.inr hb
  left
  have key : ∀ (ls : List Label) (s0 : Session), Label.hBad ∉ ls →
      (s0.handler = .returned ∨ s0.handler = .withdraw → s0.clientHere = false) → exec s0 ls = some s →
      (s.handler = .returned ∨ s.handler = .withdraw → s.clientHere = false) := by
    intro ls
    induction ls with
    | nil => intro s0 _ h he; obtain rfl := Option.some.inj he; exact h
    | cons l ls ih =>
      intro s0 hl h he
      simp only [exec] at he
      split at he
      · rename_i s1 hs
        refine ih s1 (fun h' => hl (by simp [h'])) ?_ he
        have hl0 : l ≠ .hBad := fun e => hl (by simp [e])
        cases l <;> simp only [step] at hs <;> (repeat' split at hs) <;>
          (first
            | (cases hs; done)
            | (exact absurd rfl hl0)
            | (obtain rfl := Option.some.inj hs; simp_all; done)
            | (simp_all; done))
      · cases he
  refine key ls s0 hb ?_ hx (Or.inl hr)
  rcases h0 with rfl | ⟨n, rfl⟩ <;> simp [opened, openedLive]

/-- How many events of the subscription were saved in a part of a history. -/
def events (ls : List Label) : Nat := ls.countP (· == .event)

/-- A call whose client waits although the broadcaster does not send to it any more. -/
structure Silent (s : Session) : Prop where
  here : s.clientHere = true
  handler : s.handler = .waiting
  off : s.registered = false ∨ s.stopped = true

theorem silent_exec : ∀ (ls : List Label) (s s' : Session), Silent s → (∀ l ∈ ls, l ≠ .clientLeaves) → exec s ls = some s' →
    Silent s' ∧ s.lost + events ls ≤ s'.lost := by
  intro ls
  induction ls with
  | nil => intro s s' h _ he; obtain rfl := Option.some.inj he; exact ⟨h, by simp [events]⟩
  | cons l ls ih =>
    intro s s' h hl he
    simp only [exec] at he
    split at he
    · rename_i s1 hs
      have hl0 := hl l (by simp)
      obtain ⟨a, b, c⟩ := h
      have hoff : (s.registered && !s.stopped) = false := by rcases c with c | c <;> simp [c]
      have h1 : Silent s1 ∧ s.lost + (if l == .event then 1 else 0) ≤ s1.lost := by
        cases l <;> simp only [step, b, a, hoff] at hs <;> (repeat' split at hs) <;>
          (first
            | (cases hs; done)
            | (exact absurd rfl hl0)
            | (obtain rfl := Option.some.inj hs
               refine ⟨⟨?_, ?_, ?_⟩, ?_⟩ <;> simp_all; done)
            | (simp_all; done))
      obtain ⟨h2, h3⟩ := ih s1 s' h1.1 (fun l' h' => hl l' (by simp [h'])) he
      refine ⟨h2, ?_⟩
      have : events (l :: ls) = events ls + (if l == .event then 1 else 0) := by
        simp only [events, List.countP_cons]
      rw [this]
      omega
    · cases he

/-- **C126 is false, slow clients**: a client that was too slow once loses that event and every later one, and it is never
told: its call stays open for as long as it stays, even if it reads everything from then on. -/
theorem C126_false_slow (s s1 : Session) (hs : step s (.timeout false) = some s1) (hh : s.handler = .waiting)
    (hc : s.clientHere = true) (ls : List Label) (s' : Session) (hl : ∀ l ∈ ls, l ≠ .clientLeaves) (hx : exec s1 ls = some s') :
    s'.handler = .waiting ∧ s.lost + 1 + events ls ≤ s'.lost := by
  simp only [step] at hs
  split at hs
  · obtain rfl := Option.some.inj hs
    obtain ⟨h1, h2⟩ := (fun h => silent_exec ls _ s' h hl hx) ⟨hc, hh, Or.inl rfl⟩
    exact ⟨h1.handler, h2⟩
  · cases hs

/-- A client that does not read for 21 events. -/
def lsSlow : List Label := [.hNext 0, .clientStalls, .event, .wTake] ++ List.replicate 20 .event

example : ∃ s s1, exec openedLive lsSlow = some s ∧ step s (.timeout false) = some s1 ∧ s.handler = .waiting ∧
    s.clientHere = true ∧ s.lost = 0 := by
  exact ⟨_, _, rfl, rfl, by decide⟩

/-- It then reads for ever: the 21 events arrive, nothing that is saved later does. -/
example : (exec openedLive (lsSlow ++ [.timeout false, .clientReads, .wSend] ++
    (List.replicate 20 [Label.wTake, .wSend]).flatten ++ [.wQuit, .wLeave, .event, .event])).map
    (fun s => (s.handler, s.worker, s.clientHere, s.lost)) = some (.waiting, .ended, true, 3) := by decide

/-- **C126 is false, events that cannot be encoded**: the subscriber's goroutine gives up, the client loses that event and,
once the goroutine has withdrawn, every later one, and it is never told. -/
theorem C126_false_bad (s s1 s2 : Session) (hs : step s .wBad = some s1) (hs2 : step s1 .wLeave = some s2)
    (hh : s.handler = .waiting) (hc : s.clientHere = true) (ls : List Label) (s' : Session)
    (hl : ∀ l ∈ ls, l ≠ .clientLeaves) (hx : exec s2 ls = some s') :
    s'.handler = .waiting ∧ s.lost + 1 + s.buf + events ls ≤ s'.lost := by
  simp only [step] at hs
  split at hs
  · obtain rfl := Option.some.inj hs
    simp only [step] at hs2
    split at hs2
    · cases hs2
    · obtain rfl := Option.some.inj hs2
      obtain ⟨h1, h2⟩ := (fun h => silent_exec ls _ s' h hl hx) ⟨hc, hh, Or.inl rfl⟩
      exact ⟨h1.handler, h2⟩
  · cases hs

example : ∃ s s1 s2, exec (opened 0) [.hNext 0, .hNext 0, .hNext 0, .event, .event, .wTake] = some s ∧
    step s .wBad = some s1 ∧ step s1 .wLeave = some s2 ∧ s.handler = .waiting ∧ s.clientHere = true ∧ s.buf = 1 := by
  exact ⟨_, _, _, rfl, rfl, rfl, by decide⟩

/-- **C126 is false, `Stop`**: the client of a call that is being served when `Stop` is called loses every later event and is
not told by it; and the subscriber's goroutine never ends, even when the client leaves: it waits for ever for a broadcaster that
has returned. (The rangedb command stops the gRPC server right after it, cmd/rangedb/main.go:136-143, which ends the calls.) -/
theorem C126_false_stop (s s1 : Session) (hs : step s .stop = some s1) (hh : s.handler = .waiting)
    (hc : s.clientHere = true) (hw : s.worker ≠ .none ∧ s.worker ≠ .ended) (ls : List Label) (s' : Session)
    (hx : exec s1 ls = some s') :
    ¬ Ended s' ∧ ((∀ l ∈ ls, l ≠ .clientLeaves) → s'.handler = .waiting ∧ s.lost + events ls ≤ s'.lost) := by
  simp only [step] at hs
  split at hs
  · cases hs
  · obtain rfl := Option.some.inj hs
    refine ⟨fun e => ?_, fun hl => ?_⟩
    · have key : ∀ (ls : List Label) (s : Session), s.stopped = true → s.worker ≠ .ended → s.worker ≠ .none →
          exec s ls = some s' → s'.worker ≠ .ended ∧ s'.worker ≠ .none := by
        intro ls
        induction ls with
        | nil => intro s _ a b he; obtain rfl := Option.some.inj he; exact ⟨a, b⟩
        | cons l ls ih =>
          intro s hb a b he
          simp only [exec] at he
          split at he
          · rename_i s2 hs2
            have : s2.stopped = true ∧ s2.worker ≠ .ended ∧ s2.worker ≠ .none := by
              cases l <;> simp only [step] at hs2 <;> (repeat' split at hs2) <;>
                (first
                  | (cases hs2; done)
                  | (obtain rfl := Option.some.inj hs2
                     simp_all; done)
                  | (simp_all; done))
            exact ih s2 this.1 this.2.1 this.2.2 he
          · cases he
      have := (fun a b c => key ls _ a b c hx) rfl hw.2 hw.1
      rcases e.2.1 with e | e
      · exact this.2 e
      · exact this.1 e
    · obtain ⟨h1, h2⟩ := (fun h => silent_exec ls _ s' h hl hx) ⟨hc, hh, Or.inr rfl⟩
      exact ⟨h1.handler, h2⟩

example : ∃ s s1, exec (opened 0) [.hNext 0, .hNext 0, .hNext 0, .event] = some s ∧ step s .stop = some s1 ∧
    s.handler = .waiting ∧ s.clientHere = true ∧ s.worker = .idle := by
  exact ⟨_, _, rfl, rfl, by decide⟩

/-- **C126 is false.** -/
theorem C126_false : ¬ C126_full := by
  intro h
  have := (h openedLive (lsSlow ++ [.timeout false]) _ (Or.inl rfl) rfl).1 rfl (by decide)
  exact absurd this (by decide)

end RangeDB.Grpc

import Verif.Proof.Chain

/-!
# Subscriptions through the WebSocket API, the gRPC server and the remote store (C79, C80)

`exec z p (initApi p L) ls = some c`: the schedule `ls` can run, for a client that subscribes with the
parameters `p` at a server whose store holds `L`, and leads to `c`. `c.sub.out` is what the client's consumer
has received, `c.sub.log.recs` what the store holds, `c.sub.saved` everything ever saved.
-/

namespace RangeDB.Chain

open Demo Sub

variable {z : Serializer} {p : Sub.Params}

/-! ## C79: clients of the two APIs -/

/-- The full claim of **C79**: when nothing is on its way, a client with an open subscription to all events
from the beginning has received everything in the store. -/
def C79_full (a : Api) : Prop :=
  ∀ (ls : List Label) (c : State), exec demo ldAll (initApi ldAll Log.empty) ls = some c → AtRest c →
    connected a c → ∀ r ∈ c.sub.log.recs, r ∈ c.sub.out

/-- The client connects and its subscription goes live. -/
def startUp : List Label := [.base .sub, .base .sub, .base .sub, .base .sub, .base .sub, .base .sub, .base .sub]

/-- **C79 fails for both APIs**: when the server's one relay is too slow once, it is stopped for good; every
client stays connected and never receives another event. -/
def lsRelay : List Label :=
  startUp ++ [.base (.commit sA [evA [1]]), .base (.accept 0), .hop 0 (.take true),
    .base (.commit sA [evA [2]]), .base (.accept 0), .hop 0 (.take false)]

theorem C79_false_relay (a : Api) : ¬ C79_full a := by
  intro h
  have := h lsRelay ((exec demo ldAll (initApi ldAll Log.empty) lsRelay).get (by decide)) (by simp)
    (by unfold AtRest; decide) (by cases a <;> (unfold connected; decide)) (mkRecord sA 1 1 (evA [1])) (by decide)
  exact absurd this (by decide)

/-- **C79 fails for gRPC in a second way**, with no fault in the server's relay: a client that is too slow
once is dropped from the server's broadcaster, but its call stays open, so it waits for ever. -/
theorem C79_false_slow_grpc : ∃ (ls : List Label) (c : State),
    exec demo ldAll (initApi ldAll Log.empty) ls = some c ∧ NoCut ls ∧ AtRest c ∧ connected .grpc c ∧
    ∃ r ∈ c.sub.log.recs, r ∉ c.sub.out := by
  refine ⟨startUp ++ [.base (.commit sA [evA [1]]), .base (.accept 0), .hop 0 (.take false), .hop 0 .work,
      .base (.broadcast true), .base .finish],
    (exec demo ldAll (initApi ldAll Log.empty) (startUp ++ [.base (.commit sA [evA [1]]), .base (.accept 0),
      .hop 0 (.take false), .hop 0 .work, .base (.broadcast true), .base .finish])).get (by decide), by simp, ?_, ?_,
    ?_, mkRecord sA 1 1 (evA [1]), by decide, by decide⟩
  · intro k op hm
    simp [startUp] at hm
    rcases hm with ⟨_, rfl⟩ | ⟨_, rfl⟩ <;> simp
  · unfold AtRest; decide
  · unfold connected; decide

/-- **C79, order.** Whatever is cut, cancelled or dropped, in every schedule, on either store, for every chain
of hops: a consumer receives records in strictly increasing global order (so none twice), each was really
saved and is of a requested type. -/
theorem C79_order (hz : z.Lawful) (hv : p.Valid) {L : Log} (hL : L.WF) {hs : List Hop} (hf : Fresh hs)
    (ls : List Label) (c : State) (hx : exec z p ⟨hs, Sub.init p L, false⟩ ls = some c) :
    c.sub.out.Pairwise (fun a b => a.gsn < b.gsn) ∧ ∀ r ∈ c.sub.out, r ∈ c.sub.saved ∧ p.wants r = true := by
  have h := csafe_exec hz hv ls (good_init hf hL false).safe hx
  exact ⟨h.sub.outInc, h.sub.outSaved⟩

theorem relay_up : Up [relay] := by intro h hh; simp only [List.mem_singleton] at hh; subst hh; rfl

theorem relay_fresh : Fresh [relay] := by
  intro h hh; simp only [List.mem_singleton] at hh; subst hh; exact ⟨rfl, rfl, rfl⟩

theorem remote_fresh : Fresh [relay, liveSub, listener] := by
  intro h hh
  simp only [List.mem_cons, List.not_mem_nil, or_false] at hh
  rcases hh with rfl | rfl | rfl <;> exact ⟨rfl, rfl, rfl⟩

theorem valid_of_one (ht : p.topics = [none] ∨ ∃ t, p.topics = [some t]) :
    p.Valid ∧ p.topics.length = 1 := by
  rcases ht with h | ⟨t, h⟩
  · exact ⟨Or.inl h, by simp [h]⟩
  · exact ⟨Or.inr ⟨[t], by simp, by simp [h]⟩, by simp [h]⟩

theorem init_idle (L : Log) : Idle p (Sub.init p L) := fun _ => ⟨rfl, rfl, rfl, rfl, rfl⟩

/-- When everything after `n` was received and nothing was deleted, starting from 0 gives exactly the saved
records. -/
theorem exact_of_complete (hz : z.Lawful) (hv : p.Valid) {hs : List Hop} (hf : Fresh hs) {L : Log} (hL : L.WF)
    {ls : List Label} {c : State} (hx : exec z p ⟨hs, Sub.init p L, false⟩ ls = some c)
    (h : ∀ r ∈ c.sub.log.recs, p.wants r = true → 0 < r.gsn → r ∈ c.sub.out)
    (hd : ∀ st, Label.base (.delete st) ∉ ls) : c.sub.out = c.sub.saved.filter (fun r => p.wants r) := by
  have hS := (csafe_exec hz hv ls (good_init hf hL false).safe hx).sub
  have hl : c.sub.log.recs = c.sub.saved := saved_live_exec ls hd rfl hx
  apply inc_ext hS.outInc (hS.savedInc.filter _)
  intro r
  rw [List.mem_filter]
  refine ⟨fun hr => hS.outSaved r hr, fun hr => ?_⟩
  have hr' : r ∈ c.sub.log.recs := hl ▸ hr.1
  exact h r hr' hr.2 (hS.wf.bounded r hr').1

/-- **C79 for WebSocket clients**, what holds (LevelDB, all events or one type): as long as the server's
relay is not stopped, when nothing is on its way a client whose connection is open has received every live
event numbered above `n`, and event `n` if it was there before; from 0 on and without deletions it has
received exactly the saved events. Missing: a stopped relay, for which it is false. -/
theorem C79_ws_partial (hz : z.Lawful) (hh : p.holds = true)
    (ht : p.topics = [none] ∨ ∃ t, p.topics = [some t]) (n : Nat) (hn : p.startFrom = some n)
    {L : Log} (hL : L.WF) (ls : List Label) (c : State) (hx : exec z p (initApi p L) ls = some c)
    (hc : NoCut ls) (hr : AtRest c) (ho : connected .webSocket c) :
    (∀ r ∈ c.sub.log.recs, p.wants r = true → n < r.gsn → r ∈ c.sub.out) ∧
    (∀ r ∈ L.recs, r ∈ c.sub.log.recs → p.wants r = true → r.gsn = n → r ∈ c.sub.out) ∧
    (n = 0 → (∀ st, Label.base (.delete st) ∉ ls) → c.sub.out = c.sub.saved.filter (fun r => p.wants r)) := by
  obtain ⟨hv, h1⟩ := valid_of_one ht
  obtain ⟨g1, g2⟩ := complete hz hv h1 (good_init relay_fresh hL false) (init_idle L) rfl relay_up ls hc
    (serial_of_holds hh ls hx) hx hr ho.2 n hn
  refine ⟨g1, g2, fun h0 hd => ?_⟩
  subst h0
  exact exact_of_complete hz hv relay_fresh hL hx g1 hd

/-- **C79 for gRPC clients**, what holds: the same if in addition the client itself was never too slow.
Missing: a stopped relay and a slow client, for both of which it is false. -/
theorem C79_grpc_partial (hz : z.Lawful) (hh : p.holds = true)
    (ht : p.topics = [none] ∨ ∃ t, p.topics = [some t]) (n : Nat) (hn : p.startFrom = some n)
    {L : Log} (hL : L.WF) (ls : List Label) (c : State) (hx : exec z p (initApi p L) ls = some c)
    (hc : NoCut ls) (hslow : Label.base (.broadcast true) ∉ ls) (hr : AtRest c) (ho : connected .grpc c) :
    (∀ r ∈ c.sub.log.recs, p.wants r = true → n < r.gsn → r ∈ c.sub.out) ∧
    (∀ r ∈ L.recs, r ∈ c.sub.log.recs → p.wants r = true → r.gsn = n → r ∈ c.sub.out) ∧
    (n = 0 → (∀ st, Label.base (.delete st) ∉ ls) → c.sub.out = c.sub.saved.filter (fun r => p.wants r)) :=
  C79_ws_partial hz hh ht n hn hL ls c hx hc hr
    ⟨ho, (stays_exec ls (by simp [initApi, Sub.init]) hslow hx ho).2⟩

/-- **C79, the loss is silent and final.** Once a hop before the subscriber has stopped and nothing is on its
way, the subscriber receives nothing more in any continuation, whatever is saved. -/
theorem C79_silent {c : State} (hr : AtRest c) (hd : ∃ h ∈ c.hops, h.st = .down)
    (ls : List Label) (c' : State) (hx : exec z p c ls = some c') : c'.sub.out = c.sub.out := by
  obtain ⟨_, r2, r3, r4⟩ := hr
  refine silent_exec ls ⟨dead_of_down r2 hd, r3, ?_⟩ hx
  rcases r4 with r4 | r4
  · exact Or.inl ⟨r4.1, r4.2.1⟩
  · exact Or.inr r4

/-- The hypotheses of the positive theorems are met: one event is saved before the client connects, one
between its first read and its registration, one while it is live; all three arrive. -/
def lsWs : List Label :=
  [.base (.commit sA [evA [1]]), .base (.accept 0), .base .sub, .base .sub, .hop 0 (.take false), .base .sub,
   .base (.commit sB [evB [2]]), .base (.accept 0), .hop 0 .work, .base (.broadcast false), .base .sub, .base .sub,
   .base .sub, .base .sub, .base .sub, .base .sub, .hop 0 (.take false), .hop 0 .work, .base (.broadcast false),
   .base (.commit sA [evA [3]]), .base (.accept 0), .hop 0 (.take false), .hop 0 .work, .base (.broadcast false),
   .base .sub, .base .sub]

example : ∃ c, exec demo ldAll (initApi ldAll Log.empty) lsWs = some c ∧ NoCut lsWs ∧
    Label.base (.broadcast true) ∉ lsWs ∧ AtRest c ∧ connected .webSocket c ∧ connected .grpc c ∧
    c.sub.out.map (·.gsn) = [1, 2, 3] := by
  refine ⟨(exec demo ldAll (initApi ldAll Log.empty) lsWs).get (by decide), by simp, ?_, ?_, ?_, ?_, ?_, by decide⟩
  · intro k op hm
    simp [lsWs] at hm
    grind
  · simp [lsWs]
  · unfold AtRest; decide
  · unfold connected; decide
  · unfold connected; decide

/-- The hypotheses of `C79_silent` are met after `lsRelay`. -/
example : ∃ c, exec demo ldAll (initApi ldAll Log.empty) lsRelay = some c ∧ AtRest c ∧
    (∃ h ∈ c.hops, h.st = .down) ∧ c.sub.pc = .working := by
  refine ⟨(exec demo ldAll (initApi ldAll Log.empty) lsRelay).get (by decide), by simp, ?_, by decide, by decide⟩
  unfold AtRest; decide

/-! ## C80: subscribers of the remote store -/

/-- The full claim of **C80**: when nothing is on its way, a subscription to all events from the beginning,
made at a remote store and never cancelled, has received everything in the store. -/
def C80_full : Prop :=
  ∀ (ls : List Label) (c : State), exec demo ldAll (initRemote ldAll Log.empty) ls = some c → AtRest c →
    c.sub.cancelled = false → ∀ r ∈ c.sub.log.recs, r ∈ c.sub.out

/-- A schedule in which an event saved after the subscription's last read passes the server's broadcaster
before the server has handled the request for live events that `New` sent. -/
def lsStartup : List Label :=
  startUp ++ [.base (.commit sA [evA [1]]), .base (.accept 0), .hop 0 (.take false), .hop 0 .work,
    .hop 1 (.take false), .hop 1 .register]

/-- **C80 is false**, with nothing cut: the live connection of a remote store starts some time after `New`
has returned, and an event saved in between is lost for subscriptions made in between. -/
theorem C80_false_startup : ∃ c, exec demo ldAll (initRemote ldAll Log.empty) lsStartup = some c ∧
    NoCut lsStartup ∧ AtRest c ∧ c.sub.cancelled = false ∧ Up c.hops ∧
    ∃ r ∈ c.sub.log.recs, r ∉ c.sub.out := by
  refine ⟨(exec demo ldAll (initRemote ldAll Log.empty) lsStartup).get (by decide), by simp, ?_, ?_, by decide, ?_,
    mkRecord sA 1 1 (evA [1]), by decide, by decide⟩
  · intro k op hm
    simp [lsStartup, startUp] at hm
    grind
  · unfold AtRest; decide
  · unfold Up; decide

theorem C80_false : ¬ C80_full := by
  intro h
  obtain ⟨c, h1, _, h3, h4, _, r, hr, hn⟩ := C80_false_startup
  exact hn (h lsStartup c h1 h3 h4 r hr)

/-- **C80 fails in a second way**: one event that the remote store cannot decode (or one failed receive) ends
the reading of live events for good; its subscriptions are not cancelled and stay silent. -/
theorem C80_false_undecodable : ∃ (ls : List Label) (c : State),
    exec demo ldAll (initRemote ldAll Log.empty) ls = some c ∧ AtRest c ∧ c.sub.cancelled = false ∧
    (∀ k op, Label.hop k op ∈ ls → op = .take true → k = 2) ∧ (∀ k, Label.hop k .die ∉ ls) ∧
    ∃ r ∈ c.sub.log.recs, r ∉ c.sub.out := by
  let ls : List Label := .hop 1 .register :: startUp ++ [.base (.commit sA [evA [1]]), .base (.accept 0),
    .hop 0 (.take false), .hop 0 .work, .hop 1 (.take false), .hop 1 .work, .hop 2 (.take true),
    .base (.commit sB [evB [2]]), .base (.accept 0), .hop 0 (.take false), .hop 0 .work, .hop 1 (.take false),
    .hop 1 .work, .hop 2 (.take false)]
  refine ⟨ls, (exec demo ldAll (initRemote ldAll Log.empty) ls).get (by decide), by simp, ?_, by decide, ?_, ?_,
    mkRecord sB 2 1 (evB [2]), by decide, by decide⟩
  · unfold AtRest; decide
  · intro k op hm ho
    simp [ls, startUp] at hm
    grind
  · intro k hm
    simp [ls, startUp] at hm

/-- **C80**, what holds (server over LevelDB, all events or one type): if the server has registered the
remote store's live connection before the subscription is made (`pre`; anything may happen then, also the loss
of events on the chain), and after that no hop stops, a subscription that was not dropped has, when nothing is
on its way, received every live event numbered above `n`, and event `n` if it was there before; from 0 on and
without deletions, exactly the saved events. Missing: a subscription made earlier, and stopped hops, for which
it is false. -/
theorem C80_partial (hz : z.Lawful) (hh : p.holds = true)
    (ht : p.topics = [none] ∨ ∃ t, p.topics = [some t]) (n : Nat) (hn : p.startFrom = some n)
    {L : Log} (hL : L.WF) (pre post : List Label) (c1 c : State)
    (hpre : exec z p (initRemote p L) pre = some c1) (hidle : c1.sub.pc = .idle) (hu : Up c1.hops)
    (hpost : exec z p c1 post = some c) (hc : NoCut post) (hr : AtRest c) (ho : c.sub.pc ≠ .finished) :
    (∀ r ∈ c.sub.log.recs, p.wants r = true → n < r.gsn → r ∈ c.sub.out) ∧
    (∀ r ∈ c1.sub.log.recs, r ∈ c.sub.log.recs → p.wants r = true → r.gsn = n → r ∈ c.sub.out) ∧
    (n = 0 → (∀ st, Label.base (.delete st) ∉ pre ++ post) →
      c.sub.out = c.sub.saved.filter (fun r => p.wants r)) := by
  obtain ⟨hv, h1⟩ := valid_of_one ht
  have hgood := good_exec hz hv pre (good_init remote_fresh hL false) (serial_of_holds hh pre hpre) hpre
  obtain ⟨g1, g2⟩ := complete hz hv h1 hgood (idle_exec pre (init_idle L) hpre) hidle hu post hc
    (serial_of_holds hh post hpost) hpost hr ho n hn
  refine ⟨g1, g2, fun h0 hd => ?_⟩
  subst h0
  exact exact_of_complete hz hv remote_fresh hL (exec_append pre post hpre hpost) g1 hd

/-- The hypotheses of `C80_partial` are met: the first event is lost on the chain before the live connection
is registered, but the subscription reads it; the others arrive over the chain. -/
example : ∃ c1 c, exec demo ldAll (initRemote ldAll Log.empty)
      [.base (.commit sA [evA [1]]), .base (.accept 0), .hop 0 (.take false), .hop 0 .work, .hop 1 (.take false),
       .hop 1 .register, .base (.commit sB [evB [2]]), .base (.accept 0)] = some c1 ∧
    c1.sub.pc = .idle ∧ Up c1.hops ∧
    exec demo ldAll c1 ([.hop 0 (.take false), .base .sub, .base .sub, .base .sub, .base .sub, .base .sub, .base .sub, .base .sub,
      .base .sub, .base .sub, .hop 0 .work, .hop 1 (.take false), .hop 1 .work, .hop 2 (.take false), .hop 2 .work,
      .base (.broadcast false), .base .sub, .base (.commit sA [evA [3]]), .base (.accept 0), .hop 0 (.take false),
      .hop 0 .work, .hop 1 (.take false), .hop 1 .work, .hop 2 (.take false), .hop 2 .work, .base (.broadcast false),
      .base .sub]) = some c ∧ AtRest c ∧ c.sub.pc ≠ .finished ∧ c.sub.out.map (·.gsn) = [1, 2, 3] := by
  refine ⟨(exec demo ldAll (initRemote ldAll Log.empty)
      [.base (.commit sA [evA [1]]), .base (.accept 0), .hop 0 (.take false), .hop 0 .work, .hop 1 (.take false),
       .hop 1 .register, .base (.commit sB [evB [2]]), .base (.accept 0)]).get (by decide),
    (exec demo ldAll ((exec demo ldAll (initRemote ldAll Log.empty)
      [.base (.commit sA [evA [1]]), .base (.accept 0), .hop 0 (.take false), .hop 0 .work, .hop 1 (.take false),
       .hop 1 .register, .base (.commit sB [evB [2]]), .base (.accept 0)]).get (by decide)) ([.hop 0 (.take false), .base .sub, .base .sub, .base .sub, .base .sub, .base .sub, .base .sub, .base .sub,
      .base .sub, .base .sub, .hop 0 .work, .hop 1 (.take false), .hop 1 .work, .hop 2 (.take false), .hop 2 .work,
      .base (.broadcast false), .base .sub, .base (.commit sA [evA [3]]), .base (.accept 0), .hop 0 (.take false),
      .hop 0 .work, .hop 1 (.take false), .hop 1 .work, .hop 2 (.take false), .hop 2 .work, .base (.broadcast false),
      .base .sub])).get (by decide), by simp, by decide, by unfold Up; decide, by simp, by unfold AtRest; decide,
    by decide, by decide⟩

end RangeDB.Chain

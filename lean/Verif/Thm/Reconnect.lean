import Verif.Proof.Reconnect
import Verif.Thm.Chain

/-!
# The command `grpc-event-subscriber` and broken connections: C103

`Run z holds topics ok L cl`: after some number of connections, each with an arbitrary schedule of the server and
broken at an arbitrary moment, the client is `cl` and the store is `L`. The store changes in any way between
connections.
-/

namespace RangeDB.Recon

open Demo

variable {z : Serializer} {holds : Bool} {topics : List Sub.Topic}

/-- The connection is not disturbed on the server's side: no hop is cut, the client is not too slow, and its
subscription is alive when the connection breaks. -/
def Calm {cl : Client} (s : Connection z holds topics cl) : Prop :=
  Chain.NoCut (s.pre ++ s.post) ∧ s.after.sub.cancelled = false

/-- The full claim of **C103**: the client prints no event twice. -/
def C103_full : Prop :=
  ∀ (L : Log) (cl : Client), Run demo true [none] (fun _ s => Calm s) L cl →
    cl.printed.Pairwise (fun a b => a.gsn ≠ b.gsn)

/-- A connection in which one event is there, is sent and arrives. -/
def oneLog : Log := Log.empty.append demo.view sA [evA [1]]

theorem oneLog_wf : oneLog.WF := Log.WF.empty.append demo_lawful _ _

def readFirst : List Chain.Label := [.base .sub, .base .sub, .base .sub]

def conn (cl : Client) (h : cl.last = 0 ∨ cl.last = 1) : Connection demo true [none] cl where
  start := oneLog
  wf := oneLog_wf
  pre := []
  post := readFirst
  before := Chain.initApi (cl.params true [none]) oneLog
  after := (Chain.exec demo (cl.params true [none]) (Chain.initApi (cl.params true [none]) oneLog) readFirst).get (by
    rcases cl with ⟨l, pr⟩
    simp only at h
    rcases h with rfl | rfl <;> rfl)
  hpre := rfl
  idle := rfl
  hpost := by simp
  arrived := 1

theorem conn_got (cl : Client) (h : cl.last = 0 ∨ cl.last = 1) : (conn cl h).got = [mkRecord sA 1 1 (evA [1])] := by
  rcases cl with ⟨l, pr⟩
  simp only at h
  rcases h with rfl | rfl <;> rfl

theorem conn_calm (cl : Client) (h : cl.last = 0 ∨ cl.last = 1) : Calm (conn cl h) := by
  refine ⟨?_, ?_⟩
  · intro k op hm
    simp [conn, readFirst] at hm
  · rcases cl with ⟨l, pr⟩
    simp only at h
    rcases h with rfl | rfl <;> rfl

theorem conn_log (cl : Client) (h : cl.last = 0 ∨ cl.last = 1) : (conn cl h).after.sub.log = oneLog := by
  rcases cl with ⟨l, pr⟩
  simp only at h
  rcases h with rfl | rfl <;> rfl

/-- Two connections to a store that holds one event. -/
theorem twice : Run demo true [none] (fun _ s => Calm s) oneLog
    ⟨1, [mkRecord sA 1 1 (evA [1]), mkRecord sA 1 1 (evA [1])]⟩ := by
  have r1 := Run.next (ok := fun _ s => Calm s) (Run.start oneLog_wf) (conn Client.new (Or.inl rfl))
    (conn_calm _ _) (.refl _)
  rw [conn_log, conn_got] at r1
  have r2 := Run.next r1 (conn (Client.receive Client.new [mkRecord sA 1 1 (evA [1])]) (Or.inr rfl))
    (conn_calm _ _) (.refl _)
  rw [conn_log, conn_got] at r2
  exact r2

/-- **C103 is false in full**: with two connections to a store that holds one event, the event is printed twice:
the client asks again for the event it received last. -/
theorem C103_false : ¬ C103_full := by
  intro h
  have := h _ _ twice
  simp at this

/-- Facts about one connection. -/
theorem conn_facts (hz : z.Lawful) (hv : (Sub.Params.mk holds topics none).Valid) {cl : Client}
    (s : Connection z holds topics cl) :
    s.after.sub.out.Pairwise (fun a b => a.gsn < b.gsn) ∧ (∀ r ∈ s.after.sub.out, cl.last ≤ r.gsn) ∧
    (∀ r ∈ s.after.sub.out, r.gsn ≤ s.after.sub.log.last) ∧ (∀ r ∈ s.after.sub.out, r.gsn ≤ s.after.sub.last) := by
  have hv' : (cl.params holds topics).Valid := hv
  have hb := Chain.csafe_exec hz hv' s.pre (Chain.good_init Chain.relay_fresh s.wf false).safe s.hpre
  have ha := Chain.csafe_exec hz hv' s.post hb s.hpost
  have hl := low_chain (n := cl.last) rfl s.post (low_chain (n := cl.last) rfl s.pre (low_init s.start) s.hpre) s.hpost
  exact ⟨ha.sub.outInc, hl.2.1, fun r hr => ha.sub.savedBound r (ha.sub.outSaved r hr).1, ha.sub.outLast⟩

/-- **C103, order** (every kind of subscription, store and schedule, whatever is cut or cancelled): the numbers
printed never go down, and within one connection they go up. So an event is printed again only as the first one
of a connection, directly after itself. -/
theorem C103_order (hz : z.Lawful) (hv : (Sub.Params.mk holds topics none).Valid) {ok} {L : Log} {cl : Client}
    (h : Run z holds topics ok L cl) :
    cl.printed.Pairwise (fun a b => a.gsn ≤ b.gsn) ∧ (∀ r ∈ cl.printed, r.gsn ≤ cl.last) := by
  induction h with
  | start _ => simp [Client.new]
  | @next L cl r s _ _ ih =>
    obtain ⟨f1, f2, f3, f4⟩ := conn_facts hz hv s
    have hg : s.got.Pairwise (fun a b => a.gsn < b.gsn) := f1.sublist (List.take_sublist _ _)
    have hm : ∀ r ∈ s.got, r ∈ s.after.sub.out := fun r hr => List.mem_of_mem_take hr
    rw [receive_eq]
    refine ⟨?_, ?_⟩
    · rw [List.pairwise_append]
      refine ⟨ih.1, hg.imp (fun h => Nat.le_of_lt h), fun a ha b hb => ?_⟩
      exact Nat.le_trans (ih.2 a ha) (f2 b (hm b hb))
    · intro r hr
      cases hlast : s.got.getLast? with
      | none =>
        rw [List.getLast?_eq_none_iff] at hlast
        simp only [hlast, List.append_nil] at hr
        simpa using ih.2 r hr
      | some x =>
        have hx : x ∈ s.got := List.mem_of_getLast? hlast
        simp only [Option.map_some, Option.getD_some]
        rcases List.mem_append.mp hr with hr | hr
        · exact Nat.le_trans (ih.2 r hr) (f2 x (hm x hx))
        · obtain ⟨ys, hys⟩ := List.getLast?_eq_some_iff.mp hlast
          rw [hys] at hg hr
          rcases List.mem_append.mp hr with hr | hr
          · exact Nat.le_of_lt ((List.pairwise_append.mp hg).2.2 r hr x (by simp))
          · simp only [List.mem_singleton] at hr; rw [hr]; exact Nat.le_refl _

/-- What is known when a connection breaks. -/
theorem nothing_missed (hz : z.Lawful) (ht : topics = [none] ∨ ∃ t, topics = [some t])
    {L : Log} {cl : Client} (h : Run z true topics (fun _ s => Calm s) L cl) :
    L.last ≥ cl.last ∧
    ∀ r ∈ L.recs, (Sub.Params.mk true topics none).wants r = true → r.gsn ≤ cl.last → r ∈ cl.printed := by
  obtain ⟨hv, h1⟩ := Chain.valid_of_one (p := ⟨true, topics, none⟩) ht
  induction h with
  | start hL =>
    refine ⟨Nat.zero_le _, fun r hr _ hle => ?_⟩
    have := (hL.bounded r hr).1
    simp only [Client.new] at hle
    omega
  | @next L cl r s hcalm hev ih =>
    obtain ⟨f1, f2, f3, f4⟩ := conn_facts hz hv s
    have hv' : (cl.params true topics).Valid := hv
    have hserp := Chain.serial_of_holds (p := cl.params true topics) rfl s.pre s.hpre
    have hser := Chain.serial_of_holds (p := cl.params true topics) rfl s.post s.hpost
    have hg0 := Chain.good_init (p := cl.params true topics) Chain.relay_fresh s.wf false
    have hg := Chain.good_exec hz hv' s.pre hg0 hserp s.hpre
    have hc1 : Chain.NoCut s.pre := fun k op hm => hcalm.1 k op (List.mem_append_left _ hm)
    have hc2 : Chain.NoCut s.post := fun k op hm => hcalm.1 k op (List.mem_append_right _ hm)
    obtain ⟨hu, _, _⟩ := Chain.up_exec hz hv' s.pre hg0 Chain.relay_up hc1 hserp s.hpre
    have hidl := Chain.idle_exec s.pre (Chain.init_idle s.start) s.hpre
    have hsent := (sent_so_far hz hv' h1 hg hidl s.idle hu s.post hc2 hser s.hpost hcalm.2 cl.last rfl).1
    have he := hev.facts hz
    have he2 := (evolves_chain s.post s.hpost).facts hz
    have hm : ∀ r ∈ s.got, r ∈ s.after.sub.out := fun r hr => List.mem_of_mem_take hr
    rw [receive_eq]
    have hold : ∀ r ∈ s.after.sub.log.recs, (Sub.Params.mk true topics none).wants r = true → r.gsn ≤ cl.last →
        r ∈ cl.printed := by
      intro r hr hw hle
      have h1 : r ∈ s.before.sub.log.recs := he2.2 r hr (by have := ih.1; have := he.1; omega)
      exact ih.2 r (he.2 r h1 (by have := ih.1; omega)) hw hle
    cases hlast : s.got.getLast? with
    | none =>
      refine ⟨?_, ?_⟩
      · have := ih.1; have := he.1; have := he2.1
        simp only [Option.map_none, Option.getD_none]
        omega
      · intro r hr hw hle
        exact List.mem_append_left _ (hold r hr hw hle)
    | some x =>
      have hx := hm x (List.mem_of_getLast? hlast)
      refine ⟨f3 x hx, ?_⟩
      intro r hr hw hle
      have hle : r.gsn ≤ x.gsn := hle
      by_cases hn : r.gsn ≤ cl.last
      · exact List.mem_append_left _ (hold r hr hw hn)
      · refine List.mem_append_right _ (mem_take_of_le f1 hlast ?_ hle)
        exact hsent r hr hw (by omega) (Nat.le_trans hle (f4 x hx))

/-- **C103 (partial), nothing is missed** (LevelDB, all events or one type, any number of connections that are
not disturbed on the server's side and break at any moment): every live event that is wanted and numbered at
most as the last one received has been printed; and if the last connection is still open and nothing is on
its way, every live event that is wanted has been printed. Missing: each event once (`C103_false`,
`C103_again`); a disturbed server (C79). -/
theorem C103_partial (hz : z.Lawful) (ht : topics = [none] ∨ ∃ t, topics = [some t])
    {L : Log} {cl : Client} (h : Run z true topics (fun _ s => Calm s) L cl) :
    (∀ r ∈ L.recs, (Sub.Params.mk true topics none).wants r = true → r.gsn ≤ cl.last → r ∈ cl.printed) ∧
    ∀ (s : Connection z true topics cl), Calm s → Evolves z L s.before.sub.log → Chain.AtRest s.after →
      Chain.connected .webSocket s.after → s.after.sub.out.length ≤ s.arrived →
      ∀ r ∈ s.after.sub.log.recs, (Sub.Params.mk true topics none).wants r = true →
        r ∈ (cl.receive s.got).printed := by
  refine ⟨(nothing_missed hz ht h).2, ?_⟩
  intro s hcalm hev hrest hcon hall r hr hw
  obtain ⟨hv, h1⟩ := Chain.valid_of_one (p := ⟨true, topics, none⟩) ht
  have hv' : (cl.params true topics).Valid := hv
  have hserp := Chain.serial_of_holds (p := cl.params true topics) rfl s.pre s.hpre
  have hser := Chain.serial_of_holds (p := cl.params true topics) rfl s.post s.hpost
  have hg0 := Chain.good_init (p := cl.params true topics) Chain.relay_fresh s.wf false
  have hg := Chain.good_exec hz hv' s.pre hg0 hserp s.hpre
  have hc1 : Chain.NoCut s.pre := fun k op hm => hcalm.1 k op (List.mem_append_left _ hm)
  have hc2 : Chain.NoCut s.post := fun k op hm => hcalm.1 k op (List.mem_append_right _ hm)
  obtain ⟨hu, _, _⟩ := Chain.up_exec hz hv' s.pre hg0 Chain.relay_up hc1 hserp s.hpre
  have hidl := Chain.idle_exec s.pre (Chain.init_idle s.start) s.hpre
  have hcomp := (Chain.complete hz hv' h1 hg hidl s.idle hu s.post hc2 hser s.hpost hrest hcon.2 cl.last rfl).1
  have hrun := nothing_missed hz ht h
  rw [receive_eq]
  by_cases hn : r.gsn ≤ cl.last
  · refine List.mem_append_left _ ?_
    have he := hev.facts hz
    have he2 := (evolves_chain s.post s.hpost).facts hz
    have h1 : r ∈ s.before.sub.log.recs := he2.2 r hr (by have := hrun.1; have := he.1; omega)
    exact hrun.2 r (he.2 r h1 (by have := hrun.1; omega)) hw hn
  · refine List.mem_append_right _ ?_
    unfold Connection.got
    rw [List.take_of_length_le hall]
    exact hcomp r hr hw (by omega)

/-- The hypotheses are met: `Chain.lsWs` with all three events received, after nothing at all. -/
def connWs : Connection demo true [none] Client.new where
  start := Log.empty
  wf := Log.WF.empty
  pre := []
  post := Chain.lsWs
  before := Chain.initApi Sub.ldAll Log.empty
  after := (Chain.exec demo Sub.ldAll (Chain.initApi Sub.ldAll Log.empty) Chain.lsWs).get (by decide)
  hpre := rfl
  idle := rfl
  hpost := Option.some_get (by decide) |>.symm
  arrived := 3

example : Calm connWs ∧ Chain.AtRest connWs.after ∧ Chain.connected .webSocket connWs.after ∧
    connWs.after.sub.out.length ≤ connWs.arrived ∧ (Client.new.receive connWs.got).printed.map (·.gsn) = [1, 2, 3] ∧
    connWs.after.sub.log.recs.length = 3 := by
  refine ⟨⟨?_, by decide⟩, ?_, ?_, by decide, by decide, by decide⟩
  · intro k op hm
    simp [connWs, Chain.lsWs] at hm
    rcases hm with ⟨_, rfl⟩ | ⟨_, rfl⟩ | ⟨_, rfl⟩ | ⟨_, rfl⟩ | ⟨_, rfl⟩ | ⟨_, rfl⟩ <;> simp
  · unfold Chain.AtRest; decide
  · unfold Chain.connected; decide

/-- **C103, the last event comes again.** In every connection that is not disturbed and in which anything arrives:
if the event received last is still in the store, then it is the first to arrive, so it is printed once more. -/
theorem C103_again (hz : z.Lawful) (ht : topics = [none] ∨ ∃ t, topics = [some t]) {cl : Client}
    (s : Connection z true topics cl) (hcalm : Calm s) {r : Record} (hr0 : r ∈ s.before.sub.log.recs)
    (hr : r ∈ s.after.sub.log.recs) (hw : (Sub.Params.mk true topics none).wants r = true)
    (hlast : r.gsn = cl.last) (hne : s.got ≠ []) :
    ∃ rest, (cl.receive s.got).printed = cl.printed ++ r :: rest := by
  obtain ⟨hv, h1⟩ := Chain.valid_of_one (p := ⟨true, topics, none⟩) ht
  have hv' : (cl.params true topics).Valid := hv
  have hserp := Chain.serial_of_holds (p := cl.params true topics) rfl s.pre s.hpre
  have hser := Chain.serial_of_holds (p := cl.params true topics) rfl s.post s.hpost
  have hg0 := Chain.good_init (p := cl.params true topics) Chain.relay_fresh s.wf false
  have hg := Chain.good_exec hz hv' s.pre hg0 hserp s.hpre
  have hc1 : Chain.NoCut s.pre := fun k op hm => hcalm.1 k op (List.mem_append_left _ hm)
  have hc2 : Chain.NoCut s.post := fun k op hm => hcalm.1 k op (List.mem_append_right _ hm)
  obtain ⟨hu, _, _⟩ := Chain.up_exec hz hv' s.pre hg0 Chain.relay_up hc1 hserp s.hpre
  have hidl := Chain.idle_exec s.pre (Chain.init_idle s.start) s.hpre
  have hout : s.after.sub.out ≠ [] := by
    intro e
    exact hne (by simp [Connection.got, e])
  obtain ⟨rest, he⟩ := (sent_so_far hz hv' h1 hg hidl s.idle hu s.post hc2 hser s.hpost hcalm.2 cl.last rfl).2
    r hr0 hr hw hlast hout
  rw [receive_eq]
  cases hk : s.arrived with
  | zero => exact absurd (by simp [Connection.got, hk]) hne
  | succ k => exact ⟨rest.take k, by simp [Connection.got, hk, he]⟩

/-- The hypotheses of `C103_again` are met by the second connection of `twice`. -/
example : ∃ (cl : Client) (s : Connection demo true [none] cl), Calm s ∧ cl.last = 1 ∧ s.got ≠ [] ∧
    mkRecord sA 1 1 (evA [1]) ∈ s.before.sub.log.recs ∧ mkRecord sA 1 1 (evA [1]) ∈ s.after.sub.log.recs := by
  refine ⟨⟨1, []⟩, conn _ (Or.inr rfl), conn_calm _ _, rfl, by rw [conn_got]; simp, ?_, ?_⟩
  · show _ ∈ oneLog.recs
    decide
  · rw [conn_log]; decide

end RangeDB.Recon

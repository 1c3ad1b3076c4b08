import Verif.Thm.BrokenCalls
import Verif.Thm.Chain
import Verif.Thm.Chat
import Verif.Thm.Consumers
import Verif.Thm.Damaged
import Verif.Thm.DispatchReturns
import Verif.Thm.DynStale
import Verif.Thm.Lock
import Verif.Thm.Moderation
import Verif.Thm.Pages
import Verif.Thm.Process
import Verif.Thm.Reconnect
import Verif.Thm.Remote

/-!
# What can be relied on

Many of the properties C01-C139 are false of the code in some corner, and what holds of them is proved in theorems called
`…_partial`. Here are those parts that are properties of their own, about every history and schedule, without an exception.
The cases that meet their hypotheses stand beside the theorems they come from.
-/

namespace RangeDB.Web

/-- **C144** (from C95 and C96): a statistics page, asked for when the records `a` have been counted while the records `c` may
still come, lies under every schedule between the records counted when it was asked for and those counted, or being counted,
when it is sent; if no record comes meanwhile it is exactly the page of the records. -/
theorem C144_page (a c : List Record) (st : Prj.Stats) (hst : Prj.Stats.new.acceptAll a = .ok st)
    (ls : List Label) (s : State) (hx : exec false (request st c) ls = some s) (hd : s.pc = .done) :
    ∃ p, s.sent = [p] ∧ (∃ d, d <+: c ∧ s.incoming = c.drop d.length ∧ Between p a (a ++ d)) ∧
      (Label.accept ∉ ls → Shows p a) := C95_partial a c st hst ls s hx hd

/-- **C144**, the live page: each message lists no type with more events than have come, and its counts add up to no more than
its total. -/
theorem C144_live (log : List Record) (ls : List Label) (s : State)
    (hx : exec true (connect .new log) ls = some s) (p : Page) (hp : p ∈ s.sent) : Between p [] log :=
  C96_messages log ls s hx p hp

end RangeDB.Web

namespace RangeDB.Proc

/-- **C145** (from C97): under every schedule the command ends with status 0 or 1; if it ends with status 0, the end is clean; no
request that is not a WebSocket's is being handled while the store is closed; and it does not end before `Shutdown` was
called. -/
theorem C145 (ls : List Label) (s : State) (hx : exec start ls = some s) :
    (∀ c, s.exit = some c → c = 0 ∨ c = 1) ∧ (s.exit = some 0 → Clean s) ∧
    (s.storeOpen = false → s.active = 0 ∧ s.listening = false) ∧
    (s.exit ≠ none → s.listening = false) := C97_partial ls s hx

example : ∃ s, exec start goodEnd = some s ∧ s.exit = some 0 := by
  refine ⟨_, rfl, by decide⟩

end RangeDB.Proc

namespace RangeDB.Disp

open RangeDB.Cqrs RangeDB.ES RangeDB.Key RangeDB.Cry Demo

variable {ι α κ σ : Type} [DecidableEq ι]

/-- **C146** (from C93): after any history of an encrypted store, with any key store and cipher, whenever `Dispatch` returns, the
store below holds, in addition to what it held before, exactly the returned events in this order, as they were returned. -/
theorem C146 (A : App ι α κ) (isEvent : Record → Bool) (C : Codec) (K : Store σ) (enc : Encryptor) {z : Serializer}
    (hz : z.Lawful) (hf : Faithful z) (m0 : σ) (keys nonces : Str) (ops : List HOp) (stamps : Nat → Stamp) (objs objs' : ι → α)
    (c : κ) (returned : List Event) :
    let s := hrun C K enc z (start m0 keys nonces) ops
    (dispatch A isEvent C K enc z stamps objs s c).2 = some (objs', returned) →
    ∃ news, IM.events z (dispatch A isEvent C K enc z stamps objs s c).1.parent none 0 =
        ⟨(IM.events z s.parent none 0).recs ++ news, none⟩ ∧ Each (Stored z) returned news := by
  intro s h
  obtain ⟨news, h1, h2, _⟩ := C93_partial A isEvent C K enc hz hf m0 keys nonces ops stamps objs objs' c returned h
  exact ⟨news, h1, h2⟩

end RangeDB.Disp

namespace RangeDB.Cry

open Key

/-- **C147** (from C119): with the DynamoDB key store, however far the reads lag behind (`lags`), and whatever calls are made in
between, deletions among them: what was encrypted is decrypted to the event it was, or not at all. -/
theorem C147 (lags : List Nat) (enc : Encryptor) (he : enc.Lawful) (keys nonces : Str) (before after : List Op)
    (e e' d : PEvent) (hk : Bytes keys) (hn : Bytes nonces) (hs : ∀ f ∈ e.strs, Bytes f)
    (hr : ∀ i ∈ e.ints, -(2 ^ 63) ≤ i ∧ i < 2 ^ 63) (hser : e.sers = e.ints.map (fun _ => []))
    (ht : ∀ c, Op.call c ∈ before ++ after → Timed c) :
    let w := opRun dynOld enc ⟨DynOld.new lags, keys, nonces⟩ before
    (genEncrypt dynOld enc w e).2 = some (e', none) →
    (genDecrypt dynOld enc (opRun dynOld enc (genEncrypt dynOld enc w e).1 after) e').2 = some (d, none) → d = e :=
  C119_partial lags enc he keys nonces before after e e' d hk hn hs hr hser ht

end RangeDB.Cry

namespace RangeDB.Lock

variable {σ ρ : Type}

/-- **C148** (from C24): if every read call asks for at most one type (or stream, or all events), then in no schedule of any
number of readers and writers do calls get stuck: while some call has not returned or some lock is held, somebody can go on,
and nobody can go on for ever. -/
theorem C148 (x : σ) (ls : List (Label σ ρ)) (s : State σ ρ) (hx : exec (init x) ls = some s)
    (h1 : ∀ qs, .newCall qs ∈ ls → qs.length ≤ 1) :
    (¬ AllDone s → ∃ l s', Work l ∧ step s l = some s') ∧
    (∃ ls' s', (∀ l ∈ ls', Work l) ∧ exec s ls' = some s' ∧ AllDone s') ∧
    ¬ ∃ f : Nat → State σ ρ, f 0 = s ∧ ∀ n, ∃ l, Work l ∧ step (f n) l = some (f (n + 1)) := C24_partial x ls s hx h1

end RangeDB.Lock

namespace RangeDB.ES

open RangeDB.Key RangeDB.Cry

/-- **C149** (from C31): with the in-memory key store, after every history, with any subjects deleted, a read of the encrypted
store returns exactly what an unencrypted store with the same history returns, up to the first record that carries personal
data of a deleted subject. -/
theorem C149_mem (C : Codec) (enc : Encryptor) (z : Serializer) (keys nonces : Str) (ops : List HOp) (hC : C.Lawful)
    (he : enc.Lawful) (hz : z.Lawful) (hf : Faithful z) (hk : Bytes keys) (hn : Bytes nonces) (hw : WellFormed C ops)
    (ht : ∀ c, HOp.world (.call c) ∈ ops → Key.Timed c) :
    let s := hrun C mem enc z (start Mem.new keys nonces) ops
    let plain := IM.run z (plainOps C mem enc z (start Mem.new keys nonces) ops)
    (∀ c g, (events C mem enc z s c g).2 = decrypted (shredded C mem s.world) (IM.events z plain c g)) ∧
    (∀ c n st, (eventsByStream C mem enc z s c n st).2 =
      decrypted (shredded C mem s.world) (IM.eventsByStream z plain c n st)) ∧
    (∀ g types, types.Nodup → (eventsByTypes C mem enc z s (fun _ => none) g types).2 =
      decrypted (shredded C mem s.world) (IM.eventsByAggregateTypes z plain (fun _ => none) g types)) ∧
    (∀ st c, totalEventsInStream s st c = IM.totalEventsInStream plain st c) :=
  C31_partial.1 C enc z keys nonces ops hC he hz hf hk hn hw ht

/-- **C149**, the DynamoDB key store. -/
theorem C149_dyn (C : Codec) (enc : Encryptor) (z : Serializer) (keys nonces : Str) (ops : List HOp) (hC : C.Lawful)
    (he : enc.Lawful) (hz : z.Lawful) (hf : Faithful z) (hk : Bytes keys) (hn : Bytes nonces) (hw : WellFormed C ops)
    (ht : ∀ c, HOp.world (.call c) ∈ ops → Key.Timed c) :
    let s := hrun C dyn enc z (start (fun _ => none) keys nonces) ops
    let plain := IM.run z (plainOps C dyn enc z (start (fun _ => none) keys nonces) ops)
    (∀ c g, (events C dyn enc z s c g).2 = decrypted (shredded C dyn s.world) (IM.events z plain c g)) ∧
    (∀ c n st, (eventsByStream C dyn enc z s c n st).2 =
      decrypted (shredded C dyn s.world) (IM.eventsByStream z plain c n st)) ∧
    (∀ g types, types.Nodup → (eventsByTypes C dyn enc z s (fun _ => none) g types).2 =
      decrypted (shredded C dyn s.world) (IM.eventsByAggregateTypes z plain (fun _ => none) g types)) ∧
    (∀ st c, totalEventsInStream s st c = IM.totalEventsInStream plain st c) :=
  C31_partial.2 C enc z keys nonces ops hC he hz hf hk hn hw ht

example := C149_mem codec0 (gcm toyAead) demoAll (tape0 64) (tape0 96) hist31 Use.story31.codec Use.story31.engine
  Use.story31.serializer Use.story31.faithful Use.story31.keys Use.story31.nonces Use.story31.wf Use.story31.timed

end RangeDB.ES

namespace RangeDB.Recon

variable {z : Serializer} {topics : List Sub.Topic}

/-- **C150** (from C103): the gRPC event subscriber, over any number of connections that break at any moment (LevelDB, all
events or one type, a server that is not disturbed): every live event that is wanted and numbered at most as the last one
received has been printed; if the last connection is open and nothing is on its way, every live event that is wanted has been
printed; and the numbers printed never go down. -/
theorem C150 (hz : z.Lawful) (hv : (Sub.Params.mk true topics none).Valid) (ht : topics = [none] ∨ ∃ t, topics = [some t])
    {L : Log} {cl : Client} (h : Run z true topics (fun _ s => Calm s) L cl) :
    (∀ r ∈ L.recs, (Sub.Params.mk true topics none).wants r = true → r.gsn ≤ cl.last → r ∈ cl.printed) ∧
    (∀ (s : Connection z true topics cl), Calm s → Evolves z L s.before.sub.log → Chain.AtRest s.after →
      Chain.connected .webSocket s.after → s.after.sub.out.length ≤ s.arrived →
      ∀ r ∈ s.after.sub.log.recs, (Sub.Params.mk true topics none).wants r = true →
        r ∈ (cl.receive s.got).printed) ∧
    cl.printed.Pairwise (fun a b => a.gsn ≤ b.gsn) :=
  ⟨(C103_partial hz ht h).1, (C103_partial hz ht h).2, (C103_order hz hv h).1⟩

end RangeDB.Recon

import Verif.Model.Chain

/-!
# Model: the command `grpc-event-subscriber`

`cmd/grpc-event-subscriber/main.go`: a client that prints events, and connects again whenever its connection
breaks. What the server does is `Model/Chain`.

Simplification: `pre` and `post` of a connection describe the server from its own start; the server may be the
same one for several connections or a new one each time.
-/

namespace RangeDB.Recon

/-- The client (main.go:48-52): the number of the last event received, 0 at first; and what it has printed. -/
structure Client where
  last : Nat
  printed : List Record

/-- `NewGRPCEventSubscriber` (54-60). -/
def Client.new : Client := ⟨0, []⟩

/-- The request (82-96): from the last number received, for the given types or for all events. -/
def Client.params (c : Client) (holds : Bool) (topics : List Sub.Topic) : Sub.Params := ⟨holds, topics, some c.last⟩

/-- The loop of `connectAndListen` (98-106) over the records that arrive before the connection breaks. -/
def Client.receive (c : Client) : List Record → Client
  | [] => c
  | r :: rs => Client.receive ⟨r.gsn, c.printed ++ [r]⟩ rs

/-- What happens to the store while the client is not connected: events are saved and streams are deleted. -/
inductive Evolves (z : Serializer) : Log → Log → Prop
  | refl (L) : Evolves z L L
  | append {L L'} (st ers) : Evolves z L L' → Evolves z L (L'.append z.view st ers)
  | delete {L L'} (st) : Evolves z L L' → Evolves z L (L'.delete st)

/-- One connection of the client `cl`. -/
structure Connection (z : Serializer) (holds : Bool) (topics : List Sub.Topic) (cl : Client) where
  /-- the store when the server was started -/
  start : Log
  wf : start.WF
  /-- the server's schedule until the client's request comes -/
  pre : List Chain.Label
  /-- the server's schedule until the connection breaks -/
  post : List Chain.Label
  /-- the server when the request comes -/
  before : Chain.State
  /-- the server when the connection breaks -/
  after : Chain.State
  hpre : Chain.exec z (cl.params holds topics) (Chain.initApi (cl.params holds topics) start) pre = some before
  idle : before.sub.pc = .idle
  hpost : Chain.exec z (cl.params holds topics) before post = some after
  /-- how many of the records sent have arrived when the connection breaks -/
  arrived : Nat

/-- What the client receives in a connection. -/
def Connection.got {z holds topics cl} (s : Connection z holds topics cl) : List Record :=
  s.after.sub.out.take s.arrived

/-- The loop of `Start` (62-68): connection after connection; `ok` says which connections are considered. The
log is that of the store when the last connection broke. -/
inductive Run (z : Serializer) (holds : Bool) (topics : List Sub.Topic)
    (ok : ∀ cl, Connection z holds topics cl → Prop) : Log → Client → Prop
  | start {L} (h : L.WF) : Run z holds topics ok L Client.new
  | next {L cl} (r : Run z holds topics ok L cl) (s : Connection z holds topics cl) (h : ok cl s)
      (e : Evolves z L s.before.sub.log) : Run z holds topics ok s.after.sub.log (cl.receive s.got)

end RangeDB.Recon

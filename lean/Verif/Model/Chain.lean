import Verif.Model.Subscription

/-!
# Model of subscriptions through the WebSocket API, the gRPC server and the remote store

A client of `pkg/rangedbws` or `pkg/grpc/rangedbserver` is a `recordsubscriber` that reads the store
directly but gets live events from the server's own broadcaster. That broadcaster is fed by a relay: one
subscription that the server makes at its store when it is created. A subscriber of `provider/remotestore`
is a `recordsubscriber` that reads through the server and gets live events from the remote store's own
broadcaster, which is fed by a listener, which is fed by a live subscription of the server, which is fed by
the server's relay.

So live events pass a chain of *hops* before they reach the broadcaster of the subscriber:

* API client: store's broadcaster → relay → server's broadcaster → subscriber.
* remote store: store's broadcaster → relay → server's broadcaster → live subscription → connection →
  listener → remote store's broadcaster → subscriber.

The subscriber itself, the store and the broadcaster next to the subscriber are those of
`Model/Subscription`; this file puts the chain between the savers and that broadcaster. Simplifications:
buffers are unbounded and a full buffer is a choice of the schedule (`cut`), as in `Model/Subscription`;
translation of records to and from protobuf and JSON is left out (C63 and C66 treat it).
-/

namespace RangeDB.Chain

/-- The life of a hop: not yet registered at the broadcaster before it, registered, or stopped for good
(nothing in the code starts it again). -/
inductive HopSt where
  | starting
  | up
  | down
deriving DecidableEq, Repr

/-- One hop. -/
structure Hop where
  /-- it is a `recordSubscriber`, which skips records numbered at most `last`
  (record_subscriber.go:104, 117-119); a listener (remote_store.go:359-368) does not -/
  filters : Bool
  st : HopSt
  /-- `bufferedRecords` of the broadcaster before the hop (broadcaster.go:42), or the connection -/
  queue : List Record
  /-- `bufferedRecords` of the hop (record_subscriber.go:23), or `resultRecords` (remote_store.go:306) -/
  buf : List Record
  /-- `lastGlobalSequenceNumber` (record_subscriber.go:30); 0 after `Start` -/
  last : Nat
deriving DecidableEq, Repr

/-- What a hop can do. -/
inductive HopOp where
  /-- `subscribe` reaches the broadcaster (record_subscriber.go:85) -/
  | register
  /-- The broadcaster before the hop takes its next record and sends it to the hop
  (broadcaster.go:119-120, 129-149). With `cut` the send times out and the hop is stopped
  (broadcaster.go:132-134); for a listener: `Recv` fails or the record cannot be decoded, and reading ends
  (remote_store.go:312-338). -/
  | take (cut : Bool)
  /-- The hop handles its next record: hands it to the next broadcaster, unless it was already sent
  (record_subscriber.go:103-112, whose consumers are the server's broadcaster, websocket_api.go:91-94 and
  server.go:67-73, or `Send`, server.go:275-277; remote_store.go:361-366). -/
  | work
  /-- The goroutine of the hop ends: it saw that it was stopped (record_subscriber.go:93-101), its consumer
  failed (lines 109-112). What is in its buffer is lost. (For a listener this is more than can happen: its
  reader ends only as `take true` says.) -/
  | die
deriving DecidableEq, Repr

/-- One action of one hop; the record it hands on, if any. -/
def act (op : HopOp) (h : Hop) : Option (Hop × Option Record) :=
  match op with
  | .register => if h.st = .starting then some ({ h with st := .up }, none) else none
  | .take cut =>
    match h.queue with
    | [] => none
    | r :: q =>
      if h.st = .up then
        if cut then some ({ h with queue := q, st := .down }, none)
        else some ({ h with queue := q, buf := h.buf ++ [r] }, none)
      else if cut then none
      else some ({ h with queue := q }, none)
  | .work =>
    match h.buf with
    | [] => none
    | r :: b =>
      if h.filters then
        if r.gsn ≤ h.last then some ({ h with buf := b }, none)
        else some ({ h with buf := b, last := r.gsn }, some r)
      else some ({ h with buf := b }, some r)
  | .die => some ({ h with st := .down, buf := [] }, none)

/-- A record enters the broadcaster before the first hop of a chain (`Accept`, broadcaster.go:68-70), or
leaves the chain. -/
def feed (r : Record) : List Hop → List Hop × List Record
  | [] => ([], [r])
  | h :: hs => ({ h with queue := h.queue ++ [r] } :: hs, [])

/-- An action of hop `k`; also what leaves the chain. -/
def hopStep (op : HopOp) : Nat → List Hop → Option (List Hop × List Record)
  | _, [] => none
  | 0, h :: hs =>
    match act op h with
    | none => none
    | some (h', none) => some (h' :: hs, [])
    | some (h', some r) => some (h' :: (feed r hs).1, (feed r hs).2)
  | k + 1, h :: hs =>
    match hopStep op k hs with
    | none => none
    | some (hs', o) => some (h :: hs', o)

/-- The system: the chain, the subscriber with its broadcaster and the store, and whether the client has
gone. -/
structure State where
  hops : List Hop
  sub : Sub.State
  gone : Bool

/-- Scheduling choices: those of `Model/Subscription`, and the actions of the hops. -/
inductive Label where
  | base (l : Sub.Label)
  | hop (k : Nat) (op : HopOp)

/-- The client went away or a message could not be sent to it. -/
def leaves : Sub.Label → Bool
  | .cancel => true
  | .fail => true
  | _ => false

/-- One step. A saver's `Accept` (inmemory_store.go:291, leveldb_store.go:266) feeds the first hop instead of the
subscriber's broadcaster; everything else the subscriber and the savers do is `Sub.step`. -/
def step (z : Serializer) (p : Sub.Params) (c : State) : Label → Option State
  | .base (.accept i) =>
    match c.sub.savers[i]? with
    | some (r :: rest) =>
      some { c with hops := (feed r c.hops).1,
                    sub := { c.sub with queue := c.sub.queue ++ (feed r c.hops).2,
                                        savers := if rest = [] then c.sub.savers.eraseIdx i
                                                  else c.sub.savers.set i rest } }
    | _ => none
  | .base l =>
    match Sub.step z p c.sub l with
    | none => none
    | some s => some { c with sub := s, gone := c.gone || leaves l }
  | .hop k op =>
    match hopStep op k c.hops with
    | none => none
    | some (hs, o) => some { c with hops := hs, sub := { c.sub with queue := c.sub.queue ++ o } }

/-- A schedule. -/
def exec (z : Serializer) (p : Sub.Params) : State → List Label → Option State
  | c, [] => some c
  | c, l :: ls =>
    match step z p c l with
    | none => none
    | some c' => exec z p c' ls

/-- A server's relay after `New` returned: `initBroadcaster` has called `Start` (websocket_api.go:89-96,
server.go:67-74), which waits until the broadcaster has taken the subscription. -/
def relay : Hop := ⟨true, .up, [], [], 0⟩

/-- The live subscription of a remote store at the server (server.go:270-288; `Start` is line 280). `New` of the remote store
returns when the request has been sent (remote_store.go:349-357), before the server has handled it. -/
def liveSub : Hop := ⟨true, .starting, [], [], 0⟩

/-- The remote store's listener (remote_store.go:359-368). -/
def listener : Hop := ⟨false, .up, [], [], 0⟩

/-- A client of an API of a server whose store holds `L`. -/
def initApi (p : Sub.Params) (L : Log) : State := ⟨[relay], Sub.init p L, false⟩

/-- A subscriber of a remote store just after its `New`. -/
def initRemote (p : Sub.Params) (L : Log) : State := ⟨[relay, liveSub, listener], Sub.init p L, false⟩

/-- The two APIs. -/
inductive Api where
  | webSocket
  | grpc
deriving DecidableEq, Repr

/-- The client's connection is open. The WebSocket API closes it when the subscriber unsubscribes
(websocket_api.go:129-132, 183-186); a gRPC handler waits for the client to go
(server.go:285, 306, 328). -/
def connected : Api → State → Prop
  | .webSocket, c => c.gone = false ∧ c.sub.pc ≠ .finished
  | .grpc, c => c.gone = false

end RangeDB.Chain

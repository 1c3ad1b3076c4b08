/-!
# Model: how a gRPC subscription lives (pkg/grpc/rangedbserver/server.go:270-331)

The handler's goroutine, the subscriber's goroutine (pkg/recordsubscriber/record_subscriber.go), the broadcaster
(pkg/broadcast/broadcaster.go) and the client of one call of `SubscribeToLiveEvents`, `SubscribeToEvents` or
`SubscribeToEventsByAggregateType`. In which order events are sent is the subject of `Model/Subscription.lean` and
`Model/Chain.lean`; here events are counted only. Of gRPC, which is not in /repo: the context of a stream is done when, and only when, the client has ended the
call, is lost, or the gRPC server is stopped (all three are "the client leaves"); `Send` waits while the client does not
read, fails once the client has left, and fails for a record that cannot be encoded. A subscription to several types is made
and withdrawn in one step.
-/

namespace RangeDB.Grpc

/-- Where the handler's goroutine is. -/
inductive Handler where
  /-- `SubscribeToLiveEvents`: about to call `Start` (server.go:280, record_subscriber.go:77-88) -/
  | start
  /-- `StartFrom` sends the stored events, the number given is left (record_subscriber.go:57-62, 125-139) -/
  | history (left : Nat)
  /-- about to register with the broadcaster (record_subscriber.go:64) -/
  | subscribe
  /-- `StartFrom` sends the events saved meanwhile (record_subscriber.go:66) -/
  | catchUp (left : Nat)
  /-- sending has failed in `catchUp`: about to withdraw (record_subscriber.go:68) -/
  | withdraw
  /-- at `<-stream.Context().Done()` (server.go:285, 306, 328) -/
  | waiting
  /-- returned: the call has ended, the client gets its status -/
  | returned
deriving DecidableEq, Repr

/-- Where the subscriber's goroutine (`work`, record_subscriber.go:90-115) is. -/
inductive Worker where
  | none
  /-- at its `select` -/
  | idle
  /-- in `Send` (server.go:350) -/
  | sending
  /-- about to withdraw from the broadcaster (record_subscriber.go:94, 99, 110) -/
  | leaving
  | ended
deriving DecidableEq, Repr

/-- A call. `stalled`: the client does not read; `cancelled`: the subscriber's own context is done (it also counts as done when
the stream's is); `registered`: the broadcaster sends to the subscriber; `stopped`: the broadcaster has returned; `buf`: records
in the subscriber's channel; `lost`: events of the subscription that will never be sent although the handler had come to wait,
or that could not be. -/
structure Session where
  clientHere : Bool
  stalled : Bool
  cancelled : Bool
  handler : Handler
  worker : Worker
  registered : Bool
  stopped : Bool
  buf : Nat
  lost : Nat
deriving DecidableEq, Repr

/-- A new call of `SubscribeToEvents` or `SubscribeToEventsByAggregateType` for which `n` stored events are to be sent. -/
def opened (n : Nat) : Session := ⟨true, false, false, .history n, .none, false, false, 0, 0⟩

/-- A new call of `SubscribeToLiveEvents`. -/
def openedLive : Session := ⟨true, false, false, .start, .none, false, false, 0, 0⟩

inductive Label where
  /-- the stream's context is done -/
  | clientLeaves
  /-- the client stops reading; later it reads again -/
  | clientStalls
  | clientReads
  /-- an event of the subscription comes to the broadcaster (broadcaster.go:119-120, 129-149) or, after `Stop`, to nobody -/
  | event
  /-- an event comes while the subscriber's channel is full for too long (broadcaster.go:132-134, 142-144); a subscriber of
  several types stays registered for the others -/
  | timeout (others : Bool)
  /-- `Stop` (server.go:76-80, broadcaster.go:122-124, 151-165) -/
  | stop
  /-- the handler: `Send` succeeds, fails because the client has left, fails because the record cannot be encoded -/
  | hSend
  | hFail
  | hBad
  /-- the handler goes on to the next part of `Start` or `StartFrom`; `n` events were saved meanwhile -/
  | hNext (n : Nat)
  /-- the handler withdraws -/
  | hWithdraw
  /-- the handler returns -/
  | hDone
  /-- the subscriber's goroutine: takes a record, finds that it was sent already, `Send` succeeds, fails because the client has
  left, fails because the record cannot be encoded; it sees that its context is done; it withdraws -/
  | wTake
  | wSkip
  | wSend
  | wFail
  | wBad
  | wQuit
  | wLeave
deriving DecidableEq, Repr

/-- The size of a subscriber's channel (server.go:21). -/
def bufSize : Nat := 20

/-- `Send` can succeed. -/
def Session.takes (s : Session) : Bool := s.clientHere && !s.stalled

/-- One step. -/
def step (s : Session) : Label → Option Session
  | .clientLeaves => some { s with clientHere := false }
  | .clientStalls => some { s with stalled := true }
  | .clientReads => some { s with stalled := false }
  | .event =>
    if s.registered && !s.stopped then
      if s.buf < bufSize then some { s with buf := s.buf + 1 } else none
    else if s.handler = .waiting then some { s with lost := s.lost + 1 }
    else some s
  | .timeout others =>
    if s.registered && !s.stopped && decide (s.buf = bufSize) then
      some { s with registered := others, cancelled := true, lost := s.lost + 1 }
    else none
  | .stop => if s.stopped then none else some { s with stopped := true, cancelled := s.cancelled || s.registered }
  | .hSend =>
    match s.handler with
    | .history (n + 1) => if s.takes then some { s with handler := .history n } else none
    | .catchUp (n + 1) => if s.takes then some { s with handler := .catchUp n } else none
    | _ => none
  | .hFail =>
    match s.handler with
    | .history (_ + 1) => if s.clientHere then none else some { s with handler := .returned }
    | .catchUp (_ + 1) => if s.clientHere then none else some { s with handler := .withdraw }
    | _ => none
  | .hBad =>
    match s.handler with
    | .history (_ + 1) => some { s with handler := .returned }
    | .catchUp (_ + 1) => some { s with handler := .withdraw }
    | _ => none
  | .hNext n =>
    match s.handler with
    | .start =>
      if s.clientHere then
        if s.stopped then none else some { s with handler := .waiting, worker := .idle, registered := true }
      else some { s with handler := .returned }
    | .history 0 => some { s with handler := .subscribe }
    | .subscribe => if s.stopped then none else some { s with handler := .catchUp n, registered := true }
    | .catchUp 0 => some { s with handler := .waiting, worker := .idle }
    | _ => none
  | .hWithdraw =>
    match s.handler with
    | .withdraw => if s.stopped then none else some { s with registered := false, handler := .returned }
    | _ => none
  | .hDone =>
    match s.handler with
    | .waiting => if s.clientHere then none else some { s with handler := .returned }
    | _ => none
  | .wTake =>
    match s.worker with
    | .idle => if 0 < s.buf then some { s with buf := s.buf - 1, worker := .sending } else none
    | _ => none
  | .wSkip =>
    match s.worker with
    | .idle => if 0 < s.buf then some { s with buf := s.buf - 1 } else none
    | _ => none
  | .wSend =>
    match s.worker with
    | .sending => if s.takes then some { s with worker := .idle } else none
    | _ => none
  | .wFail =>
    match s.worker with
    | .sending => if s.clientHere then none else some { s with worker := .leaving, lost := s.lost + 1 }
    | _ => none
  | .wBad =>
    match s.worker with
    | .sending => some { s with worker := .leaving, lost := s.lost + 1 }
    | _ => none
  | .wQuit =>
    match s.worker with
    | .idle => if s.cancelled || !s.clientHere then some { s with worker := .leaving } else none
    | _ => none
  | .wLeave =>
    match s.worker with
    | .leaving =>
      if s.stopped then none else some { s with worker := .ended, registered := false, lost := s.lost + s.buf, buf := 0 }
    | _ => none

def exec (s : Session) : List Label → Option Session
  | [] => some s
  | l :: ls =>
    match step s l with
    | some s' => exec s' ls
    | none => none

end RangeDB.Grpc

import Verif.Model.Http
import Verif.Model.Paging

/-!
# Model: the WebSocket API (pkg/rangedbws/websocket_api.go) and its command (cmd/ws-event-subscriber/main.go)

What a request asks for, and how a session lives: the handler's goroutine, the subscriber's goroutine
(pkg/recordsubscriber/record_subscriber.go), the broadcaster and the client. Which records are written, and that none is
missed, is the subject of `Model/Subscription.lean` and `Model/Chain.lean`; here a session counts them only. Not modelled: a record that cannot be marshalled and an error of the store during
`StartFrom`, which end the session like a failed write; a subscription to several types is made and withdrawn in one step.
-/

namespace RangeDB.Ws

/-! ## Requests -/

/-- What a request to the WebSocket API leads to. -/
inductive Reply where
  /-- no route matches: 404 (for a path that ends in `/`, a redirection) -/
  | notFound
  /-- "invalid request": 400 -/
  | badRequest
  /-- all events from the number on (websocket_api.go:107-140) -/
  | all (start : Nat)
  /-- the events of the types from the number on (websocket_api.go:157-194) -/
  | types (start : Nat) (names : List Str)
deriving DecidableEq, Repr

/-- "/events" -/
def tEvents : Str := [47, 101, 118, 101, 110, 116, 115]
/-- "global-sequence-number" -/
def kStart : Str := [103, 108, 111, 98, 97, 108, 45, 115, 101, 113, 117, 101, 110, 99, 101, 45, 110, 117, 109, 98, 101, 114]

/-- `globalSequenceNumberFromRequest` (websocket_api.go:142-154). -/
def startFromRequest (query : Str) : Option Nat :=
  let t := Pg.queryGet query kStart
  if t = [] then some 0 else Dec.parseUint t

/-- `initRoutes` (websocket_api.go:82-87) and the head of the two handlers (107-113, 156-165), for a request whose decoded path
is `path` and that can be upgraded. -/
def request (path query : Str) : Reply :=
  if path = tEvents then
    match startFromRequest query with
    | none => .badRequest
    | some n => .all n
  else if path.take 8 = tEvents ++ [47] then
    match Http.typesOfPath (path.drop 8) with
    | none => .notFound
    | some names =>
      match startFromRequest query with
      | none => .badRequest
      | some n => .types n names
  else .notFound

/-- The path that the command asks for below `/ws` (main.go:30-38), given the value of its flag. -/
def commandPath (csv : Str) : Str := if csv ≠ [] then tEvents ++ ([47] ++ csv) else tEvents

/-! ## Sessions -/

/-- Where the handler's goroutine is. -/
inductive Handler where
  /-- `StartFrom` writes the stored events, the number given is left (record_subscriber.go:57-62, 125-139) -/
  | history (left : Nat)
  /-- about to register with the broadcaster (record_subscriber.go:64) -/
  | subscribe
  /-- `StartFrom` writes the events saved meanwhile (record_subscriber.go:66) -/
  | catchUp (left : Nat)
  /-- a write of `catchUp` has failed: about to withdraw (record_subscriber.go:68) -/
  | withdraw
  /-- in `ReadMessage` (websocket_api.go:139, 193) -/
  | reading
  | returned
deriving DecidableEq, Repr

/-- Where the subscriber's goroutine (`work`, record_subscriber.go:90-115) is. -/
inductive Worker where
  | none
  /-- at its `select` -/
  | idle
  /-- in `WriteMessage` (websocket_api.go:196-226) -/
  | writing
  /-- about to withdraw from the broadcaster and to close the connection (websocket_api.go:129-132, 183-186) -/
  | leaving
  | ended
deriving DecidableEq, Repr

/-- A session. `stalled`: the client does not read, so that writes to it wait (no write deadline is set); `inbox`: messages of
the client that nobody has read; `connOpen`: the server has not closed the connection; `cancelled`: the subscriber's context
is done; `registered`: the broadcaster sends to the subscriber; `stopped`: the broadcaster has returned; `buf`: records in the
subscriber's channel. -/
structure Session where
  clientHere : Bool
  stalled : Bool
  inbox : Nat
  connOpen : Bool
  cancelled : Bool
  handler : Handler
  worker : Worker
  registered : Bool
  stopped : Bool
  buf : Nat
deriving DecidableEq, Repr

/-- A session whose connection was just upgraded; `n` stored events are to be written first. -/
def opened (n : Nat) : Session := ⟨true, false, 0, true, false, .history n, .none, false, false, 0⟩

inductive Label where
  /-- the client sends a message (a ping or pong is none) -/
  | clientSends
  /-- the client closes the connection or is lost -/
  | clientLeaves
  /-- the client stops reading; later it reads again -/
  | clientStalls
  | clientReads
  /-- the broadcaster hands a record over (broadcaster.go:136, 146) -/
  | deliver
  /-- the subscriber's channel was full for too long (broadcaster.go:132-134, 142-144); a subscriber of several types stays
  registered for the others -/
  | timeout (others : Bool)
  /-- `Stop` of the API (websocket_api.go:98-101, broadcaster.go:122-124, 151-165) -/
  | stop
  /-- the handler: a write of `StartFrom` succeeds, or fails -/
  | hWrite
  | hFail
  /-- the handler goes on to the next part of `StartFrom`; `n` events were saved meanwhile -/
  | hNext (n : Nat)
  /-- the handler withdraws -/
  | hWithdraw
  /-- `ReadMessage` returns; so does the handler, which closes the connection; net/http then cancels the request's context -/
  | hRead
  /-- the subscriber's goroutine: takes a record, finds that it was sent already, a write succeeds, a write fails, it sees that
  its context is done, it withdraws -/
  | wTake
  | wSkip
  | wWrite
  | wFail
  | wQuit
  | wLeave
deriving DecidableEq, Repr

/-- The size of a subscriber's channel (websocket_api.go:25). -/
def bufSize : Nat := 20

/-- A write to the connection can succeed: to a client that has gone it may, because the operating system buffers. -/
def Session.takes (s : Session) : Bool := s.connOpen && (!s.stalled || !s.clientHere)

/-- A write to the connection can fail. -/
def Session.refuses (s : Session) : Bool := !s.connOpen || !s.clientHere

/-- The handler returns (`defer ignoreClose(conn)`, websocket_api.go:119, 172). -/
def Session.ret (s : Session) : Session := { s with handler := .returned, connOpen := false, cancelled := true }

/-- One step. -/
def step (s : Session) : Label → Option Session
  | .clientSends => if s.clientHere then some { s with inbox := s.inbox + 1 } else none
  | .clientLeaves => some { s with clientHere := false }
  | .clientStalls => some { s with stalled := true }
  | .clientReads => some { s with stalled := false }
  | .deliver => if s.registered && !s.stopped && decide (s.buf < bufSize) then some { s with buf := s.buf + 1 } else none
  | .timeout others =>
    if s.registered && !s.stopped && decide (s.buf = bufSize) then some { s with registered := others, cancelled := true } else none
  | .stop => if s.stopped then none else some { s with stopped := true, cancelled := s.cancelled || s.registered }
  | .hWrite =>
    match s.handler with
    | .history (n + 1) => if s.takes then some { s with handler := .history n } else none
    | .catchUp (n + 1) => if s.takes then some { s with handler := .catchUp n } else none
    | _ => none
  | .hFail =>
    match s.handler with
    | .history (_ + 1) => if s.refuses then some s.ret else none
    | .catchUp (_ + 1) => if s.refuses then some { s with handler := .withdraw } else none
    | _ => none
  | .hNext n =>
    match s.handler with
    | .history 0 => some { s with handler := .subscribe }
    | .subscribe => if s.stopped then none else some { s with handler := .catchUp n, registered := true }
    | .catchUp 0 => some { s with handler := .reading, worker := .idle }
    | _ => none
  | .hWithdraw =>
    match s.handler with
    | .withdraw => if s.stopped then none else some { s with registered := false }.ret
    | _ => none
  | .hRead =>
    match s.handler with
    | .reading =>
      if 0 < s.inbox then some { s with inbox := s.inbox - 1 }.ret
      else if s.refuses then some s.ret
      else none
    | _ => none
  | .wTake =>
    match s.worker with
    | .idle => if 0 < s.buf then some { s with buf := s.buf - 1, worker := .writing } else none
    | _ => none
  | .wSkip => match s.worker with
    | .idle => if 0 < s.buf then some { s with buf := s.buf - 1 } else none
    | _ => none
  | .wWrite =>
    match s.worker with
    | .writing => if s.takes then some { s with worker := .idle } else none
    | _ => none
  | .wFail =>
    match s.worker with
    | .writing => if s.refuses then some { s with worker := .leaving } else none
    | _ => none
  | .wQuit =>
    match s.worker with
    | .idle => if s.cancelled then some { s with worker := .leaving } else none
    | _ => none
  | .wLeave =>
    match s.worker with
    | .leaving => if s.stopped then none else some { s with worker := .ended, registered := false, connOpen := false }
    | _ => none

def exec (s : Session) : List Label → Option Session
  | [] => some s
  | l :: ls =>
    match step s l with
    | some s' => exec s' ls
    | none => none

end RangeDB.Ws

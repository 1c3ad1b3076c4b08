import Verif.Base.Types
import Verif.Spec.EventLog

/-!
# Model of provider/eventstore/eventstore.go and of the EventStoreDB server behind it

The server is modelled from the EventStoreDB documentation: a log of events in commit order; streams
numbered from 0; an append may demand a revision; a tombstoned stream refuses every later append and read,
but its events stay in the log of all events until the server is scavenged by an operator. De-duplication
of appends with the same event ID is not modelled (the adapter draws a fresh ID per event).

How an event and its metadata are encoded is a parameter (`Codec`); the JSON texts that the code uses are in
`Model/EsdbJson`.
-/

namespace RangeDB.EDB

/-- How an event travels: `json.Marshal` of `ESDBMetadata` and of the event (eventstore.go:646-676) and
back (`recordFromLinkedEvent`, lines 758-794). `none` is an error. -/
structure Codec where
  /-- the bytes of the metadata and of the data -/
  enc : (streamName : Str) → EventRecord → Option (Str × Str)
  dec : Str × Str → Option (Str × EventRecord)
  /-- how an event looks after the round trip -/
  view : EventRecord → EventRecord

/-- What is assumed of the codec: what was encoded decodes; the names survive. -/
structure Codec.Lawful (C : Codec) : Prop where
  roundTrip : ∀ n er b, C.enc n er = some b → C.dec b = some (n, C.view er)
  aggType : ∀ er, (C.view er).event.aggType = er.event.aggType

/-- An event in the server's log. -/
structure Stored where
  streamId : Str
  /-- `EventNumber`: the revision in its stream, from 0 -/
  number : Nat
  /-- `Commit`: the position in the log -/
  commit : Nat
  eventType : Str
  /-- `UserMetadata` and `Data` -/
  payload : Str × Str
deriving DecidableEq, Repr

/-- The server. -/
structure Server where
  /-- all events ever appended, in log order -/
  log : List Stored
  tombstoned : List Str
deriving DecidableEq, Repr

/-- An empty server. -/
def Server.init : Server := ⟨[], []⟩

/-- The events of a stream, as long as it is not tombstoned. -/
def Server.stream (s : Server) (id : Str) : List Stored := s.log.filter (fun e => e.streamId = id)

/-- Errors of the client library. -/
inductive EsErr where
  | streamNotFound
  | streamDeleted
  | wrongRevision
deriving DecidableEq, Repr

/-- The events as they are written: numbered from `n` on, at the log positions `commits`. -/
def number (id : Str) : (n : Nat) → List (Str × Str × Str) → (commits : Nat → Nat) → List Stored
  | _, [], _ => []
  | n, (ty, payload) :: es, commits =>
    ⟨id, n, commits 0, ty, payload⟩ :: number id (n + 1) es (fun i => commits (i + 1))

/-- `AppendToStream`. `expected = none` is `Any` (a nil `ExpectedRevision`), `some r` demands that `r` is
the number of the stream's last event. The result is `NextExpectedVersion`, the number of the last event
written. -/
def Server.append (s : Server) (id : Str) (expected : Option Nat) (es : List (Str × Str × Str))
    (commits : Nat → Nat) : Except EsErr (Server × Nat) :=
  if id ∈ s.tombstoned then .error .streamDeleted
  else match expected with
    | some r =>
      if (s.stream id).length = r + 1 then
        .ok ({ s with log := s.log ++ number id (r + 1) es commits }, r + es.length)
      else .error .wrongRevision
    | none =>
      .ok ({ s with log := s.log ++ number id (s.stream id).length es commits },
        (s.stream id).length + es.length - 1)

/-- `TombstoneStream` with a revision. -/
def Server.tombstone (s : Server) (id : Str) (r : Nat) : Except EsErr Server :=
  if id ∈ s.tombstoned then .error .streamDeleted
  else if (s.stream id).length = r + 1 then .ok { s with tombstoned := id :: s.tombstoned }
  else .error .wrongRevision

/-- `ReadStream` from a revision to the end. -/
def Server.readStream (s : Server) (id : Str) (r : Nat) : Except EsErr (List Stored) :=
  if id ∈ s.tombstoned then .error .streamDeleted
  else if s.stream id = [] then .error .streamNotFound
  else .ok ((s.stream id).filter (fun e => e.number ≥ r))

/-- `ReadAll` from a log position to the end. -/
def Server.readAll (s : Server) (commit : Nat) : List Stored := s.log.filter (fun e => e.commit ≥ commit)

/-! ## The adapter -/

/-- The configuration of the adapter: the stream prefix (`WithStreamPrefix`, empty if there is none,
eventstore.go:112-116, 173-179), whether `RecordDeletedStreams` was given (lines 120-124), and whether
the server sends a commit position with reads of one stream (server versions differ). -/
structure Config where
  prefix_ : Str
  recordDeletedStreams : Bool
  streamCommits : Bool

/-- `streamName` (eventstore.go:173-179), for a prefixer whose `WithPrefix` puts `GetPrefix` in front. -/
def Config.streamName (c : Config) (name : Str) : Str := c.prefix_ ++ name

/-- `zeroBasedSequenceNumber` (eventstore.go:507-513). -/
def zeroBased (n : Nat) : Nat := if n < 1 then 0 else n - 1

/-- `oneBasedSequenceNumber` (eventstore.go:515-517). -/
def oneBased (n : Nat) : Nat := n + 1

/-- `isInternalESDBEvent` (eventstore.go:711-713): the event type starts with `$` (36). -/
def internal (e : Stored) : Bool := [36].isPrefixOf e.eventType

/-- `inCurrentVersion` (eventstore.go:715-725). -/
def Config.current (c : Config) (e : Stored) : Bool := c.prefix_.isPrefixOf e.streamId

/-- `recordFromLinkedEvent` (eventstore.go:758-794). Where the server sends no commit
position (`withCommit = false`), the global sequence number is 0. -/
def fromLinked (C : Codec) (withCommit : Bool) (e : Stored) : Option Record :=
  match C.dec e.payload with
  | none => none
  | some (name, er) =>
    some (mkRecord name (if withCommit then e.commit else 0) (oneBased e.number) er)

/-- The receive loop of `Events` (eventstore.go:224-287) without cancellation. `deleted` is the adapter's
`deletedStreams` map. -/
def eventsLoop (C : Codec) (c : Config) (deleted : List Str) : List Stored → Iter
  | [] => ⟨[], none⟩
  | e :: es =>
    if internal e then eventsLoop C c deleted es
    else if !c.current e then eventsLoop C c deleted es
    else if c.recordDeletedStreams && decide (e.streamId ∈ deleted) then eventsLoop C c deleted es
    else match fromLinked C true e with
      | none => ⟨[], some .deserialize⟩
      | some r => ⟨r :: (eventsLoop C c deleted es).recs, (eventsLoop C c deleted es).err⟩

/-- `Events` (eventstore.go:185-288). -/
def events (C : Codec) (c : Config) (deleted : List Str) (s : Server) (g : Nat) : Iter :=
  eventsLoop C c deleted (s.readAll g)

/-- The receive loop of `EventsByStream` (eventstore.go:428-501) without cancellation. -/
def streamLoop (C : Codec) (c : Config) (n : Nat) (name : Str) : List Stored → Iter
  | [] => ⟨[], none⟩
  | e :: es =>
    if internal e then streamLoop C c n name es
    else if !c.current e then streamLoop C c n name es
    else match fromLinked C c.streamCommits e with
      | none => ⟨[], some .deserialize⟩
      | some r =>
        if r.streamName ≠ name then streamLoop C c n name es
        else if r.seq < n then streamLoop C c n name es
        else ⟨r :: (streamLoop C c n name es).recs, (streamLoop C c n name es).err⟩

/-- The receive loop of `EventsByAggregateTypes` (eventstore.go:323-381) without cancellation. -/
def typesLoop (C : Codec) (c : Config) (deleted : List Str) (g : Nat) (types : List Str) :
    List Stored → Iter
  | [] => ⟨[], none⟩
  | e :: es =>
    if internal e then typesLoop C c deleted g types es
    else if !c.current e then typesLoop C c deleted g types es
    else if c.recordDeletedStreams && decide (e.streamId ∈ deleted) then typesLoop C c deleted g types es
    else match fromLinked C true e with
      | none => ⟨[], some .deserialize⟩
      | some r =>
        if r.aggType ∉ types then typesLoop C c deleted g types es
        else if r.gsn < g then typesLoop C c deleted g types es
        else ⟨r :: (typesLoop C c deleted g types es).recs, (typesLoop C c deleted g types es).err⟩

/-- `EventsByAggregateTypes` (eventstore.go:290-385). -/
def eventsByTypes (C : Codec) (c : Config) (deleted : List Str) (s : Server) (g : Nat)
    (types : List Str) : Iter :=
  typesLoop C c deleted g types (s.readAll g)

/-- `EventsByStream` (eventstore.go:387-505). At the end of the stream, nothing sent means not found. -/
def eventsByStream (C : Codec) (c : Config) (s : Server) (n : Nat) (name : Str) : Iter :=
  match s.readStream (c.streamName name) (zeroBased n) with
  | .error _ => ⟨[], some .notFound⟩
  | .ok es =>
    let r := streamLoop C c n name es
    if r.recs = [] ∧ r.err = none then ⟨[], some .notFound⟩ else r

/-- `getStreamSequenceNumber` (eventstore.go:739-756): the number of the last record read, or an error. -/
def getStreamSequenceNumber (C : Codec) (c : Config) (s : Server) (name : Str) : Except Err Nat :=
  match (eventsByStream C c s 0 name).err with
  | some e => .error e
  | none => .ok (((eventsByStream C c s 0 name).recs.getLast?.map (·.seq)).getD 0)

/-- `TotalEventsInStream` (eventstore.go:595-612): errors of the iterator are not looked at. -/
def totalEventsInStream (C : Codec) (c : Config) (s : Server) (name : Str) : Nat :=
  (eventsByStream C c s 0 name).recs.length

/-- The check of `saveEvents` (eventstore.go:622-630), made on the server state `s`. `readFails` means that
this read failed for another reason (connection, cancellation): the error is ignored and the number is 0. -/
def checkExpected (C : Codec) (c : Config) (s : Server) (readFails : Bool) (expected : Option Nat)
    (name : Str) : Option Err :=
  match expected with
  | none => none
  | some k =>
    let actual := if readFails then 0 else match getStreamSequenceNumber C c s name with
      | .error _ => 0
      | .ok n => n
    if k ≠ actual then some (.unexpected k actual) else none

/-- The loop that builds the proposed events (eventstore.go:632-684). -/
def propose (C : Codec) (name : Str) : (aggType aggId : Str) → List EventRecord →
    Except Err (List (Str × Str × Str))
  | _, _, [] => .ok []
  | t, i, er :: ers =>
    if t ≠ [] ∧ t ≠ er.event.aggType then .error .unmatchedType
    else if i ≠ [] ∧ i ≠ er.event.aggId then .error .unmatchedId
    else match C.enc name er with
      | none => .error .serialize
      | some b =>
        match propose C name er.event.aggType er.event.aggId ers with
        | .error e => .error e
        | .ok es => .ok ((er.event.evType, b) :: es)

/-- What happens to the append request on its way. -/
inductive Net where
  | ok
  /-- it never reaches the server -/
  | lostRequest
  /-- the server executes it, the reply is lost -/
  | lostReply

/-- The demanded revision (eventstore.go:686-689): nil (any) if there is no expected number or if it is 0. -/
def revision : (expected : Option Nat) → Option Nat
  | some k => if k > 0 then some (zeroBased k) else none
  | none => none

/-- What the append comes to (eventstore.go:694-708): the server's state and the result of the call, given
what happened on the network and what the server does with the request. Without an expected number, a wrong
revision would dereference a nil pointer. -/
def deliver (s : Server) (expected : Option Nat) : Net → Except EsErr (Server × Nat) → Server × Outcome Nat
  | .lostRequest, _ => (s, .err .db)
  | .lostReply, .ok (s', _) => (s', .err .db)
  | .lostReply, .error _ => (s, .err .db)
  | .ok, .ok (s', next) => (s', .ok (oneBased next))
  | .ok, .error .wrongRevision =>
    match expected with
    | some k => (s, .err (.unexpected k 0))
    | none => (s, .panic)
  | .ok, .error .streamDeleted => (s, .err .db)
  | .ok, .error .streamNotFound => (s, .err .db)

/-- The append of `saveEvents` (eventstore.go:686-708), made on the server state `s`. -/
def appendEvents (c : Config) (s : Server) (net : Net) (expected : Option Nat) (name : Str)
    (es : List (Str × Str × Str)) (commits : Nat → Nat) : Server × Outcome Nat :=
  deliver s expected net (s.append (c.streamName name) (revision expected) es commits)

/-- `saveEvents` (eventstore.go:614-709). The check is made on the server state `s`; other clients change
the server to `between s` before the append arrives. -/
def saveEvents (C : Codec) (c : Config) (s : Server) (readFails : Bool) (between : Server → Server)
    (net : Net) (expected : Option Nat) (name : Str) (ers : List EventRecord) (commits : Nat → Nat) :
    Server × Outcome Nat :=
  match ers with
  | [] => (between s, .err .missingEvents)
  | er :: rest =>
    match checkExpected C c s readFails expected name with
    | some e => (between s, .err e)
    | none =>
      match propose C name er.event.aggType er.event.aggId (er :: rest) with
      | .error e => (between s, .err e)
      | .ok es => appendEvents c (between s) net expected name es commits

/-- `OptimisticDeleteStream` (eventstore.go:519-564): the server, the adapter's `deletedStreams` and the
result. -/
def deleteStream (C : Codec) (c : Config) (s : Server) (deleted : List Str) (expected : Nat) (name : Str) :
    Server × List Str × Option Err :=
  match s.tombstone (c.streamName name) (zeroBased expected) with
  | .ok s' => (s', if c.recordDeletedStreams then c.streamName name :: deleted else deleted, none)
  | .error .wrongRevision =>
    match getStreamSequenceNumber C c s name with
    | .error e => (s, deleted, some e)
    | .ok n => (s, deleted, some (.unexpected expected n))
  | .error _ => (s, deleted, some .notFound)

/-- `startSubscription` (eventstore.go:796-863): the records handed to the broadcaster when the server's
log is `log`. It starts at the beginning of the log (`esdb.Start{}`) and returns for good at the first
event that cannot be decoded (lines 849-853). -/
def broadcasts (C : Codec) (c : Config) : List Stored → List Record
  | [] => []
  | e :: es =>
    if internal e then broadcasts C c es
    else if !c.current e then broadcasts C c es
    else match fromLinked C true e with
      | none => []
      | some r => r :: broadcasts C c es

/-! ## Histories -/

/-- One thing that happens: a call of an adapter (all adapters share the server and the configuration;
`a` numbers them) or the restart of an adapter (its `deletedStreams` is lost). The check and the append of
an overlapping save are two operations: `append` alone is a save whose check was passed earlier. -/
inductive EOp where
  | save (expected : Option Nat) (readFails : Bool) (net : Net) (name : Str) (ers : List EventRecord)
      (commits : Nat → Nat)
  | append (expected : Option Nat) (net : Net) (name : Str) (er : EventRecord) (ers : List EventRecord)
      (commits : Nat → Nat)
  | delete (a : Nat) (expected : Nat) (name : Str)
  | restart (a : Nat)

/-- The server and what each adapter remembers of deleted streams. -/
structure World where
  server : Server
  deleted : Nat → List Str

/-- The start. -/
def World.init : World := ⟨.init, fun _ => []⟩

/-- One operation. -/
def World.step (C : Codec) (c : Config) (w : World) : EOp → World
  | .save expected readFails net name ers commits =>
    { w with server := (saveEvents C c w.server readFails id net expected name ers commits).1 }
  | .append expected net name er ers commits =>
    match propose C name er.event.aggType er.event.aggId (er :: ers) with
    | .error _ => w
    | .ok es => { w with server := (appendEvents c w.server net expected name es commits).1 }
  | .delete a expected name =>
    let r := deleteStream C c w.server (w.deleted a) expected name
    ⟨r.1, fun b => if b = a then r.2.1 else w.deleted b⟩
  | .restart a => { w with deleted := fun b => if b = a then [] else w.deleted b }

/-- A history. -/
def World.run (C : Codec) (c : Config) (ops : List EOp) : World := ops.foldl (World.step C c) .init

end RangeDB.EDB

import Verif.Model.Chat

/-!
# Model: the chat application with its two subscribers

`examples/chat/chat.go`, `restricted_word_processor.go` and `warned_users_projection.go` as goroutines: users and
other programs save events, the projection counts warnings, the processor answers messages by commands. A
schedule is any list of labels.

Simplifications. Each of the two subscriptions hands over every event of the log once and in order (C19 and C53
say when this is so). A dispatched command's events are saved (C81, C82 say when). Streams are not deleted.
-/

namespace RangeDB.Mod

open Chat

/-- The state. -/
structure State where
  /-- the events in the store, oldest first -/
  log : List Ev
  /-- how many events the projection has received -/
  warnAt : Nat
  /-- `userWarnings` (warned_users_projection.go:11) -/
  warnings : Str → Nat
  /-- where the processor is in the log; `none` before its subscription is registered -/
  procAt : Option Nat
  /-- the commands that `Accept` of the processor has yet to dispatch for the event it handles -/
  todo : List Cmd

/-- The projection's map after some events, from the empty one (warned_users_projection.go:15-19, 32-41). -/
def tally (es : List Ev) : Str → Nat := es.foldl count (fun _ => 0)

/-- `New` (chat.go:27-31) up to the return of `StartFrom(0)`: the projection has received everything, the
processor is not yet registered. -/
def start (log : List Ev) : State := ⟨log, log.length, tally log, none, []⟩

/-- The event a command of the processor raises (user_aggregate.go:40-45, room_aggregate.go:74-100). -/
def raised : Cmd → List Ev
  | .warnUser u r => [.userWasWarned u r]
  | .banUserFromRoom r u reason t => [.userWasBannedFromRoom r u reason t]
  | .removeUserFromRoom r u reason => [.userWasRemovedFromRoom r u reason]
  | .sendPrivateMessageToRoom r u m => [.privateMessageWasSentToRoom r u m]
  | _ => []

/-- Scheduling choices. -/
inductive Label where
  /-- somebody else saves an event -/
  | save (e : Ev)
  /-- the processor's subscription is registered (chat.go:34-37): it sees only later events -/
  | register
  /-- the projection receives its next event -/
  | warn
  /-- the processor receives its next event (restricted_word_processor.go:32-63) -/
  | proc
  /-- the processor dispatches its next command -/
  | dispatch
  /-- the program ends and is started again -/
  | restart

/-- One step; `none` if it is not possible. -/
def step (s : State) : Label → Option State
  | .save e => some { s with log := s.log ++ [e] }
  | .register => if s.procAt = none then some { s with procAt := some s.log.length } else none
  | .warn =>
    match s.log[s.warnAt]? with
    | some e => some { s with warnAt := s.warnAt + 1, warnings := count s.warnings e }
    | none => none
  | .proc =>
    match s.procAt, s.todo with
    | some i, [] =>
      match s.log[i]? with
      | some e => some { s with procAt := some (i + 1), todo := accept s.warnings e }
      | none => none
    | _, _ => none
  | .dispatch =>
    match s.todo with
    | c :: cs => some { s with log := s.log ++ raised c, todo := cs }
    | [] => none
  | .restart => some (start s.log)

/-- A schedule. -/
def exec : State → List Label → Option State
  | s, [] => some s
  | s, l :: ls =>
    match step s l with
    | none => none
    | some s' => exec s' ls

end RangeDB.Mod

import Verif.Base.Types

/-!
# Model: the command that fills a store with events (cmd/gen-random-events/main.go)

The goroutine that saves, as a function of what `rand`, `shortuuid` and the server return. Not modelled: the flags' text, the
connection, and a signal that arrives after the channel was closed (which would panic).
-/

namespace RangeDB.Rnd

/-- One round of the loop: what `rand.Intn(maxPerStream)` returns, the new ID, the numbers drawn for the events, and whether
the server saves. -/
structure Draw where
  intn : Nat
  id : Str
  numbers : List Nat
  saved : Bool

/-- How the loop stands after the rounds given. -/
inductive Fate where
  /-- it goes on -/
  | running
  /-- `total` was reached: `close(stop)`, the program ends (main.go:77-80) -/
  | done
  /-- `log.Fatal`: the server refused (main.go:72) or the type is not known (main.go:113) -/
  | fatal
  /-- `rand.Intn` panics for a limit below 1 -/
  | panicked
deriving DecidableEq, Repr

/-- The aggregate types of the three events that can be made (main.go:94-111, rangedbtest/events.go:23, 43, 63). -/
def aggregateOf (eventType : Str) : Option Str :=
  -- "AnotherWasComplete", "ThatWasDone", "ThingWasDone"
  if eventType = [65, 110, 111, 116, 104, 101, 114, 87, 97, 115, 67, 111, 109, 112, 108, 101, 116, 101] then
    some [97, 110, 111, 116, 104, 101, 114]
  else if eventType = [84, 104, 97, 116, 87, 97, 115, 68, 111, 110, 101] then some [116, 104, 97, 116]
  else if eventType = [84, 104, 105, 110, 103, 87, 97, 115, 68, 111, 110, 101] then some [116, 104, 105, 110, 103]
  else none

/-- A `Save` that the server took: the stream and the number of events. -/
structure Batch where
  stream : Str
  size : Nat
deriving DecidableEq, Repr

/-- The loop (main.go:59-82); `total` is a `uint64`. -/
def loop (maxPerStream : Int) (eventType : Str) (wanted : Nat) : (total : Nat) → List Draw → List Batch × Fate
  | _, [] => ([], .running)
  | total, d :: ds =>
    if maxPerStream ≤ 0 then ([], .panicked)
    else
      let n := d.intn + 1
      match aggregateOf eventType with
      | none => ([], .fatal)
      | some t =>
        if d.saved then
          let b : Batch := ⟨getStream t d.id, n⟩
          let total := (total + n) % 2 ^ 64
          if wanted ≤ total then ([b], .done)
          else
            let rest := loop maxPerStream eventType wanted total ds
            (b :: rest.1, rest.2)
        else ([], .fatal)

/-- The program from its start (main.go:57). -/
def program (maxPerStream : Int) (eventType : Str) (wanted : Nat) (ds : List Draw) : List Batch × Fate :=
  loop maxPerStream eventType wanted 0 ds

end RangeDB.Rnd

import Verif.Model.Subscription
import Verif.Model.JsonRecord

/-!
# Model: the aggregate-type statistics, their snapshots and how the HTTP API starts them

`pkg/projection/aggregate_type_stats.go`, `pkg/projection/disk_snapshot_store.go` and `initProjections` of
`pkg/rangedbapi/api.go`; the live counter of `pkg/rangedbui/ui.go`. Counters are naturals (`uint64` in the
code). A snapshot is the JSON text that `encoding/json` makes of the statistics, byte by byte. Each method holds the mutex throughout, so calls are atomic, except that `TotalEvents`
reads without it (aggregate_type_stats.go:62-64); every theorem is about states between calls.
-/

namespace RangeDB.Prj

/-- `aggregateTypeStatusData` (aggregate_type_stats.go:12-16). A Go map is an association list without
repeated keys, in the order of insertion; `none` is the nil map. -/
structure Stats where
  byType : Option (List (Str × Nat))
  latest : Nat
  total : Nat
deriving DecidableEq, Repr

/-- `NewAggregateTypeStats` (25-31). -/
def Stats.new : Stats := ⟨some [], 0, 0⟩

/-- `m[k]++` on a map. -/
def bump (k : Str) : List (Str × Nat) → List (Str × Nat)
  | [] => [(k, 1)]
  | (x, n) :: rest => if x = k then (x, n + 1) :: rest else (x, n) :: bump k rest

/-- `Accept` (34-40). Writing to a nil map panics. -/
def Stats.accept (s : Stats) (r : Record) : Outcome Stats :=
  match s.byType with
  | none => .panic
  | some m => .ok ⟨some (bump r.aggType m), r.gsn, s.total + 1⟩

/-- Accepting several records, one after the other. -/
def Stats.acceptAll (s : Stats) : List Record → Outcome Stats
  | [] => .ok s
  | r :: rs =>
    match s.accept r with
    | .ok s' => s'.acceptAll rs
    | o => o

/-- `TotalEventsByAggregateType` (55-59): zero for a missing key and for a nil map. -/
def Stats.totalByType (s : Stats) (t : Str) : Nat :=
  (((s.byType.getD []).find? (fun p => p.1 = t)).map (·.2)).getD 0

/-- Byte-wise comparison of strings, as Go's `<` does. -/
def strLt : Str → Str → Bool
  | _, [] => false
  | [], _ :: _ => true
  | a :: as, b :: bs => if a < b then true else if b < a then false else strLt as bs

/-- Insertion of a string into a sorted list (`sort.Strings` yields the sorted list; how it does so does
not matter). -/
def insertStr (x : Str) : List Str → List Str
  | [] => [x]
  | y :: ys => if strLt y x then y :: insertStr x ys else x :: y :: ys

/-- `SortedAggregateTypes` (43-52). -/
def Stats.sortedTypes (s : Stats) : List Str := ((s.byType.getD []).map (·.1)).foldr insertStr []

/-! ## Snapshots -/

/-- The names of the fields in JSON (aggregate_type_stats.go:13-15). -/
def kCounts : Str := [116, 111, 116, 97, 108, 69, 118, 101, 110, 116, 115, 66, 121, 65, 103, 103, 114, 101, 103, 97, 116, 101, 84, 121, 112, 101]
def kLatest : Str := [108, 97, 116, 101, 115, 116, 71, 108, 111, 98, 97, 108, 83, 101, 113, 117, 101, 110, 99, 101, 78, 117, 109, 98, 101, 114]
def kTotal : Str := [116, 111, 116, 97, 108, 69, 118, 101, 110, 116, 115]

/-- Insertion into a list sorted by key (`encoding/json` writes the entries of a map in the order of the
keys). -/
def insertEntry (x : Str × Nat) : List (Str × Nat) → List (Str × Nat)
  | [] => [x]
  | y :: ys => if strLt y.1 x.1 then y :: insertEntry x ys else x :: y :: ys

/-- A `map[string]uint64` as a JSON value: the nil map is `null`. -/
def countsJson : Option (List (Str × Nat)) → Json.Json
  | none => .null
  | some m => .obj ((m.foldr insertEntry []).map (fun e => (e.1, .num (Dec.natText e.2))))

/-- The snapshot data as a JSON value (aggregate_type_stats.go:12-16). -/
def Stats.json (s : Stats) : Json.Json :=
  .obj [(kCounts, countsJson s.byType), (kLatest, .num (Dec.natText s.latest)), (kTotal, .num (Dec.natText s.total))]

/-- `SaveSnapshot` (79-84): `json.Encoder.Encode` ends with a newline. -/
def encode (s : Stats) : Str := s.json.text ++ [10]

/-- Decoding into a `uint64` that holds `old`; `none` is a type error. -/
def decodeNum (old : Nat) : Json.Json → Option Nat
  | .num t => Dec.parseUint t
  | .null => some old
  | _ => none

/-- `m[k] = n` on a map. -/
def putNum (k : Str) (n : Nat) : List (Str × Nat) → List (Str × Nat)
  | [] => [(k, n)]
  | (x, v) :: rest => if x = k then (k, n) :: rest else (x, v) :: putNum k n rest

/-- One entry of the object that is decoded into the map. -/
def decodeEntry (m : Option (List (Str × Nat))) (kv : Str × Json.Json) : Option (List (Str × Nat)) :=
  match m, decodeNum 0 kv.2 with
  | some m, some n => some (putNum kv.1 n m)
  | _, _ => none

/-- Decoding into a `map[string]uint64` that holds `old`: `null` makes it nil, an object is added to it. -/
def decodeCounts (old : Option (List (Str × Nat))) : Json.Json → Option (Option (List (Str × Nat)))
  | .null => some none
  | .obj l => (l.foldl decodeEntry (some (old.getD []))).map some
  | _ => none

/-- One field of the object that is decoded into the struct. -/
def decodeField (s : Option Stats) (kv : Str × Json.Json) : Option Stats :=
  match s with
  | none => none
  | some s =>
    if Json.sameName kv.1 kCounts then (decodeCounts s.byType kv.2).map (fun m => ⟨m, s.latest, s.total⟩)
    else if Json.sameName kv.1 kLatest then (decodeNum s.latest kv.2).map (fun n => ⟨s.byType, n, s.total⟩)
    else if Json.sameName kv.1 kTotal then (decodeNum s.total kv.2).map (fun n => ⟨s.byType, s.latest, n⟩)
    else some s

/-- `LoadFromSnapshot` (87-100): the first JSON value of the text, decoded into a zero struct; `none` if that
is an error. What follows the value is not read. -/
def decode (text : Str) : Option Stats :=
  match Json.parse text with
  | some (.obj l, _) => l.foldl decodeField (some ⟨none, 0, 0⟩)
  | some (.null, _) => some ⟨none, 0, 0⟩
  | _ => none

/-- `diskSnapshotStore.Load` (disk_snapshot_store.go:20-33) into a projection: `file` is the content of the
snapshot file, `none` if there is none. On any error the projection keeps its state. -/
def load (file : Option Str) (s : Stats) : Stats :=
  match file with
  | none => s
  | some text => (decode text).getD s

/-- `diskSnapshotStore.Save` (36-51): `os.Create` empties the file, then the text is written. `written` is
how much of it has reached the disk, all of it unless the process crashes. -/
def saveSnapshot (s : Stats) (written : Nat) : Option Str := some ((encode s).take written)

/-- The number from which `initProjections` (api.go:109-129) starts the subscription after loading. -/
def startNumber (s : Stats) : Nat := if s.total > 0 then s.latest + 1 else 0

/-- The subscription that `initProjections` starts (api.go:123-126) on a store that broadcasts under its
lock (LevelDB): all events, from `startNumber`. -/
def subParams (file : Option Str) : Sub.Params :=
  ⟨true, [none], some (startNumber (load file .new))⟩

/-- The statistics a server shows that started from snapshot file `file` and whose subscription has
delivered `out` since. -/
def shown (file : Option Str) (out : List Record) : Outcome Stats :=
  (load file .new).acceptAll out

/-! ## The live page of the web UI -/

/-- `realtimeEventsByAggregateType` (ui.go:293-339): for each record of the type that the subscription,
started with `StartFrom(latest)`, delivers, the counter sent to the browser. -/
def liveTotals (total : Nat) : List Record → List Nat
  | [] => []
  | _ :: rs => (total + 1) :: liveTotals (total + 1) rs

end RangeDB.Prj

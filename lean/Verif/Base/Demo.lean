import Verif.Base.Types

/-!
# A concrete lawful serializer

Used only in examples that show the hypotheses of a theorem are met, and in counterexamples. It rejects
events whose data starts with byte 255 (like a JSON serializer rejects a channel or a NaN).
-/

namespace RangeDB.Demo

/-- A length-prefixed string. -/
def enc (s : Str) : Str := s.length :: s

/-- Read a length-prefixed string. -/
def dec : Str → Option (Str × Str)
  | [] => none
  | n :: xs => if n ≤ xs.length then some (xs.take n, xs.drop n) else none

theorem dec_enc (s rest : Str) : dec (enc s ++ rest) = some (s, rest) := by
  simp [dec, enc]

/-- Serialize a record. -/
def ser (r : Record) : Option Str :=
  if r.data.head? = some 255 then none
  else some (r.gsn :: r.seq :: r.ts :: (enc r.streamName ++ (enc r.aggType ++ (enc r.aggId ++
    (enc r.eventId ++ (enc r.evType ++ (enc r.data ++ (enc r.metadata ++ []))))))))

/-- Deserialize a record. -/
def deser : Str → Option Record
  | gsn :: seq :: ts :: x =>
    match dec x with
    | none => none
    | some (streamName, x) => match dec x with
      | none => none
      | some (aggType, x) => match dec x with
        | none => none
        | some (aggId, x) => match dec x with
          | none => none
          | some (eventId, x) => match dec x with
            | none => none
            | some (evType, x) => match dec x with
              | none => none
              | some (data, x) => match dec x with
                | none => none
                | some (metadata, _) =>
                  some ⟨streamName, aggType, aggId, gsn, seq, ts, eventId, evType, data, metadata⟩
  | _ => none

/-- The example serializer. -/
def demo : Serializer := ⟨ser, deser, id⟩

theorem demo_lawful : demo.Lawful where
  roundTrip := by
    intro r b h
    simp only [demo, ser] at h
    split at h
    · simp at h
    · simp only [Option.some.injEq] at h
      subst h
      simp only [demo, deser, dec_enc, id]
  streamName := fun _ => rfl
  aggType := fun _ => rfl
  aggId := fun _ => rfl
  gsn := fun _ => rfl
  seq := fun _ => rfl
  ts := fun _ => rfl
  eventId := fun _ => rfl
  evType := fun _ => rfl

/-- An event of aggregate type `t`, ID `i` with data `d`. -/
def ev (t i d : Str) : EventRecord := ⟨⟨t, i, [69], d⟩, [], [85], 7⟩

/-- Aggregate type "A", ID "1". -/
def evA (d : Str) : EventRecord := ev [65] [49] d
/-- Aggregate type "B", ID "2". -/
def evB (d : Str) : EventRecord := ev [66] [50] d

/-- The stream name "A!1". -/
def sA : Str := [65, 33, 49]
/-- The stream name "B!2". -/
def sB : Str := [66, 33, 50]

end RangeDB.Demo

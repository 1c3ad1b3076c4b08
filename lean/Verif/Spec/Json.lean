import Verif.Model.JsonRecord
import Verif.Spec.EventLog

/-!
# Specification: which records can be written as JSON and read back
-/

namespace RangeDB.Json

/-- A Unicode scalar value: a code point that is not a surrogate. -/
def Scalar (c : Nat) : Prop := c < 0xD800 ∨ (0xE000 ≤ c ∧ c < 0x110000)

instance (c : Nat) : Decidable (Scalar c) := inferInstanceAs (Decidable (_ ∨ _))

/-- UTF-8 text: the encodings of some scalar values one after the other. -/
def Utf8 (s : Str) : Prop := ∃ cs : List Nat, (∀ c ∈ cs, Scalar c) ∧ s = cs.flatMap runeBytes

mutual
/-- A value Go can hold and print: its strings, too, are valid UTF-8. -/
def Json.WF : Json → Prop
  | .null => True
  | .bool _ => True
  | .num t => scanNum t = some (t, [])
  | .str s => Valid s
  | .arr l => WFs l
  | .obj l => WFf l
def WFs : List Json → Prop
  | [] => True
  | v :: vs => v.WF ∧ WFs vs
def WFf : List (Str × Json) → Prop
  | [] => True
  | f :: fs => Valid f.1 ∧ f.2.WF ∧ WFf fs
end

/-- The numbers of a record fit into 64 bits. -/
def Fits (r : Record) : Prop := r.gsn < 2 ^ 64 ∧ r.seq < 2 ^ 64 ∧ r.ts < 2 ^ 64

/-- A record that the JSON serializer handles: valid UTF-8, numbers that fit, metadata and data that are JSON,
data that is not `null` and that the bound type accepts and prints back as it was. `canon` puts the fields of objects
in the order in which Go prints a map. -/
structure Good (ty : Types) (r : Record) : Prop where
  streamName : Valid r.streamName
  aggType : Valid r.aggType
  aggId : Valid r.aggId
  eventId : Valid r.eventId
  evType : Valid r.evType
  fits : Fits r
  data : ∃ d : Json, d.WF ∧ d ≠ .null ∧ r.data = d.text ∧ ty r.evType d = some r.data
  metadata : ∃ m : Json, m.WF ∧ m.canon = m ∧ r.metadata = m.text

/-- An event that the JSON serializer handles (see `Good`). -/
structure GoodEvent (ty : Types) (er : EventRecord) : Prop where
  aggType : Valid er.event.aggType
  aggId : Valid er.event.aggId
  evType : Valid er.event.evType
  uuid : Valid er.uuid
  now : er.now < 2 ^ 64
  data : ∃ d : Json, d.WF ∧ d ≠ .null ∧ er.event.data = d.text ∧ ty er.event.evType d = some er.event.data
  metadata : ∃ m : Json, m.WF ∧ m.canon = m ∧ er.metadata = m.text

/-- A call that saves such events into a stream with a valid name. -/
def GoodOp (ty : Types) : Op → Prop
  | .save st _ _ ers => Valid st ∧ ∀ er ∈ ers, GoodEvent ty er
  | .delete _ _ _ => True

/-- The record with every invalid byte of its strings replaced by U+FFFD. -/
def saneRec (r : Record) : Record :=
  { r with
    streamName := sanitize 0 r.streamName
    aggType := sanitize 0 r.aggType
    aggId := sanitize 0 r.aggId
    eventId := sanitize 0 r.eventId
    evType := sanitize 0 r.evType }

/-! ## Files of records -/

/-- The records of a file after the first: separator, record, ... -/
def tailText (fm : Format) (marshal : Record → Option Str) : List Record → Str
  | [] => []
  | r :: rs => fm.between ++ ((marshal r).getD [] ++ tailText fm marshal rs)

/-- All the records of a file, with separators. -/
def bodyText (fm : Format) (marshal : Record → Option Str) : List Record → Str
  | [] => []
  | r :: rs => (marshal r).getD [] ++ tailText fm marshal rs

end RangeDB.Json

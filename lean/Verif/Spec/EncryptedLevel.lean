import Verif.Model.EncryptedLevel
import Verif.Spec.Encrypted
import Verif.Spec.Restarts

/-! # Specification: the life of a LevelDB store that is not encrypted -/

namespace RangeDB.EL

open RangeDB.Key RangeDB.Cry RangeDB.ES

variable {σ : Type}

/-- What happens to the LevelDB store, with the events as the caller passed them: everything but the saves whose encryption fails.
-/
def plainParts (C : Codec) (K : Store σ) (enc : Encryptor) (z : Serializer) (keep : σ → σ) : State σ → List Turn → List LD.Part
  | _, [] => []
  | s, t :: ts =>
    (match t with
      | .save st expected cancelAt ers =>
        if (encBatch C K enc s.world ers).2.2 = .ok then [.call (.save st expected cancelAt ers)] else []
      | .delete st expected cancelled => [.call (.delete st expected cancelled)]
      | .world _ => []
      | .restart => [.restart]
      | .killedEncrypting _ _ => [.restart]
      | .killedSaving st expected cancelAt ers n =>
        if (encBatch C K enc s.world ers).2.2 = .ok then [.crash (.save st expected cancelAt ers) n] else [.restart]
      | .killedDeleting st expected cancelled n => [.crash (.delete st expected cancelled) n]) ++
      plainParts C K enc z keep (step C K enc z keep s t) ts

/-- The events a turn passes to the store. -/
def Turn.events : Turn → List EventRecord
  | .save _ _ _ ers => ers
  | .killedEncrypting ers _ => ers
  | .killedSaving _ _ _ ers _ => ers
  | _ => []

/-- The stream it names. -/
def Turn.stream : Turn → Option Str
  | .save st _ _ _ => some st
  | .delete st _ _ => some st
  | .killedSaving st _ _ _ _ => some st
  | .killedDeleting st _ _ _ => some st
  | _ => none

/-- Its names are among the names in use. -/
def Turn.NamesIn (N : Names) (t : Turn) : Prop :=
  (∀ st, t.stream = some st → N.streams st) ∧ ∀ er ∈ t.events, N.types er.event.aggType

/-- It is no delete of the stream. -/
def Turn.Keeps (stream : Str) (t : Turn) : Prop :=
  ∀ expected cancelled n, t ≠ .delete stream expected cancelled ∧ t ≠ .killedDeleting stream expected cancelled n

/-- Every event with personal data is as a program writes it (`Plain`). -/
def WellFormed (C : Codec) (ts : List Turn) : Prop :=
  ∀ t ∈ ts, ∀ er ∈ t.events, ∀ p, C.asP er.event.evType er.event.data = some p → Plain p

/-- No subject of an event is deleted from the key store. -/
def NoShred (C : Codec) (ts : List Turn) : Prop :=
  ∀ t ∈ ts, ∀ er ∈ t.events, ∀ p, C.asP er.event.evType er.event.data = some p →
    ∀ now, Turn.world (.call (.delete now p.subject)) ∉ ts

/-- The record holds personal data. -/
def personal (C : Codec) (r : Record) : Bool :=
  match C.asP r.evType r.data with
  | none => false
  | some p => !p.strs.isEmpty || !p.ints.isEmpty

/-- The process ends in this turn. -/
def Turn.ends : Turn → Bool
  | .restart => true
  | .killedEncrypting _ _ => true
  | .killedSaving _ _ _ _ _ => true
  | .killedDeleting _ _ _ _ => true
  | _ => false

/-- What a reader gets, if an unencrypted store yields `it`, when all keys are lost: the records before the first one with personal
data, and if there is such a record a nil record and the error that there is no key. -/
def lost (C : Codec) (it : Iter) : Got where
  recs := (it.recs.takeWhile (fun r => !personal C r)).map some ++ (if it.recs.any (personal C) then [none] else [])
  err := if it.recs.any (personal C) then some (.crypto .notFound) else it.err.map .store
  panicked := false

end RangeDB.EL

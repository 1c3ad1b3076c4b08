import Verif.Model.Encrypted
import Verif.Thm.Crypto

/-!
# Specification: what the encrypted store is compared with
-/

namespace RangeDB.ES

open RangeDB.Key RangeDB.Cry

variable {σ : Type}

/-- The fields of an event as a program writes it: strings are bytes, numbers are `int64`, and the fields
that take cipher texts are empty. -/
structure Plain (p : PEvent) : Prop where
  bytes : ∀ f ∈ p.strs, Bytes f
  range : ∀ i ∈ p.ints, -(2 ^ 63) ≤ i ∧ i < 2 ^ 63
  sers : p.sers = p.ints.map (fun _ => [])

/-- What encryption does to the fields of an event: every personal string becomes a cipher text of it,
every personal number 0, and the field that takes its cipher text a cipher text of its decimal text. -/
def Sealed (K : Store σ) (enc : Encryptor) (p q : PEvent) : Prop :=
  q.subject = p.subject ∧ q.rest = p.rest ∧
  q.strs.length = p.strs.length ∧
  (∀ (i : Nat) (f c : Str), p.strs[i]? = some f → q.strs[i]? = some c → EncOf K enc p.subject f c) ∧
  q.ints = List.replicate p.ints.length 0 ∧ q.sers.length = p.ints.length ∧
  (∀ (i : Nat) (n : Int) (c : Str), p.ints[i]? = some n → q.sers[i]? = some c →
    EncOf K enc p.subject (Dec.itoa n) c)

/-- A serializer that accepts every record and does not touch the data; the metadata it reads back does
not depend on the data. -/
structure Faithful (z : Serializer) : Prop where
  accepts : ∀ r, (z.ser r).isSome
  data : ∀ r, (z.view r).data = r.data
  metadata : ∀ r d, (z.view { r with data := d }).metadata = (z.view r).metadata

/-- The calls of a history that reach the parent: all but the saves whose encryption fails, with the
events as the caller passed them. -/
def plainOps (C : Codec) (K : Store σ) (enc : Encryptor) (z : Serializer) :
    State σ → List HOp → List RangeDB.Op
  | _, [] => []
  | s, .save st expected cancelAt ers :: ops =>
    (if (encBatch C K enc s.world ers).2.2 = .ok then [.save st expected cancelAt ers] else []) ++
      plainOps C K enc z (hstep C K enc z s (.save st expected cancelAt ers)) ops
  | s, .delete st expected cancelled :: ops =>
    .delete st expected cancelled :: plainOps C K enc z (hstep C K enc z s (.delete st expected cancelled)) ops
  | s, .world o :: ops => plainOps C K enc z (hstep C K enc z s (.world o)) ops

/-- The record is personal data of a shredded subject. `r` is the unencrypted record. -/
def shredded (C : Codec) (K : Store σ) (w : World σ) (r : Record) : Bool :=
  match C.asP r.evType r.data with
  | none => false
  | some p => decide ((p.strs ≠ [] ∨ p.ints ≠ []) ∧ (K.get w.ks p.subject).2.2 = some .wasDeleted)

/-- What a reader gets if the unencrypted store yields `it`: the records before the first one of a shredded
subject, and if there is such a record a nil record and the error. -/
def decrypted (sh : Record → Bool) (it : Iter) : Got where
  recs := (it.recs.takeWhile (fun r => ! sh r)).map some ++ (if it.recs.any sh then [none] else [])
  err := if it.recs.any sh then some (.crypto .wasDeleted) else it.err.map .store
  panicked := false

end RangeDB.ES

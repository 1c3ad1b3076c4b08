import Verif.Model.Msgpack

/-!
# Specification: the seams of a msgpack file

A reader of msgpack takes the first byte of a value by itself, then the bytes of its length, then the bytes of a
string or a number. When the input ends exactly between two of these reads, the library reports the same error as at
the end of a file. These are the seams.
-/

namespace RangeDB.Mp

/-- A length after its first byte. -/
def lenReads (s : Str) : List Str :=
  match s with
  | [] => []
  | [c] => [[c]]
  | c :: d :: s => [[c], d :: s]

/-- The bytes of a string, if there are any. -/
def bodyReads (s : Str) : List Str := if s = [] then [] else [s]

mutual
/-- The encoding of a value, cut into what is read at once. -/
def reads : Val → List Str
  | .nil => [[192]]
  | .bool false => [[194]]
  | .bool true => [[195]]
  | .num k n => [[k.code], be k.width n]
  | .str s => lenReads (strLen s.length) ++ bodyReads s
  | .bin s => lenReads (binLen s.length) ++ bodyReads s
  | .arr vs => lenReads (arrLen vs.length) ++ readsL vs
  | .map fs => lenReads (mapLen fs.length) ++ readsM fs
/-- The same for the elements of a slice. -/
def readsL : List Val → List Str
  | [] => []
  | v :: vs => reads v ++ readsL vs
/-- The same for the keys and values of a map. -/
def readsM : List (Str × Val) → List Str
  | [] => []
  | (k, v) :: fs => lenReads (strLen k.length) ++ bodyReads k ++ reads v ++ readsM fs
end

/-- `p` ends before one of the reads `cs`: all earlier ones are complete, nothing of this one is there. -/
def Seam (cs : List Str) (p : Str) : Prop := ∃ j, j < cs.length ∧ p = (cs.take j).flatten

/-- The reads of a record without its data, which follows. -/
def headReads (r : Rec) : List Str := reads (.map r.fields)

/-- The record as the reader gets it: data of an event type known to the reader is decoded into its struct. -/
def Types.seen (ty : Types) (r : Rec) : Rec := { r with data := (ty.read r.evType r.data).getD .nil }

/-- The record can be written by this program and understood by that reader: its numbers and lengths are those of Go
values, and its data fits the struct of its event type, if the reader knows it. -/
def Good (limit : Nat) (ty : Types) (r : Rec) : Prop :=
  r.ok limit = true ∧ (ty.read r.evType r.data).isSome

end RangeDB.Mp

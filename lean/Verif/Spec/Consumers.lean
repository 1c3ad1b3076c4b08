import Verif.Model.Consumers
import Verif.Spec.Encrypted

/-!
# What a loop over an iterator does, said without iterators
-/

namespace RangeDB.Use

open RangeDB.ES

variable {ε α σ : Type}

/-- Going through the list of what successive `Record` calls return, one after the other, with the error there is at
the end (`p`: the call after the last one panics). -/
def fold (enough : α → Bool) (body : α → Option Record → Body α) : α → List (Option Record) → Option ε → Bool → End α ε
  | a, [], e, p => if p then (if enough a then .stopped a else .panicked a) else .over a e
  | a, r :: rs, e, p =>
    if enough a then .stopped a
    else
      match body a r with
      | .go a => fold enough body a rs e p
      | .stop a => .stopped a
      | .panic => .panicked a

/-- Everything a reader sees of records of which those with `sh` belong to deleted subjects. -/
def seenBy (sh : Record → Bool) (recs : List Record) : List (Option Record) :=
  (recs.takeWhile (fun r => ! sh r)).map some ++ (if recs.any sh then [none] else [])

/-- The number after which a subscription that started at `g` and delivered `recs` stands. -/
def lastOf (g : Nat) (recs : List Record) : Nat := (recs.getLast?.map Record.gsn).getD g

/-- The records that a consumer is offered that stops the reader with the first record it refuses. -/
def offered (accept : Record → Bool) (recs : List Record) : List Record :=
  recs.takeWhile accept ++ (recs.dropWhile accept).take 1

end RangeDB.Use

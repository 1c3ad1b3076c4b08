/-!
# What it means that concurrent calls act one after the other

`spec c x` is what the call `c` does to the content `x` of the store when nothing else happens, and what it
returns. Call number `i` is the `i`-th one that was made.
-/

namespace RangeDB.Lin

variable {κ σ ρ : Type}

/-- What an outside observer sees. -/
inductive Event (ρ : Type) where
  /-- call `i` is made -/
  | inv (i : Nat)
  /-- call `i` returns `r` -/
  | res (i : Nat) (r : ρ)
deriving DecidableEq

/-- `a` comes before `b` in the list. -/
def Precedes {α : Type} (l : List α) (a b : α) : Prop := ∃ l1 l2 l3, l = l1 ++ a :: (l2 ++ b :: l3)

/-- Making the calls of the list one after the other, starting with content `x`, they return what the list
says, and the content is `y` afterwards. -/
def Explains (spec : κ → σ → σ × ρ) (calls : List κ) : σ → List (Nat × ρ) → σ → Prop
  | x, [], y => x = y
  | x, (i, r) :: l, y => ∃ c, calls[i]? = some c ∧ (spec c x).2 = r ∧ Explains spec calls (spec c x).1 l y

/-- The calls act as if they had been made one after the other: there is an order of calls, among them all that
have returned, in which each gives the result it returned; a call that returned before another one was made comes
before it; and afterwards the content is `y`. -/
def Linearizable (spec : κ → σ → σ × ρ) (x : σ) (calls : List κ) (hist : List (Event ρ)) (y : σ) : Prop :=
  ∃ order : List (Nat × ρ),
    (order.map (·.1)).Nodup ∧
    (∀ i r, Event.res i r ∈ hist → (i, r) ∈ order) ∧
    Explains spec calls x order y ∧
    ∀ i r j r', Precedes hist (.res i r) (.inv j) → (j, r') ∈ order → Precedes order (i, r) (j, r')

end RangeDB.Lin

import Verif.Model.EventParser
import Verif.Model.Json

/-!
# Model: the aggregate generator and the command generator

`pkg/aggregategenerator/write_aggregate.go` and `pkg/commandgenerator/write_command.go` write Go source. Modelled:
when that source compiles, given the methods that the user writes, and what the generated methods do. Of Go's
rules these are modelled: identifiers are letters, digits and underscores and not keywords, bytes of 128 and
more count as letters when the whole is valid UTF-8; the cases of a type switch differ; a type has one method
of a name, and no field and method of the same name; a called method exists and takes the value passed.
-/

namespace RangeDB.Agg

/-! ## Names -/

/-- `unicode.ToLower` for a rune of one byte. -/
def lowerAscii (c : Nat) : Nat := if 65 ≤ c ∧ c ≤ 90 then c + 32 else c

/-- How many bytes the first rune of the text has (`for i, v := range str`); an invalid byte counts as one. -/
def firstLen : Str → Nat
  | [] => 0
  | c :: cs =>
    if c < 128 then 1
    else match Json.runeLen c cs with
      | some (n + 1) => n + 1
      | _ => 1

/-- `unicode.ToLower` for an encoded rune; `up` is the function for runes of more than one byte. -/
def lowerRune (up : Str → Str) : Str → Str
  | [c] => [lowerAscii c]
  | r => up r

/-- `lcFirst` (write_aggregate.go:36-41), which is the same function as the one of the event generator. -/
def lcFirst (up : Str → Str) (s : Str) : Str := Gen.lcFirst (lowerRune up) firstLen s

/-- Go's keywords. -/
def keywords : List Str :=
  [[98, 114, 101, 97, 107], [99, 97, 115, 101], [99, 104, 97, 110], [99, 111, 110, 115, 116],
   [99, 111, 110, 116, 105, 110, 117, 101], [100, 101, 102, 97, 117, 108, 116], [100, 101, 102, 101, 114],
   [101, 108, 115, 101], [102, 97, 108, 108, 116, 104, 114, 111, 117, 103, 104], [102, 111, 114],
   [102, 117, 110, 99], [103, 111], [103, 111, 116, 111], [105, 102], [105, 109, 112, 111, 114, 116],
   [105, 110, 116, 101, 114, 102, 97, 99, 101], [109, 97, 112], [112, 97, 99, 107, 97, 103, 101],
   [114, 97, 110, 103, 101], [114, 101, 116, 117, 114, 110], [115, 101, 108, 101, 99, 116],
   [115, 116, 114, 117, 99, 116], [115, 119, 105, 116, 99, 104], [116, 121, 112, 101], [118, 97, 114]]

/-- A letter, an underscore or a byte of a longer rune. -/
def isLetter (c : Nat) : Bool :=
  (decide (65 ≤ c) && decide (c ≤ 90)) || (decide (97 ≤ c) && decide (c ≤ 122)) || c == 95 || decide (128 ≤ c)

def isDigit (c : Nat) : Bool := decide (48 ≤ c) && decide (c ≤ 57)

/-- A Go identifier. -/
def isIdent (s : Str) : Bool :=
  match s with
  | [] => false
  | c :: cs => isLetter c && cs.all (fun d => isLetter d || isDigit d) && decide (Json.Valid s) &&
      !keywords.contains s

/-- "apply" -/
def kApply : Str := [97, 112, 112, 108, 121]
/-- "raise" -/
def kRaise : Str := [114, 97, 105, 115, 101]
/-- "Load" -/
def kLoad : Str := [76, 111, 97, 100]
/-- "Handle" -/
def kHandle : Str := [72, 97, 110, 100, 108, 101]
/-- "CommandTypes" -/
def kCommandTypes : Str := [67, 111, 109, 109, 97, 110, 100, 84, 121, 112, 101, 115]
/-- "resetPendingEvents" -/
def kReset : Str :=
  [114, 101, 115, 101, 116, 80, 101, 110, 100, 105, 110, 103, 69, 118, 101, 110, 116, 115]
/-- "pendingEvents" -/
def kPending : Str := [112, 101, 110, 100, 105, 110, 103, 69, 118, 101, 110, 116, 115]

/-! ## Does the generated source compile? -/

/-- What the generator is given: the names of the event and command types. -/
structure Input where
  events : List Str
  commands : List Str

/-- A method of the aggregate that the user has written: its name and the type of its parameter. -/
structure Decl where
  name : Str
  param : Str
deriving DecidableEq, Repr

/-- The methods that the generated file declares (write_aggregate.go:57-118). -/
def Input.methods (i : Input) : List Str :=
  [kLoad, kHandle, kReset, kCommandTypes, kRaise] ++ (if i.events = [] then [] else [kApply])

/-- Is the call `a.m(e)` (76, 79, 92, 95), with `e` of type `t`, accepted? `apply` and `raise` take any event,
the other generated methods take no such value. -/
def callOk (up : Str → Str) (i : Input) (user : List Decl) (event : Bool) (t : Str) : Bool :=
  let m := lcFirst up t
  isIdent m && ((event && (m == kRaise || (m == kApply && i.methods.contains kApply))) ||
    user.contains ⟨m, t⟩)

/-- Does the aggregate compile, with the user's methods? The aggregate is a struct with the field
`pendingEvents` (101, 105, 117). -/
def compiles (up : Str → Str) (i : Input) (user : List Decl) : Bool :=
  decide i.events.Nodup && decide i.commands.Nodup &&
  i.events.all (callOk up i user true) && i.commands.all (callOk up i user false) &&
  user.all (fun d => isIdent d.name) &&
  decide ((i.methods ++ user.map (·.name)).Nodup) && !(user.map (·.name)).contains kPending

/-! ## What the generated methods do -/

/-- A value of an event or command type, or a pointer to one. -/
structure Val where
  ty : Str
  ptr : Bool
  payload : Str
deriving DecidableEq, Repr

/-- The value itself (`*e`, `*c`). -/
def Val.deref (v : Val) : Val := { v with ptr := false }

/-- The aggregate: the user's fields and the pending events; and, for the theorems, the calls of the user's
methods so far. -/
structure St (σ : Type) where
  user : σ
  pending : List Val
  calls : List (Str × Val)
deriving DecidableEq, Repr

/-- What the user's methods do: method, argument and fields to new fields and the events it raises. -/
abbrev User (σ : Type) := Str → Val → σ → σ × List Val

variable {σ : Type}

/-- A call of a user's method, which may call `raise` (116-118). -/
def callUser (u : User σ) (m : Str) (v : Val) (s : St σ) : St σ :=
  let r := u m v s.user
  ⟨r.1, s.pending ++ r.2, s.calls ++ [(m, v)]⟩

/-- `apply` (71-83), with a bound on the depth of the calls; `none` is a stack overflow. -/
def apply (up : Str → Str) (i : Input) (u : User σ) : Nat → Val → St σ → Option (St σ)
  | 0, _, _ => none
  | depth + 1, v, s =>
    if i.events.contains v.ty then
      let m := lcFirst up v.ty
      if m = kApply then apply up i u depth v.deref s
      else if m = kRaise then some { s with pending := s.pending ++ [v.deref] }
      else some (callUser u m v.deref s)
    else some s

/-- `Load` (57-67) over the records that the iterator yields; `none` is a record that has an error or whose
data is not an event, which is passed over. -/
def load (up : Str → Str) (i : Input) (u : User σ) (depth : Nat) : List (Option Val) → St σ → Option (St σ)
  | [], s => some s
  | none :: vs, s => load up i u depth vs s
  | some v :: vs, s =>
    if i.events = [] then load up i u depth vs s
    else match apply up i u depth v s with
      | some s' => load up i u depth vs s'
      | none => none

/-- `Handle` (86-102): the events it returns, and the aggregate without pending events. -/
def handle (up : Str → Str) (i : Input) (u : User σ) (c : Val) (s : St σ) : St σ × List Val :=
  let s' := if i.commands.contains c.ty then callUser u (lcFirst up c.ty) c.deref s else s
  ({ s' with pending := [] }, s'.pending)

/-! ## String literals -/

/-- The value of a hexadecimal digit. -/
def hexVal (c : Nat) : Option Nat :=
  if 48 ≤ c ∧ c ≤ 57 then some (c - 48)
  else if 97 ≤ c ∧ c ≤ 102 then some (c - 87)
  else if 65 ≤ c ∧ c ≤ 70 then some (c - 55)
  else none

/-- The value of hexadecimal digits. -/
def hexNum : Str → Option Nat
  | [] => some 0
  | cs => cs.foldl (fun a c => match a, hexVal c with
      | some n, some d => some (n * 16 + d)
      | _, _ => none) (some 0)

/-- A rune that `\u` or `\U` may denote. -/
def runeOk (n : Nat) : Bool := decide (n < 0xD800) || (decide (0xE000 ≤ n) && decide (n < 0x110000))

/-- The value of an interpreted string literal, from after the opening quote: the bytes and what follows the
closing quote; `none` if it is not one. -/
def literal : Str → Option (Str × Str)
  | [] => none
  | 34 :: rest => some ([], rest)
  | 10 :: _ => none
  | 92 :: 120 :: a :: b :: rest =>
    match hexNum [a, b] with
    | some n => (literal rest).map (fun p => (n :: p.1, p.2))
    | none => none
  | 92 :: 117 :: a :: b :: c :: d :: rest =>
    match hexNum [a, b, c, d] with
    | some n => if runeOk n then (literal rest).map (fun p => (Json.runeBytes n ++ p.1, p.2)) else none
    | none => none
  | 92 :: 85 :: a :: b :: c :: d :: e :: f :: g :: h :: rest =>
    match hexNum [a, b, c, d, e, f, g, h] with
    | some n => if runeOk n then (literal rest).map (fun p => (Json.runeBytes n ++ p.1, p.2)) else none
    | none => none
  | 92 :: c :: rest =>
    match c with
    | 97 => (literal rest).map (fun p => (7 :: p.1, p.2))
    | 98 => (literal rest).map (fun p => (8 :: p.1, p.2))
    | 102 => (literal rest).map (fun p => (12 :: p.1, p.2))
    | 110 => (literal rest).map (fun p => (10 :: p.1, p.2))
    | 114 => (literal rest).map (fun p => (13 :: p.1, p.2))
    | 116 => (literal rest).map (fun p => (9 :: p.1, p.2))
    | 118 => (literal rest).map (fun p => (11 :: p.1, p.2))
    | 92 => (literal rest).map (fun p => (92 :: p.1, p.2))
    | 34 => (literal rest).map (fun p => (34 :: p.1, p.2))
    | _ =>
      match rest with
      | b :: d :: rest' =>
        if 48 ≤ c ∧ c ≤ 51 ∧ 48 ≤ b ∧ b ≤ 55 ∧ 48 ≤ d ∧ d ≤ 55 then
          (literal rest').map (fun p => (((c - 48) * 64 + (b - 48) * 8 + (d - 48)) :: p.1, p.2))
        else none
      | _ => none
  | c :: rest => (literal rest).map (fun p => (c :: p.1, p.2))

/-- What the generated method `AggregateType` or `CommandType` (write_command.go:42-43) returns, when the
template was given `text`: the literal between its quotes, followed by the rest of the line, must be the
literal and nothing else. `none`: the line is not the method that was meant (usually it does not compile). -/
def returned (text : Str) : Option Str :=
  match literal (text ++ [34, 32, 125]) with
  | some (v, rest) => if rest = [32, 125] then some v else none
  | none => none

end RangeDB.Agg

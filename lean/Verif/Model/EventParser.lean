import Verif.Model.Crypto
import Verif.Model.Text
import Verif.Model.Projection

/-!
# Model: the event generator (`pkg/eventparser`, `gen/eventgenerator`)

The generator reads the Go source of event structs, looks for `encrypt` tags, and writes `Encrypt` and
`Decrypt` methods. Modelled: the struct tags as source text, the tag parser of
`github.com/fatih/structtag` v1.2.0 (as its source is known), the visitor that collects the fields, and what the
generated methods do to the fields of an event. Go's own parser is not modelled: a struct is given as its
list of field declarations, which is what the visitor sees.
-/

namespace RangeDB.Gen

open Cry Key

/-! ## Struct tags -/

/-- `structtag.Tag`. -/
structure Tag where
  key : Str
  name : Str
  options : List Str
deriving DecidableEq, Repr

/-- `Tag.Value()` (structtag tags.go): the name, and the options after commas if any is not empty. -/
def Tag.value (t : Tag) : Str :=
  if Txt.join [44] t.options = [] then t.name else t.name ++ [44] ++ Txt.join [44] t.options

/-- A byte that may occur in a tag key: greater than space, not ':', not '"', not DEL. -/
def keyChar (c : Nat) : Bool := decide (32 < c) && c != 58 && c != 34 && c != 127

/-- From after the opening quote to the closing one: the text between (escapes still in it), and what
follows the closing quote. -/
def scanQuoted : Str → Option (Str × Str)
  | [] => none
  | [c] => if c = 34 then some ([], []) else none
  | c :: d :: cs =>
    if c = 34 then some ([], d :: cs)
    else if c = 92 then (scanQuoted cs).map (fun p => (c :: d :: p.1, p.2))
    else (scanQuoted (d :: cs)).map (fun p => (c :: p.1, p.2))

/-- The tag with key `k` and unquoted value `v`: `strings.Split(value, ",")`. -/
def mkTag (k v : Str) : Tag :=
  match Txt.split [44] v with
  | [] => ⟨k, [], []⟩
  | n :: os => ⟨k, n, os⟩

/-- The loop of `structtag.Parse`; `none` is a syntax error. `unq` is `strconv.Unquote` of the text
between two quotes. The fuel bounds the number of tags. -/
def parseLoop (unq : Str → Option Str) : Nat → Str → Option (List Tag)
  | 0, _ => none
  | fuel + 1, tag =>
    let tag := tag.dropWhile (· == 32)
    if tag = [] then some []
    else if tag.takeWhile keyChar = [] then none
    else match tag.dropWhile keyChar with
      | 58 :: 34 :: body =>
        match scanQuoted body with
        | none => none
        | some (q, rest) =>
          match unq q with
          | none => none
          | some v => (parseLoop unq fuel rest).map (fun ts => mkTag (tag.takeWhile keyChar) v :: ts)
      | _ => none

/-- The result of `structtag.Parse`. -/
inductive Tags where
  | bad
  | nil
  | ok (l : List Tag)
deriving DecidableEq, Repr

/-- `structtag.Parse`: a text without tags that is not empty yields a nil pointer without an error. -/
def parse (unq : Str → Option Str) (text : Str) : Tags :=
  match parseLoop unq (text.length + 1) text with
  | none => .bad
  | some ts => if text ≠ [] ∧ ts = [] then .nil else .ok ts

/-- `tags.Get(key)`: the first tag with the key. -/
def get (ts : List Tag) (k : Str) : Option Tag := ts.find? (fun t => t.key = k)

/-! ## The visitor -/

/-- The type of a field, as far as the visitor looks at it: an identifier, or anything else. -/
inductive Ty where
  | ident (name : Str)
  | other
deriving DecidableEq, Repr

/-- One field declaration `A, B T "tag"`; `tag` is the literal as it stands in the source, with its
quotes or backticks. An embedded struct has no names. -/
structure Field where
  names : List Str
  ty : Ty
  tag : Option Str
deriving DecidableEq, Repr

/-- "encrypt" -/
def kEncrypt : Str := [101, 110, 99, 114, 121, 112, 116]
/-- "serialized" -/
def kSerialized : Str := [115, 101, 114, 105, 97, 108, 105, 122, 101, 100]
/-- "subject-id" -/
def vSubject : Str := [115, 117, 98, 106, 101, 99, 116, 45, 105, 100]
/-- "personal-data" -/
def vPersonal : Str := [112, 101, 114, 115, 111, 110, 97, 108, 45, 100, 97, 116, 97]
/-- "string" -/
def tString : Str := [115, 116, 114, 105, 110, 103]

/-- `strings.Replace(s, "`", "", n)`: without its first `n` backticks. -/
def dropTicks : Nat → Str → Str
  | 0, s => s
  | _ + 1, [] => []
  | n + 1, c :: cs => if c = 96 then dropTicks n cs else c :: dropTicks (n + 1) cs

/-- Assignment to an entry of a Go map. -/
def put (k v : Str) : List (Str × Str) → List (Str × Str)
  | [] => [(k, v)]
  | p :: ps => if p.1 = k then (k, v) :: ps else p :: put k v ps

/-- The variables `subjectID`, `personalDataFields` and `serializedFields` (event_parser.go:50-52). -/
structure Acc where
  subject : Str
  fields : List Str
  ser : List (Str × Str)
deriving DecidableEq, Repr

/-- One round of the first loop over the fields (event_parser.go:53-85). `none`: the method call on the
nil tags panics. -/
def collectField (unq : Str → Option Str) (a : Acc) (f : Field) : Option Acc :=
  match f.tag, f.names with
  | some lit, n :: _ =>
    match parse unq (dropTicks 2 lit) with
    | .bad => some a
    | .nil => none
    | .ok ts =>
      match get ts kEncrypt with
      | none => some a
      | some t =>
        if t.value = vSubject then some { a with subject := n }
        else if t.value = vPersonal then
          match get ts kSerialized with
          | none => some { a with fields := a.fields ++ [n] }
          | some s => some { a with ser := put s.name n a.ser }
        else some a
  | _, _ => some a

/-- The first loop. -/
def collect (unq : Str → Option Str) : Acc → List Field → Option Acc
  | a, [] => some a
  | a, f :: fs =>
    match collectField unq a f with
    | none => none
    | some a => collect unq a fs

/-- The second loop sets an error if a target of a serialized field is not a string
(event_parser.go:87-98). -/
def badTarget (ser : List (Str × Str)) (f : Field) : Bool :=
  match f.names with
  | [] => false
  | n :: _ => decide (n ∈ ser.map (·.1)) && decide (f.ty ≠ .ident tString)

/-- `eventparser.PersonalData` (event_parser.go:13-17); the map from targets to sources is a list without
repeated keys. -/
structure PersonalData where
  subject : Str
  fields : List Str
  ser : List (Str × Str)
deriving DecidableEq, Repr

/-- The result of the generator for one struct. -/
inductive Parsed where
  | panic
  | err
  | ok (pd : Option PersonalData)
deriving DecidableEq, Repr

/-- `Visit` of one struct (event_parser.go:46-119). -/
def visit (unq : Str → Option Str) (fields : List Field) : Parsed :=
  match collect unq ⟨[], [], []⟩ fields with
  | none => .panic
  | some a =>
    if fields.any (badTarget a.ser) then .err
    else if a.subject ≠ [] then .ok (some ⟨a.subject, a.fields, a.ser⟩)
    else .ok none

/-- `GetEvents` (event_parser.go:24-39) of a file with these structs, names left out: a panic anywhere,
else an error anywhere, else the events in order. -/
def getEvents (unq : Str → Option Str) (structs : List (List Field)) : Outcome (List (Option PersonalData)) :=
  let ps := structs.map (visit unq)
  if Parsed.panic ∈ ps then .panic
  else if Parsed.err ∈ ps then .err .serialize
  else .ok (ps.filterMap (fun | .ok pd => some pd | _ => none))

/-! ## The generated methods -/

/-- The fields of an event, by name: its strings and its numbers. -/
structure Val where
  str : Str → Str
  int : Str → Int

/-- Assign the values to the fields, one after the other. -/
def assign {α : Type} : List (Str × α) → (Str → α) → (Str → α)
  | [], f => f
  | (n, x) :: l, f => assign l (fun m => if m = n then x else f m)

/-- Insertion by key: `text/template` ranges over a map in the order of its keys. -/
def insertKey (p : Str × Str) : List (Str × Str) → List (Str × Str)
  | [] => [p]
  | q :: qs => if Prj.strLt q.1 p.1 then q :: insertKey p qs else p :: q :: qs

/-- The map in the order in which the template visits it. -/
def PersonalData.sorted (pd : PersonalData) : List (Str × Str) := pd.ser.foldr insertKey []

/-- The event as the generated code sees it (`Model/Crypto`). -/
def PersonalData.view (pd : PersonalData) (v : Val) : PEvent :=
  ⟨v.str pd.subject, pd.fields.map v.str, pd.sorted.map (fun p => v.int p.2),
   pd.sorted.map (fun p => v.str p.1), []⟩

/-- The assignments at the end of the generated methods (event_writer.go:104-112 and 138-146). -/
def PersonalData.write (pd : PersonalData) (v : Val) (e : PEvent) : Val :=
  ⟨assign ((pd.sorted.map (·.1)).zip e.sers) (assign (pd.fields.zip e.strs) v.str),
   assign ((pd.sorted.map (·.2)).zip e.ints) v.int⟩

variable {σ : Type}

/-- What the encrypted store hands to its parent for an event of the struct
(encryptedstore/encrypted_store.go:43-63, crypto/eventencryptor/event_encryptor.go:22-28). The generated
methods have pointer receivers (event_writer.go:84), so only a pointer to the struct is a
`crypto.SelfEncryptor`; both the struct and the pointer are a `rangedb.Event` (event_writer.go:78-80).
`pointer` says which one is saved. An event that is not a `SelfEncryptor` is stored as it is, the others
as generated `Encrypt` (event_writer.go:84-114) leaves them. `none` is a panic. -/
def sealed (K : Store σ) (enc : Encryptor) (w : World σ) (pointer : Bool) (pd : Option PersonalData)
    (v : Val) : World σ × Option (Val × Option KErr) :=
  match pd with
  | none => (w, some (v, none))
  | some pd =>
    if pointer then
      match genEncrypt K enc w (pd.view v) with
      | (w, none) => (w, none)
      | (w, some (e, err)) => (w, some (pd.write v e, err))
    else (w, some (v, none))

/-! ## Names in the generated code -/

/-- `lcFirst` (event_writer.go:50-55): the lower case of the first rune followed by the text without its
first byte. `lower` is `unicode.ToLower` on the encoded rune; `runeLen` bytes belong to the first rune. -/
def lcFirst (lower : Str → Str) (runeLen : Str → Nat) (s : Str) : Str :=
  match s with
  | [] => []
  | c :: cs => lower ((c :: cs).take (runeLen (c :: cs))) ++ cs

/-- "decrypted" -/
def tDecrypted : Str := [100, 101, 99, 114, 121, 112, 116, 101, 100]

/-- The variables that `Encrypt` declares besides `err` (event_writer.go:86, 95-96). -/
def PersonalData.encryptLocals (pd : PersonalData) (lc : Str → Str) : List Str :=
  pd.fields.map lc ++ pd.sorted.flatMap (fun p => [tString ++ p.2, lc p.1])

/-- The variables that `Decrypt` declares besides `err` (event_writer.go:117, 126, 133). -/
def PersonalData.decryptLocals (pd : PersonalData) (lc : Str → Str) : List Str :=
  pd.fields.map lc ++ pd.sorted.flatMap (fun p => [tDecrypted ++ p.2, lc p.2])

end RangeDB.Gen

import Verif.Model.Text

/-!
# Model: the event binder generator and the binding of event types

`gen/eventbinder/main.go` with `pkg/structparser/struct_names.go` writes the function `BindEvents`, and
`event_identifier.go` keeps what was bound. Of Go these rules are modelled: a name in the generated function means the
type of that name that is declared at the top of the package; `&T{}` needs a type with composite literals; the
arguments of `Bind` implement `Event`. The text of the generated file, clashes with the names `BindEvents` and
`rangedb`, and the time stamp in its header are not modelled.
-/

namespace RangeDB.Evb

/-- What follows the name in a type declaration. -/
inductive Shape
  /-- `struct { … }` -/
  | struct
  /-- another type with composite literals: a name of a struct type, a map, a slice or an array. -/
  | literal
  /-- an interface, a function, a number and so on. -/
  | other
deriving DecidableEq, Repr

/-- A type declaration of a source file; `inFunction`: it stands in the body of a function. `eventType` is the text
that `(&T{}).EventType()` returns, when `*T` has the methods of `rangedb.Event` (store.go:96-105). -/
structure TypeDecl where
  name : Str
  shape : Shape
  inFunction : Bool
  eventType : Option Str
deriving DecidableEq, Repr

/-- A source file: its type declarations in the order in which they are written. -/
abbrev File := List TypeDecl

/-- `GetStructNames` (struct_names.go:11-38) of a file that parses. `ast.Walk` visits the declarations in the order of
the text and goes into functions. -/
def structNames (f : File) : List Str :=
  (f.filter fun d => d.shape = .struct).map (·.name)

/-- The package of the generated file: its name and all its source files. -/
structure Package where
  name : Str
  files : List (Str × File)
deriving DecidableEq, Repr

/-- The declarations at the top of the package. -/
def Package.top (p : Package) : List TypeDecl :=
  (p.files.flatMap (·.2)).filter fun d => !d.inFunction

/-- The type that a name means at the top of the package. -/
def Package.type (p : Package) (n : Str) : Option TypeDecl := p.top.find? fun d => d.name = n

/-- What reading a file gives: it is missing, it does not parse, or it has these declarations. -/
inductive Source
  | missing
  | garbled
  | file (f : File)
deriving DecidableEq, Repr

/-- The loop over the file names (main.go:24-36). `none`: `log.Fatalf`. -/
def collect (open_ : Str → Source) : List Str → Option (List Str)
  | [] => some []
  | n :: ns =>
    match open_ n with
    | .missing => none
    | .garbled => none
    | .file f => (collect open_ ns).map fun rest => structNames f ++ rest

/-- `main` (main.go:16-39): what the generated file contains, the package name and the names it binds. When `main`
fails the output file is not touched. -/
def generate (open_ : Str → Source) (filesCSV packageName : Str) : Option (Str × List Str) :=
  (collect open_ (Txt.split [44] filesCSV)).map fun names => (packageName, names)

/-- Does the package compile with the generated file (main.go:74-86)? -/
def compiles (p : Package) (generated : Str × List Str) : Bool :=
  decide (generated.1 = p.name) &&
  generated.2.all fun n =>
    match p.type n with
    | some d => decide (d.shape ≠ .other) && d.eventType.isSome
    | none => false

/-! ## Binding -/

/-- A type as `reflect` sees it. -/
inductive RType
  | named (n : Str)
  | ptr (t : RType)
deriving DecidableEq, Repr

/-- `getType` (event_identifier.go:28-35). -/
def getType : RType → RType
  | .named n => .named n
  | .ptr t => t

/-- An event passed to `Bind`: its type and what its method `EventType` returns. -/
structure Bound where
  ty : RType
  eventType : Str
deriving DecidableEq, Repr

/-- The map of an `eventIdentifier` (event_identifier.go:7-9), latest entry first. -/
abbrev Identifier := List (Str × RType)

/-- `Bind` (event_identifier.go:18-22). -/
def bind : Identifier → List Bound → Identifier
  | m, [] => m
  | m, e :: es => bind ((e.eventType, getType e.ty) :: m.filter fun x => x.1 ≠ e.eventType) es

/-- `EventTypeLookup` (event_identifier.go:24-27). -/
def lookup (m : Identifier) (t : Str) : Option RType := (m.find? fun x => x.1 = t).map (·.2)

/-- The arguments of `Bind` in the generated function: `&T{}` for each name. -/
def arguments (p : Package) (names : List Str) : List Bound :=
  names.filterMap fun n =>
    match p.type n with
    | some d => d.eventType.map fun t => ⟨.ptr (.named n), t⟩
    | none => none

/-- Calling the generated `BindEvents` (main.go:81-85). -/
def bindEvents (p : Package) (generated : Str × List Str) (m : Identifier) : Identifier :=
  bind m (arguments p generated.2)

end RangeDB.Evb

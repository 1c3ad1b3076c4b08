import Verif.Model.Binder

/-!
# Specification: which events the generated function has to bind
-/

namespace RangeDB.Evb

/-- A package that compiles on its own declares each name at its top once. -/
def Package.Valid (p : Package) : Prop := (p.top.map (·.name)).Nodup

/-- The file names of the flag are files of the package. -/
def Reads (p : Package) (open_ : Str → Source) (filesCSV : Str) : Prop :=
  ∀ n ∈ Txt.split [44] filesCSV, ∃ f, (n, f) ∈ p.files ∧ open_ n = .file f

/-- The files that the flag names contain the declaration `d`. -/
def Declared (open_ : Str → Source) (filesCSV : Str) (d : TypeDecl) : Prop :=
  ∃ n ∈ Txt.split [44] filesCSV, ∃ f, open_ n = .file f ∧ d ∈ f

end RangeDB.Evb

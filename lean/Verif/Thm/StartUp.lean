import Verif.Model.StartUp
import Verif.Thm.Config

/-!
# The rangedb command keeps events where it was told to (C120)
-/

namespace RangeDB.Cfg

/-! ## Specification -/

/-- Someone who sets a variable of PostgreSQL or of EventStoreDB, or gives a path, wants events to be kept. -/
def WantsToKeep (pg : Env) (es : EsEnv) (path : Str) : Prop :=
  pg.host ≠ [] ∨ pg.user ≠ [] ∨ pg.password ≠ [] ∨ pg.dbName ≠ [] ∨ pg.searchPath ≠ [] ∨
  es.ip ≠ [] ∨ es.user ≠ [] ∨ es.password ≠ [] ∨ path ≠ []

/-- The full statement of **C120**: whoever configures a store gets a store that keeps events, or no server; and the path
given on the command line is where the events are. -/
def C120_full : Prop :=
  ∀ (opens : Opened → Bool) (pg : Env) (es : EsEnv) (path : Str),
    (WantsToKeep pg es path → getStore opens pg es path ≠ some .memory) ∧
    (path ≠ [] → ∀ o, getStore opens pg es path = some o → o = .levelDB path)

/-- **C120**, partial: a complete configuration is used, with the values given, and PostgreSQL comes before EventStoreDB and
this before LevelDB; if it cannot be opened there is no server. -/
theorem C120_partial (opens : Opened → Bool) (pg : Env) (es : EsEnv) (path : Str) :
    (pg.host ≠ [] → pg.user ≠ [] → pg.dbName ≠ [] →
      getStore opens pg es path =
        if opens (.postgres ⟨pg.host, 5432, pg.user, pg.password, pg.dbName, pg.searchPath⟩)
        then some (.postgres ⟨pg.host, 5432, pg.user, pg.password, pg.dbName, pg.searchPath⟩) else none) ∧
    (pg.host = [] → es.ip ≠ [] → es.user ≠ [] → es.password ≠ [] →
      getStore opens pg es path = if opens (.eventStoreDB es) then some (.eventStoreDB es) else none) ∧
    (pg.host = [] → es.ip = [] → path ≠ [] →
      getStore opens pg es path = if opens (.levelDB path) then some (.levelDB path) else none) := by
  refine ⟨fun h1 h2 h3 => ?_, fun h1 h2 h3 h4 => ?_, fun h1 h2 h3 => ?_⟩
  · simp [getStore, fromEnv, h1, h2, h3]
  · simp [getStore, fromEnv, esFromEnv, h1, h2, h3, h4]
  · simp [getStore, fromEnv, esFromEnv, h1, h2, h3]

/-- **C120**, when events are lost at the end of the process: exactly if there is no path and each of the two databases lacks
one of its variables. -/
theorem C120_memory (opens : Opened → Bool) (pg : Env) (es : EsEnv) (path : Str) :
    getStore opens pg es path = some .memory ↔
      path = [] ∧ (pg.host = [] ∨ pg.user = [] ∨ pg.dbName = []) ∧ (es.ip = [] ∨ es.user = [] ∨ es.password = []) := by
  unfold getStore fromEnv esFromEnv
  by_cases h1 : pg.host = [] ∨ pg.user = [] ∨ pg.dbName = []
  · rw [if_pos h1]
    by_cases h2 : es.ip = [] ∨ es.user = [] ∨ es.password = []
    · rw [if_pos h2]
      by_cases h3 : path = []
      · simp [h1, h2, h3]
      · simp only [ne_eq, h3, not_false_eq_true, if_true, false_and, iff_false]
        split <;> simp
    · rw [if_neg h2]
      simp only [h2, and_false, iff_false]
      split <;> simp
  · rw [if_neg h1]
    simp only [h1, and_false, false_and, iff_false]
    split <;> simp

/-- **C120** is false: the user name is forgotten, and the server keeps its events in memory. -/
theorem C120_false : ¬ C120_full := by
  intro h
  exact (h (fun _ => true) ⟨bytes "db", [], bytes "secret", bytes "shop", []⟩ ⟨[], [], []⟩ []).1
    (Or.inl (by decide)) rfl

/-- **C120**, with the variables of PostgreSQL set the path on the command line is ignored. -/
theorem C120_path_ignored (opens : Opened → Bool) (pg : Env) (es : EsEnv) (path path' : Str) (h1 : pg.host ≠ [])
    (h2 : pg.user ≠ []) (h3 : pg.dbName ≠ []) : getStore opens pg es path = getStore opens pg es path' := by
  rw [(C120_partial opens pg es path).1 h1 h2 h3, (C120_partial opens pg es path').1 h1 h2 h3]

example : getStore (fun _ => true) ⟨[], [], [], [], []⟩ ⟨[], [], []⟩ (bytes "data") = some (.levelDB (bytes "data")) :=
  (C120_partial _ _ _ _).2.2 rfl rfl (by decide)

end RangeDB.Cfg

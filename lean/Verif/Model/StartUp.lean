import Verif.Model.Config

/-!
# Model: which store the rangedb command opens (cmd/rangedb/main.go:163-201)
-/

namespace RangeDB.Cfg

/-- The environment variables `ESDB_IP_ADDR`, `ESDB_USERNAME` and `ESDB_PASSWORD`; an unset variable is empty. -/
structure EsEnv where
  ip : Str
  user : Str
  password : Str

/-- `NewConfigFromEnvironment` (provider/eventstore/eventstore.go:60-74). -/
def esFromEnv (e : EsEnv) : Option EsEnv :=
  if e.ip = [] ∨ e.user = [] ∨ e.password = [] then none else some e

/-- A store with what it was opened with. -/
inductive Opened where
  | postgres (c : Config)
  | eventStoreDB (c : EsEnv)
  | levelDB (path : Str)
  | memory

/-- `getStore` (main.go:163-201). `opens`: can the store be opened? If not, `log.Fatal` ends the process (`none`). -/
def getStore (opens : Opened → Bool) (pg : Env) (es : EsEnv) (path : Str) : Option Opened :=
  match fromEnv pg with
  | some c => if opens (.postgres c) then some (.postgres c) else none
  | none =>
    match esFromEnv es with
    | some c => if opens (.eventStoreDB c) then some (.eventStoreDB c) else none
    | none =>
      if path ≠ [] then if opens (.levelDB path) then some (.levelDB path) else none
      else some .memory

end RangeDB.Cfg

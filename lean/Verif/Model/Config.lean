import Verif.Model.Decimal
import Verif.Model.Text

/-!
# Model: configuration texts

`Config.DataSourceName` and `NewConfigFromEnvironment` of `provider/postgresstore/config.go`, with the parser of
`github.com/lib/pq` (`parseOpts` in conn.go, as its source is known) that reads the text; and the directory for
snapshots of `cmd/rangedb/main.go`. White space is that of ASCII (`unicode.IsSpace` knows more).
-/

namespace RangeDB.Cfg

/-! ## The data source name -/

/-- `Config` (config.go:9-16). -/
structure Config where
  host : Str
  port : Nat
  user : Str
  password : Str
  dbName : Str
  searchPath : Str
deriving DecidableEq, Repr

/-- "host" -/
def kHost : Str := [104, 111, 115, 116]
/-- "port" -/
def kPort : Str := [112, 111, 114, 116]
/-- "user" -/
def kUser : Str := [117, 115, 101, 114]
/-- "password" -/
def kPassword : Str := [112, 97, 115, 115, 119, 111, 114, 100]
/-- "dbname" -/
def kDbname : Str := [100, 98, 110, 97, 109, 101]
/-- "sslmode" -/
def kSslmode : Str := [115, 115, 108, 109, 111, 100, 101]
/-- "disable" -/
def kDisable : Str := [100, 105, 115, 97, 98, 108, 101]
/-- "search_path" -/
def kSearchPath : Str := [115, 101, 97, 114, 99, 104, 95, 112, 97, 116, 104]

/-- `DataSourceName` (19-27): values are put into the text as they are. -/
def Config.dsn (c : Config) : Str :=
  kHost ++ [61] ++ c.host ++ [32] ++ kPort ++ [61] ++ Dec.natText c.port ++ [32] ++ kUser ++ [61] ++ c.user ++
  [32] ++ kPassword ++ [61] ++ c.password ++ [32] ++ kDbname ++ [61] ++ c.dbName ++ [32] ++ kSslmode ++ [61] ++
  kDisable ++ (if c.searchPath = [] then [] else [32] ++ kSearchPath ++ [61] ++ c.searchPath)

/-- The environment variables `PG_HOST`, `PG_USER`, `PG_PASSWORD`, `PG_DBNAME` and `PG_SEARCH_PATH`; an unset
variable is empty. -/
structure Env where
  host : Str
  user : Str
  password : Str
  dbName : Str
  searchPath : Str

/-- `NewConfigFromEnvironment` (30-49). -/
def fromEnv (e : Env) : Option Config :=
  if e.host = [] ∨ e.user = [] ∨ e.dbName = [] then none
  else some ⟨e.host, 5432, e.user, e.password, e.dbName, e.searchPath⟩

/-- `unicode.IsSpace` for ASCII. -/
def isSpace (c : Nat) : Bool := c == 32 || (decide (9 ≤ c) && decide (c ≤ 13))

/-- The value without quotes: up to white space; a backslash takes the next character as it is. `none`:
"missing character after backslash". -/
def scanBare : Str → Option (Str × Str)
  | [] => some ([], [])
  | 92 :: [] => none
  | 92 :: d :: cs => (scanBare cs).map (fun p => (d :: p.1, p.2))
  | c :: cs => if isSpace c then some ([], c :: cs) else (scanBare cs).map (fun p => (c :: p.1, p.2))

/-- The value in single quotes, from after the opening one. `none`: "unterminated quoted string". -/
def scanQuoted : Str → Option (Str × Str)
  | [] => none
  | 39 :: cs => some ([], cs)
  | 92 :: [] => none
  | 92 :: d :: cs => (scanQuoted cs).map (fun p => (d :: p.1, p.2))
  | c :: cs => (scanQuoted cs).map (fun p => (c :: p.1, p.2))

/-- `parseOpts`: keys and values in the order of the text; `none` is an error. The fuel bounds the number of
keys. -/
def parseLoop : Nat → Str → Option (List (Str × Str))
  | 0, _ => none
  | fuel + 1, s =>
    let s := s.dropWhile isSpace
    if s = [] then some []
    else
      let key := s.takeWhile (fun c => !isSpace c && c != 61)
      match (s.dropWhile (fun c => !isSpace c && c != 61)).dropWhile isSpace with
      | 61 :: rest =>
        match rest.dropWhile isSpace with
        | [] => some [(key, [])]
        | 39 :: body =>
          match scanQuoted body with
          | some (v, rest') => (parseLoop fuel rest').map (fun fs => (key, v) :: fs)
          | none => none
        | body =>
          match scanBare body with
          | some (v, rest') => (parseLoop fuel rest').map (fun fs => (key, v) :: fs)
          | none => none
      | _ => none

/-- What the driver connects with. -/
def parse (s : Str) : Option (List (Str × Str)) := parseLoop (s.length + 1) s

/-- The value of a key: the last one given counts; `none` if the key is not given. -/
def value (fs : List (Str × Str)) (k : Str) : Option Str := ((fs.reverse).find? (fun p => p.1 = k)).map (·.2)

/-! ## The directory for snapshots -/

/-- "snapshots" -/
def kSnapshots : Str := [115, 110, 97, 112, 115, 104, 111, 116, 115]

/-- `filepath.Clean` of an absolute path, on its elements: empty elements and `.` vanish, `..` removes the
element before it. -/
def clean (path : List Str) : List Str :=
  path.foldl (fun acc e => if e = [] ∨ e = [46] then acc else if e = [46, 46] then acc.dropLast else acc ++ [e]) []

/-- `snapshotBasePath` (main.go:222-229): `filepath.Join(os.TempDir(), uniqueName, "snapshots")`, where the
name for a LevelDB store is the path as it was given on the command line (main.go:194). -/
def snapshotDir (tmp : List Str) (path : Str) : List Str := clean (tmp ++ Txt.split [47] path ++ [kSnapshots])

/-- The directory that the operating system opens for the path, in a process with working directory `cwd`. No
symbolic links. -/
def realDir (cwd : List Str) (path : Str) : List Str :=
  if path.head? = some 47 then clean (Txt.split [47] path) else clean (cwd ++ Txt.split [47] path)

end RangeDB.Cfg

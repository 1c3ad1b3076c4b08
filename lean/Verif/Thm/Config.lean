import Verif.Model.Config
import Verif.Proof.Decimal
import Verif.Proof.Text
import Verif.Thm.Constants

/-!
# Configuration texts: C101 and C102
-/

namespace RangeDB.Cfg

example : [kHost, kPort, kUser, kPassword, kDbname, kSslmode, kDisable, kSearchPath, kSnapshots] =
    ["host", "port", "user", "password", "dbname", "sslmode", "disable", "search_path", "snapshots"].map bytes := by
  decide

/-! ## C101: PostgreSQL -/

/-- The driver connects with the values of the configuration. -/
structure Connects (c : Config) (fs : List (Str × Str)) : Prop where
  host : value fs kHost = some c.host
  port : value fs kPort = some (Dec.natText c.port)
  user : value fs kUser = some c.user
  password : value fs kPassword = some c.password
  dbName : value fs kDbname = some c.dbName
  sslmode : value fs kSslmode = some kDisable
  searchPath : value fs kSearchPath = if c.searchPath = [] then none else some c.searchPath

/-- The full claim of **C101**: every configuration accepted from the environment is what the driver connects
with. -/
def C101_full : Prop := ∀ (e : Env) (c : Config), fromEnv e = some c → ∃ fs, parse c.dsn = some fs ∧ Connects c fs

/-- A value that stands for itself: not empty, no white space, no backslash, no quote at its start. -/
structure Plain (v : Str) : Prop where
  ne : v ≠ []
  space : ∀ c ∈ v, isSpace c = false
  backslash : 92 ∉ v
  quote : v.head? ≠ some 39

/-- A key: not empty, no white space, no equals sign. -/
structure IsKey (k : Str) : Prop where
  ne : k ≠ []
  space : ∀ c ∈ k, isSpace c = false
  eq : 61 ∉ k

theorem scanBare_plain (v rest : Str) (h1 : ∀ c ∈ v, isSpace c = false) (h2 : 92 ∉ v)
    (h3 : rest = [] ∨ ∃ t, rest = 32 :: t) : scanBare (v ++ rest) = some (v, rest) := by
  induction v with
  | nil =>
    rcases h3 with rfl | ⟨t, rfl⟩
    · rfl
    · simp [scanBare, isSpace]
  | cons c v ih =>
    have hc : isSpace c = false := h1 c (by simp)
    have hb : c ≠ 92 := fun e => h2 (by simp [e])
    have ih' := ih (fun d hd => h1 d (by simp [hd])) (fun e => h2 (by simp [e]))
    rw [List.cons_append, scanBare.eq_def]
    split
    · simp_all
    · simp_all
    · simp_all
    · rename_i c' cs _ _ he
      simp only [List.cons.injEq] at he
      obtain ⟨rfl, rfl⟩ := he
      rw [hc, ih']
      simp

theorem takeWhile_key {k rest : Str} (h : IsKey k) :
    (k ++ 61 :: rest).takeWhile (fun c => !isSpace c && c != 61) = k ∧
    (k ++ 61 :: rest).dropWhile (fun c => !isSpace c && c != 61) = 61 :: rest := by
  have hall : ∀ c ∈ k, (!isSpace c && c != 61) = true := by
    intro c hc
    have h1 := h.space c hc
    have h2 : c ≠ 61 := fun e => h.eq (e ▸ hc)
    simp [h1, h2]
  constructor
  · rw [List.takeWhile_append_of_pos hall]; simp
  · rw [List.dropWhile_append_of_pos hall]; simp

theorem dropWhile_gap (n : Nat) (v : Str) (hv : ∃ c cs, v = c :: cs ∧ isSpace c = false) :
    (List.replicate n 32 ++ v).dropWhile isSpace = v := by
  obtain ⟨c, cs, rfl, hc⟩ := hv
  induction n with
  | zero => simp [hc]
  | succ n ih => simpa [List.replicate_succ, isSpace] using ih

theorem plain_first {v : Str} (h : Plain v) : ∃ c cs, v = c :: cs ∧ isSpace c = false := by
  cases v with
  | nil => exact absurd rfl h.ne
  | cons c cs => exact ⟨c, cs, rfl, h.space c (by simp)⟩

/-- One key and value, with `g` spaces before the key and `gap` spaces after the equals sign. -/
theorem parse_field (n g gap : Nat) {k v rest : Str} (hk : IsKey k) (hv : Plain v)
    (hr : rest = [] ∨ ∃ t, rest = List.replicate 1 32 ++ t) :
    parseLoop (n + 1) (List.replicate g 32 ++ (k ++ 61 :: (List.replicate gap 32 ++ (v ++ rest)))) =
      (parseLoop n rest).map (fun fs => (k, v) :: fs) := by
  obtain ⟨kc, kcs, hkc⟩ := List.exists_cons_of_ne_nil hk.ne
  have hkf : ∃ c cs, k ++ 61 :: (List.replicate gap 32 ++ (v ++ rest)) = c :: cs ∧ isSpace c = false :=
    ⟨kc, kcs ++ 61 :: (List.replicate gap 32 ++ (v ++ rest)), by rw [hkc]; rfl, hk.space kc (by rw [hkc]; simp)⟩
  obtain ⟨vc, vcs, hvc, hvs⟩ := plain_first hv
  have hvf : ∃ c cs, v ++ rest = c :: cs ∧ isSpace c = false := ⟨vc, vcs ++ rest, by rw [hvc]; rfl, hvs⟩
  have hne : k ++ 61 :: (List.replicate gap 32 ++ (v ++ rest)) ≠ [] := by
    obtain ⟨c, cs, e, _⟩ := hkf
    rw [e]; simp
  obtain ⟨t1, t2⟩ := takeWhile_key (rest := List.replicate gap 32 ++ (v ++ rest)) hk
  simp only [parseLoop, dropWhile_gap g _ hkf, if_neg hne, t1, t2]
  have hd61 : (61 :: (List.replicate gap 32 ++ (v ++ rest))).dropWhile isSpace =
      61 :: (List.replicate gap 32 ++ (v ++ rest)) := by simp [isSpace]
  simp only [hd61, dropWhile_gap gap _ hvf]
  have hscan := scanBare_plain v rest hv.space hv.backslash hr
  have hq : vc ≠ 39 := by
    have := hv.quote
    rw [hvc] at this
    simpa using this
  rw [hvc, List.cons_append] at hscan ⊢
  split
  · rename_i e; simp at e
  · rename_i body e
    simp only [List.cons.injEq] at e
    exact absurd e.1 hq
  · rw [hscan]

theorem natText_plain (n : Nat) : Plain (Dec.natText n) := by
  have hd := Dec.natText_digits n
  rw [List.all_eq_true] at hd
  have hr : ∀ c ∈ Dec.natText n, 48 ≤ c ∧ c ≤ 57 := by
    intro c hc
    have := hd c hc
    simpa [Dec.isDigit] using this
  refine ⟨Dec.natText_ne n, ?_, ?_, ?_⟩
  · intro c hc
    have := hr c hc
    simp [isSpace]
    omega
  · intro hc
    have := hr 92 hc
    omega
  · obtain ⟨c, cs, e, h1, h2⟩ := Dec.natText_head n
    rw [e]
    simp
    omega

theorem key_ok (k : Str) (h : k ≠ [] ∧ (∀ c ∈ k, isSpace c = false) ∧ 61 ∉ k) : IsKey k := ⟨h.1, h.2.1, h.2.2⟩

theorem disable_plain : Plain kDisable := ⟨by decide, by decide, by decide, by decide⟩

theorem parse_end (n : Nat) : parseLoop (n + 1) [] = some [] := rfl

/-- The text of a configuration as the parser sees it, from the key `password` on. -/
theorem dsn_eq (c : Config) : c.dsn =
    List.replicate 0 32 ++ (kHost ++ 61 :: (List.replicate 0 32 ++ (c.host ++
    (List.replicate 1 32 ++ (kPort ++ 61 :: (List.replicate 0 32 ++ (Dec.natText c.port ++
    (List.replicate 1 32 ++ (kUser ++ 61 :: (List.replicate 0 32 ++ (c.user ++
    (List.replicate 1 32 ++ (kPassword ++ 61 :: (List.replicate 0 32 ++ (c.password ++
    (List.replicate 1 32 ++ (kDbname ++ 61 :: (List.replicate 0 32 ++ (c.dbName ++
    (List.replicate 1 32 ++ (kSslmode ++ 61 :: (List.replicate 0 32 ++ (kDisable ++
    (if c.searchPath = [] then [] else
      List.replicate 1 32 ++ (kSearchPath ++ 61 :: (List.replicate 0 32 ++ (c.searchPath ++ []))))))))))))))))))))))))))) := by
  unfold Config.dsn
  generalize kHost = k1
  generalize kPort = k2
  generalize kUser = k3
  generalize kPassword = k4
  generalize kDbname = k5
  generalize kSslmode = k6
  generalize kSearchPath = k7
  generalize kDisable = k8
  generalize Dec.natText c.port = k9
  by_cases hs : c.searchPath = []
  · rw [if_pos hs, if_pos hs]
    simp only [List.replicate_zero, List.replicate_one, List.append_assoc, List.nil_append, List.cons_append]
  · rw [if_neg hs, if_neg hs]
    simp only [List.replicate_zero, List.replicate_one, List.append_assoc, List.nil_append, List.cons_append,
      List.append_nil]

/-- The fields that follow `dbname`. -/
def tailFields (c : Config) : List (Str × Str) :=
  (kSslmode, kDisable) :: (if c.searchPath = [] then [] else [(kSearchPath, c.searchPath)])

theorem parse_tail (n : Nat) (c : Config) (hp : c.searchPath = [] ∨ Plain c.searchPath) :
    parseLoop (n + 3) (List.replicate 1 32 ++ (kSslmode ++ 61 :: (List.replicate 0 32 ++ (kDisable ++
      (if c.searchPath = [] then [] else
        List.replicate 1 32 ++ (kSearchPath ++ 61 :: (List.replicate 0 32 ++ (c.searchPath ++ [])))))))) =
      some (tailFields c) := by
  rw [parse_field (n + 2) 1 0 (key_ok kSslmode (by decide)) disable_plain]
  · rcases hp with h | h
    · rw [if_pos h, parse_end]
      simp [tailFields, h]
    · rw [if_neg h.ne, parse_field (n + 1) 1 0 (key_ok kSearchPath (by decide)) h (Or.inl rfl), parse_end]
      simp [tailFields, h.ne]
  · split
    · exact Or.inl rfl
    · exact Or.inr ⟨_, rfl⟩

theorem dsn_length (c : Config) : 20 < c.dsn.length := by
  have h1 : kSslmode.length = 7 := rfl
  have h2 : kDisable.length = 7 := rfl
  have h3 : kPassword.length = 8 := rfl
  unfold Config.dsn
  revert h1 h2 h3
  generalize kHost = k1
  generalize kPort = k2
  generalize kUser = k3
  generalize kPassword = k4
  generalize kDbname = k5
  generalize kSslmode = k6
  generalize kSearchPath = k7
  generalize kDisable = k8
  generalize Dec.natText c.port = k9
  intro h1 h2 h3
  simp only [List.length_append]
  omega

/-- **C101 (partial).** The driver connects with exactly the values of the configuration, if host, user, password
and database name are plain texts and the search path is empty or plain. Missing: other values
(`C101_no_password`, `C101_false`). -/
theorem C101_partial (c : Config) (h1 : Plain c.host) (h2 : Plain c.user) (h3 : Plain c.password)
    (h4 : Plain c.dbName) (h5 : c.searchPath = [] ∨ Plain c.searchPath) :
    ∃ fs, parse c.dsn = some fs ∧ Connects c fs := by
  obtain ⟨n, hn⟩ : ∃ n, c.dsn.length + 1 = n + 8 := ⟨c.dsn.length - 7, by have := dsn_length c; omega⟩
  refine ⟨[(kHost, c.host), (kPort, Dec.natText c.port), (kUser, c.user), (kPassword, c.password),
    (kDbname, c.dbName)] ++ tailFields c, ?_, ?_⟩
  · unfold parse
    rw [hn, dsn_eq]
    rw [parse_field (n + 7) 0 0 (key_ok kHost (by decide)) h1 (Or.inr ⟨_, rfl⟩)]
    rw [parse_field (n + 6) 1 0 (key_ok kPort (by decide)) (natText_plain _) (Or.inr ⟨_, rfl⟩)]
    rw [parse_field (n + 5) 1 0 (key_ok kUser (by decide)) h2 (Or.inr ⟨_, rfl⟩)]
    rw [parse_field (n + 4) 1 0 (key_ok kPassword (by decide)) h3 (Or.inr ⟨_, rfl⟩)]
    rw [parse_field (n + 3) 1 0 (key_ok kDbname (by decide)) h4 (Or.inr ⟨_, rfl⟩)]
    rw [parse_tail n c h5]
    rfl
  · by_cases hs : c.searchPath = []
    · refine ⟨?_, ?_, ?_, ?_, ?_, ?_, ?_⟩ <;>
        simp [value, tailFields, hs, kHost, kPort, kUser, kPassword, kDbname, kSslmode, kSearchPath]
    · refine ⟨?_, ?_, ?_, ?_, ?_, ?_, ?_⟩ <;>
        simp [value, tailFields, hs, kHost, kPort, kUser, kPassword, kDbname, kSslmode, kSearchPath]

/-- A usual configuration: the hypotheses are met. -/
def usual : Config := ⟨bytes "db.local", 5432, bytes "rangedb", bytes "s3cret'", bytes "events", []⟩

example : Plain usual.host ∧ Plain usual.user ∧ Plain usual.password ∧ Plain usual.dbName :=
  ⟨⟨by decide, by decide, by decide, by decide⟩, ⟨by decide, by decide, by decide, by decide⟩,
   ⟨by decide, by decide, by decide, by decide⟩, ⟨by decide, by decide, by decide, by decide⟩⟩

/-- **C101, environment.** Without host, user or database name there is no configuration; with values that stand
for themselves the driver connects with what the environment says, on port 5432. -/
theorem C101_environment (e : Env) :
    (e.host = [] ∨ e.user = [] ∨ e.dbName = [] → fromEnv e = none) ∧
    (Plain e.host → Plain e.user → Plain e.password → Plain e.dbName → e.searchPath = [] ∨ Plain e.searchPath →
      ∃ c fs, fromEnv e = some c ∧ parse c.dsn = some fs ∧ value fs kHost = some e.host ∧
        value fs kPort = some (bytes "5432") ∧ value fs kUser = some e.user ∧ value fs kPassword = some e.password ∧
        value fs kDbname = some e.dbName ∧
        value fs kSearchPath = if e.searchPath = [] then none else some e.searchPath) := by
  constructor
  · intro h
    simp only [fromEnv, if_pos h]
  · intro h1 h2 h3 h4 h5
    obtain ⟨fs, hp, hc⟩ := C101_partial ⟨e.host, 5432, e.user, e.password, e.dbName, e.searchPath⟩ h1 h2 h3 h4 h5
    refine ⟨_, fs, ?_, hp, hc.host, ?_, hc.user, hc.password, hc.dbName, hc.searchPath⟩
    · simp only [fromEnv]
      rw [if_neg]
      rintro (h | h | h)
      · exact h1.ne h
      · exact h2.ne h
      · exact h4.ne h
    · rw [hc.port]
      show some (Dec.natText 5432) = _
      decide

example : ∃ c fs, fromEnv ⟨bytes "db", bytes "me", bytes "x", bytes "shop", []⟩ = some c ∧ parse c.dsn = some fs ∧
    value fs kDbname = some (bytes "shop") := by
  obtain ⟨c, fs, h1, h2, _, _, _, _, h3, _⟩ := (C101_environment ⟨bytes "db", bytes "me", bytes "x", bytes "shop", []⟩).2
    ⟨by decide, by decide, by decide, by decide⟩ ⟨by decide, by decide, by decide, by decide⟩
    ⟨by decide, by decide, by decide, by decide⟩ ⟨by decide, by decide, by decide, by decide⟩ (.inl rfl)
  exact ⟨c, fs, h1, h2, h3⟩

/-- **C101, no password.** If the password is empty, which the environment may leave it, then whatever the
other values are, the driver takes `dbname=` and the name of the database for the password, and no database is
named. -/
theorem C101_no_password (c : Config) (h1 : Plain c.host) (h2 : Plain c.user) (h3 : c.password = [])
    (h4 : Plain c.dbName) (h5 : c.searchPath = [] ∨ Plain c.searchPath) :
    ∃ fs, parse c.dsn = some fs ∧ value fs kPassword = some (kDbname ++ [61] ++ c.dbName) ∧
      value fs kDbname = none := by
  obtain ⟨n, hn⟩ : ∃ n, c.dsn.length + 1 = n + 8 := ⟨c.dsn.length - 7, by have := dsn_length c; omega⟩
  have hpl : Plain (kDbname ++ [61] ++ c.dbName) := by
    refine ⟨by simp, ?_, ?_, by simp [kDbname]⟩
    · intro d hd
      simp only [List.mem_append, List.mem_singleton] at hd
      rcases hd with (hd | rfl) | hd
      · revert d; decide
      · rfl
      · exact h4.space d hd
    · intro hd
      simp only [List.mem_append, List.mem_singleton] at hd
      rcases hd with (hd | hd) | hd
      · revert hd; decide
      · revert hd; decide
      · exact h4.backslash hd
  refine ⟨[(kHost, c.host), (kPort, Dec.natText c.port), (kUser, c.user),
    (kPassword, kDbname ++ [61] ++ c.dbName)] ++ tailFields c, ?_, ?_, ?_⟩
  · unfold parse
    rw [hn, dsn_eq, h3]
    rw [parse_field (n + 7) 0 0 (key_ok kHost (by decide)) h1 (Or.inr ⟨_, rfl⟩)]
    rw [parse_field (n + 6) 1 0 (key_ok kPort (by decide)) (natText_plain _) (Or.inr ⟨_, rfl⟩)]
    rw [parse_field (n + 5) 1 0 (key_ok kUser (by decide)) h2 (Or.inr ⟨_, rfl⟩)]
    have hre : ∀ rest : Str, List.replicate 1 32 ++ (kPassword ++ 61 :: (List.replicate 0 32 ++ (([] : Str) ++
        (List.replicate 1 32 ++ (kDbname ++ 61 :: (List.replicate 0 32 ++ (c.dbName ++ rest))))))) =
        List.replicate 1 32 ++ (kPassword ++ 61 :: (List.replicate 1 32 ++ ((kDbname ++ [61] ++ c.dbName) ++ rest))) := by
      intro rest
      simp [List.replicate]
    rw [hre, parse_field (n + 4) 1 1 (key_ok kPassword (by decide)) hpl (Or.inr ⟨_, rfl⟩)]
    rw [show n + 4 = (n + 1) + 3 from rfl, parse_tail (n + 1) c h5]
    rfl
  · by_cases hs : c.searchPath = [] <;>
      simp [value, tailFields, hs, kHost, kPort, kUser, kPassword, kDbname, kSslmode, kSearchPath]
  · by_cases hs : c.searchPath = [] <;>
      simp [value, tailFields, hs, kHost, kPort, kUser, kPassword, kDbname, kSslmode, kSearchPath]

/-- **C101 is false in full**: without a password the database is not the one that was configured. -/
theorem C101_false : ¬ C101_full := by
  intro h
  obtain ⟨fs, h1, h2⟩ := h ⟨bytes "db", bytes "me", [], bytes "shop", []⟩ _ rfl
  obtain ⟨gs, g1, g2, g3⟩ := C101_no_password ⟨bytes "db", 5432, bytes "me", [], bytes "shop", []⟩
    ⟨by decide, by decide, by decide, by decide⟩ ⟨by decide, by decide, by decide, by decide⟩ rfl
    ⟨by decide, by decide, by decide, by decide⟩ (Or.inl rfl)
  rw [h1] at g1
  simp only [Option.some.injEq] at g1
  subst g1
  rw [h2.dbName] at g3
  cases g3

/-- Other passwords that do not arrive: one with a space, whose second half is read as an option; one with
a backslash. -/
theorem C101_examples :
    parse ({ usual with password := bytes "a sslmode=require x=" } : Config).dsn ≠ none ∧
    (parse ({ usual with password := bytes "a user=root" } : Config).dsn).map (value · kUser) = some (some (bytes "root")) ∧
    parse ({ usual with password := bytes "a b" } : Config).dsn = none ∧
    (parse ({ usual with password := bytes "a\\b" } : Config).dsn).map (value · kPassword) = some (some (bytes "ab")) := by
  decide +kernel

/-! ## C102: snapshots of the command -/

/-- The full claim of **C102**: processes on one machine whose LevelDB directories differ keep their snapshots
in different directories. -/
def C102_full : Prop :=
  ∀ (tmp cwd1 cwd2 : List Str) (p1 p2 : Str), p1 ≠ [] → p2 ≠ [] →
    snapshotDir tmp p1 = snapshotDir tmp p2 → realDir cwd1 p1 = realDir cwd2 p2

/-- The elements of a path that name something. -/
def names (path : List Str) : List Str := path.filter (fun e => !decide (e = [] ∨ e = [46]))

theorem clean_foldl (path acc : List Str) (h : [46, 46] ∉ path) :
    path.foldl (fun acc e => if e = [] ∨ e = [46] then acc else if e = [46, 46] then acc.dropLast else acc ++ [e]) acc =
      acc ++ names path := by
  induction path generalizing acc with
  | nil => simp [names]
  | cons e path ih =>
    have he : e ≠ [46, 46] := fun e' => h (by simp [e'])
    have ih' := fun acc => ih acc (fun e' => h (by simp [e']))
    rw [List.foldl_cons]
    by_cases hd : e = [] ∨ e = [46]
    · rw [if_pos hd, ih']
      unfold names
      rw [List.filter_cons_of_neg (by simp [hd])]
    · rw [if_neg hd, if_neg he, ih']
      unfold names
      rw [List.filter_cons_of_pos (by simpa using hd), List.append_assoc]
      rfl

theorem clean_names (path : List Str) (h : [46, 46] ∉ path) : clean path = names path := by
  unfold clean
  rw [clean_foldl path [] h, List.nil_append]

/-- **C102 (partial).** Absolute paths without `..` have the same snapshot directory only if they are the same
directory. Missing: relative paths (`C102_false`). -/
theorem C102_partial (tmp cwd1 cwd2 : List Str) (p1 p2 : Str) (ht : [46, 46] ∉ tmp)
    (h1 : p1.head? = some 47) (h2 : p2.head? = some 47)
    (d1 : [46, 46] ∉ Txt.split [47] p1) (d2 : [46, 46] ∉ Txt.split [47] p2)
    (h : snapshotDir tmp p1 = snapshotDir tmp p2) : realDir cwd1 p1 = realDir cwd2 p2 := by
  have hs : kSnapshots ≠ [46, 46] := by decide
  have key : ∀ p : Str, [46, 46] ∉ Txt.split [47] p →
      snapshotDir tmp p = names tmp ++ names (Txt.split [47] p) ++ names [kSnapshots] := by
    intro p hp
    unfold snapshotDir
    rw [clean_names]
    · simp [names]
    · simp only [List.mem_append, List.mem_singleton, not_or]
      exact ⟨⟨ht, hp⟩, fun e => hs e.symm⟩
  rw [key p1 d1, key p2 d2, List.append_cancel_right_eq, List.append_cancel_left_eq] at h
  unfold realDir
  rw [if_pos h1, if_pos h2, clean_names _ d1, clean_names _ d2, h]

example : snapshotDir [bytes "tmp"] (bytes "/var//lib/a") = [bytes "tmp", bytes "var", bytes "lib", bytes "a", bytes "snapshots"] ∧
    [46, 46] ∉ Txt.split [47] (bytes "/var//lib/a") := by decide

/-- **C102 is false in full**: two servers started with `-levelDBPath data` in `/srv/a` and in `/srv/b` use
different databases and the same snapshots. -/
theorem C102_false : ¬ C102_full := by
  intro h
  have := h [bytes "tmp"] [bytes "srv", bytes "a"] [bytes "srv", bytes "b"] (bytes "data") (bytes "data")
    (by decide) (by decide) rfl
  revert this
  decide

/-- A path with `..` even leaves the directory for temporary files. -/
theorem C102_escape : snapshotDir [bytes "tmp"] (bytes "../data") = [bytes "data", bytes "snapshots"] := by decide

end RangeDB.Cfg

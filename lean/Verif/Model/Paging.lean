import Verif.Model.Text
import Verif.Model.Iterator

/-!
# Model: paging links and the web UI pages that use them

`pkg/paging/paging.go` and the handlers `aggregateType` and `stream` of `pkg/rangedbui/ui.go`, with the
parts of Go's `net/url` they rely on (as its source is known): links are texts, and following a link
means parsing that text again.
-/

namespace RangeDB.Pg

open Txt

/-! ## Percent encoding (net/url) -/

/-- Where a text is placed in a URL. -/
inductive Mode where
  | path
  | query
  | fragment
deriving DecidableEq

/-- Letters and digits. -/
def isAlnum (c : Nat) : Bool :=
  (48 ≤ c && c ≤ 57) || (65 ≤ c && c ≤ 90) || (97 ≤ c && c ≤ 122)

/-- `url.shouldEscape`. -/
def shouldEscape (m : Mode) (c : Nat) : Bool :=
  if isAlnum c then false
  else if c ∈ [45, 95, 46, 126] then false  -- - _ . ~
  else if c ∈ [36, 38, 43, 44, 47, 58, 59, 61, 63, 64] then  -- $ & + , / : ; = ? @
    match m with
    | .path => c = 63
    | .query => true
    | .fragment => false
  else if m = .fragment && c ∈ [33, 40, 41, 42] then false  -- ! ( ) *
  else true

/-- A hexadecimal digit, upper case. -/
def hex (n : Nat) : Nat := if n < 10 then 48 + n else 55 + n

/-- `url.unhex` together with `url.ishex`. -/
def unhex (c : Nat) : Option Nat :=
  if 48 ≤ c ∧ c ≤ 57 then some (c - 48)
  else if 97 ≤ c ∧ c ≤ 102 then some (c - 87)
  else if 65 ≤ c ∧ c ≤ 70 then some (c - 55)
  else none

/-- `url.escape`, one byte. -/
def escapeByte (m : Mode) (c : Nat) : Str :=
  if c = 32 ∧ m = .query then [43]
  else if shouldEscape m c then [37, hex (c / 16), hex (c % 16)] else [c]

/-- `url.escape`. -/
def escape (m : Mode) (s : Str) : Str := s.flatMap (escapeByte m)

/-- `url.unescape`; `none` is the error for a malformed `%` sequence. -/
def unescape (plus : Bool) : Str → Option Str
  | [] => some []
  | c :: rest =>
    if c = 37 then
      match rest with
      | a :: b :: rest' =>
        match unhex a, unhex b with
        | some x, some y => (unescape plus rest').map ((x * 16 + y) :: ·)
        | _, _ => none
      | _ => none
    else (unescape plus rest).map ((if plus && c = 43 then 32 else c) :: ·)

/-- `url.validEncoded`, one byte: `! $ & ' ( ) * + , ; = : @ [ ] %` are accepted as they are. -/
def validByte (m : Mode) (c : Nat) : Bool :=
  c ∈ [33, 36, 38, 39, 40, 41, 42, 43, 44, 59, 61, 58, 64, 91, 93, 37] || !shouldEscape m c

/-- `URL.EscapedPath` / `URL.EscapedFragment` of a URL whose path (fragment) was parsed from `raw` to
`decoded`: the raw text if it is a valid encoding, the default encoding otherwise. -/
def reEscape (m : Mode) (raw decoded : Str) : Str :=
  if raw.all (validByte m) then raw else escape m decoded

/-- The text before the first byte `c`, and what follows that byte (empty if there is none). -/
def cutAt (c : Nat) (s : Str) : Str × Str := (cut [c] s).getD (s, [])

/-- `url.Parse(base)`, then `u.RawQuery = query`, then `u.String()` (paging.go:87-102, 106-118), for a
`base` that starts with a single '/'. `none`: `url.Parse` returned an error; as `Links` ignores it, the
nil `*url.URL` is then dereferenced. -/
def withQuery (base query : Str) : Option Str :=
  if base.any (fun c => c < 32 || c = 127) then none
  else
    let (rest, frag) := cutAt 35 base
    let (path, _) := cutAt 63 rest
    match unescape false path, unescape false frag with
    | some p, some f =>
      some (reEscape .path path p ++ [63] ++ query ++
        (if f = [] then [] else 35 :: reEscape .fragment frag f))
    | _, _ => none

/-- `url.ParseQuery` and `Values.Get(key)`: the first value for the key, "" if there is none. Pairs that
contain ';' or a malformed escape are dropped. -/
def queryGet (query key : Str) : Str :=
  let vals := (split [38] query).filterMap fun piece =>
    if piece = [] ∨ 59 ∈ piece then none
    else
      let (k, v) := cutAt 61 piece
      match unescape true k, unescape true v with
      | some k, some v => if k = key then some v else none
      | _, _ => none
  vals.head?.getD []

/-! ## pkg/paging/paging.go -/

/-- `Pagination` (paging.go:17-21). -/
structure Pagination where
  itemsPerPage : Nat
  currentIndex : Nat
  previousIndices : List Nat
deriving DecidableEq, Repr

/-- `NewPagination` (paging.go:30-44): default 10, at most 1000. -/
def newPagination (itemsPerPage currentIndex : Nat) (previousIndices : List Nat) : Pagination :=
  let n := if itemsPerPage ≤ 0 then 10 else itemsPerPage
  let n := if n > 1000 then 1000 else n
  ⟨n, currentIndex, previousIndices⟩

/-- The loop over the pieces of the `previous` parameter (paging.go:63-71): stops at the first piece that
is not a number. -/
def parseIndices : List Str → List Nat
  | [] => []
  | t :: ts =>
    match Dec.parseUint t with
    | some n => n :: parseIndices ts
    | none => []

/-- `NewPaginationFromString` (paging.go:56-79). -/
def newPaginationFromString (itemsPerPage currentIndex previous : Str) : Pagination :=
  newPagination ((Dec.parseUint itemsPerPage).getD 10) ((Dec.parseUint currentIndex).getD 0)
    (parseIndices (split [44] previous))

/-- "itemsPerPage" -/
def kItems : Str := [105, 116, 101, 109, 115, 80, 101, 114, 80, 97, 103, 101]
/-- "previous" -/
def kPrevious : Str := [112, 114, 101, 118, 105, 111, 117, 115]
/-- "current" -/
def kCurrent : Str := [99, 117, 114, 114, 101, 110, 116]

/-- `NewPaginationFromQuery` (paging.go:47-53). -/
def newPaginationFromQuery (query : Str) : Pagination :=
  newPaginationFromString (queryGet query kItems) (queryGet query kCurrent) (queryGet query kPrevious)

/-- `fmt.Sprint` of a slice of numbers: "[1 2 3]". -/
def sprint (l : List Nat) : Str := [91] ++ join [32] (l.map Dec.natText) ++ [93]

/-- `strings.Fields` of a text whose only white space is the space. -/
def fields (s : Str) : List Str := (split [32] s).filter (· ≠ [])

/-- `strings.Trim(s, "[]")`. -/
def trimBrackets (s : Str) : Str :=
  (((s.dropWhile (fun c => c = 91 || c = 93)).reverse.dropWhile (fun c => c = 91 || c = 93))).reverse

/-- `previousCSV` (paging.go:94, 112). -/
def csv (l : List Nat) : Str := trimBrackets (join [44] (fields (sprint l)))

/-- `url.Values.Encode` of `itemsPerPage`, `previous` and `current` (paging.go:89-101, 108-117): the keys
come out sorted, values are escaped; an absent `previous` is left out. -/
def encodeQuery (itemsPerPage current : Nat) (previous : Option Str) : Str :=
  join [38] ([kCurrent ++ 61 :: escape .query (Dec.natText current),
    kItems ++ 61 :: escape .query (Dec.natText itemsPerPage)] ++
    match previous with
    | none => []
    | some p => [kPrevious ++ 61 :: escape .query p])

/-- `Links` (paging.go:24-27); an empty text is no link. -/
structure Links where
  previous : Str
  next : Str
deriving DecidableEq, Repr

/-- The Previous link (paging.go:86-103). -/
def previousLink (p : Pagination) (base : Str) : Option Str :=
  match p.previousIndices.getLast? with
  | none => some []
  | some cur =>
    let init := p.previousIndices.dropLast
    withQuery base (encodeQuery p.itemsPerPage cur (if init.length > 0 then some (csv init) else none))

/-- The Next link (paging.go:105-119). -/
def nextLink (p : Pagination) (base : Str) (nextIndex : Nat) : Option Str :=
  if nextIndex > p.currentIndex then
    withQuery base (encodeQuery p.itemsPerPage nextIndex (some (csv (p.previousIndices ++ [p.currentIndex]))))
  else some []

/-- `Pagination.Links` (paging.go:82-125). -/
def links (p : Pagination) (base : Str) (nextIndex : Nat) : Outcome Links :=
  match previousLink p base, nextLink p base nextIndex with
  | some a, some b => .ok ⟨a, b⟩
  | _, _ => .panic

/-! ## pkg/rangedbui/ui.go -/

/-- What a page shows: its records and its links. -/
structure Page where
  records : List (Option Record)
  links : Links
deriving DecidableEq, Repr

/-- `aggregateType` (ui.go:171-203) and `stream` (ui.go:211-252) after routing: `base` is
`"/a/" + aggregateTypeName` or `"/s/" + streamName`, `read` the store's `EventsByAggregateTypes` or
`EventsByStream` for that name, `idx` the global or stream sequence number. The record totals shown on
the page are not part of the model. A nil last record is dereferenced (ui.go:187, 227). -/
def servePage (base : Str) (read : Nat → Iter) (idx : Record → Nat) (query : Str) : Outcome Page :=
  let p := newPaginationFromQuery query
  let records := (readNRecords (p.itemsPerPage + 1) (read p.currentIndex).results id).1
  let answer (nextIndex : Nat) (shown : List (Option Record)) : Outcome Page :=
    match links p base nextIndex with
    | .ok l => .ok ⟨shown, l⟩
    | .err e => .err e
    | .panic => .panic
    | .blocked => .blocked
  if records.length > p.itemsPerPage then
    match records.getLast? with
    | some (some r) => answer (idx r) records.dropLast
    | _ => .panic
  else answer p.currentIndex records

/-- One of the two kinds of page: path prefix, the names its route accepts, the store read behind it. -/
structure Site where
  pre : Str
  accepts : Str → Bool
  read : Str → Nat → Iter
  idx : Record → Nat

/-- "/s/{streamName}" (ui.go:101): mux accepts one non-empty path segment; "." and ".." are cleaned away. -/
def streamSite (read : Str → Nat → Iter) : Site where
  pre := [47, 115, 47]
  accepts := fun n => n ≠ [] && !(47 ∈ n) && n ≠ [46] && n ≠ [46, 46]
  read := read
  idx := Record.seq

/-- "/a/{aggregateType:[a-zA-Z-]+}" (ui.go:99). -/
def typeSite (read : Str → Nat → Iter) : Site where
  pre := [47, 97, 47]
  accepts := fun n => n ≠ [] && n.all (fun c => (65 ≤ c && c ≤ 90) || (97 ≤ c && c ≤ 122) || c = 45)
  read := read
  idx := Record.gsn

/-- How the server reads a URL: the browser does not send the fragment; the path is decoded and must be
the prefix followed by an accepted name. `none`: not found. -/
def route (site : Site) (url : Str) : Option (Str × Str) :=
  let (target, _) := cutAt 35 url
  let (path, query) := cutAt 63 target
  match unescape false path with
  | none => none
  | some path =>
    if site.pre.isPrefixOf path && site.accepts (path.drop site.pre.length) then
      some (path.drop site.pre.length, query)
    else none

/-- A GET request for `url`. -/
def get (site : Site) (url : Str) : Option (Outcome Page) :=
  (route site url).map fun (name, query) =>
    servePage (site.pre ++ name) (site.read name) site.idx query

/-- Following Next links from `url`, at most `fuel` pages: what each page shows. -/
def followNext (site : Site) : Nat → Str → List (List (Option Record))
  | 0, _ => []
  | fuel + 1, url =>
    match get site url with
    | some (.ok page) =>
      page.records :: (if page.links.next = [] then [] else followNext site fuel page.links.next)
    | _ => []

end RangeDB.Pg

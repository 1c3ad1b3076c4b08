import Verif.Proof.Html
import Verif.Thm.Display
import Verif.Thm.Constants

/-!
# The HTML of the web pages: C113 and C114
-/

namespace RangeDB.Html

/-! ## What a page consists of

The fixed text of the templates, read by a browser, with the given texts in between. -/

/-- The state of the tokenizer in the title. -/
def inTitle : St := .raw (ascii "title") true

/-- A page with a title and a content. -/
def frame (title : Str) (content : List Token) : List Token :=
  tokens lHead ++ text title ++ (run inTitle lTop).2 ++ content ++ tokens lFoot ++ text version ++ tokens lEnd ++ tokens tail

/-- A record: seven cells with the two numbers, the event type, links to the aggregate type and to the stream, the date and
the data. -/
def recordTokens (json : Str → Str) (r : Record) : List Token :=
  .start (ascii "tr") [] :: indent ++
  cell [] (text (Dec.natText r.gsn)) ++ indent ++
  cell [] (text (Dec.natText r.seq)) ++ indent ++
  cell [] (text r.evType) ++ indent ++
  cell [] (link (ascii "/a/" ++ urlNorm r.aggType) (text r.aggType)) ++ indent ++
  cell [] (link (ascii "/s/" ++ urlNorm r.streamName) (text r.streamName)) ++ indent ++
  cell [(ascii "class", ascii "date")] (text (Ui.formatDate r.ts)) ++ indent ++
  cell [(ascii "class", ascii "event-data")] (text (json r.data)) ++
  text (ascii "\n        ") ++ [.close (ascii "tr")] ++ text (ascii "\n    ")

/-- One of the two entries of the pagination: a link, or the bare word if there is none. -/
def entry (cls label word : String) (url : Str) : List Token :=
  text (ascii "\n            ") ++
  (if url = [] then
    .start (ascii "li") [(ascii "class", ascii (cls ++ " disabled"))] :: text (ascii word) ++ [.close (ascii "li")]
  else
    .start (ascii "li") [(ascii "class", ascii cls)] ::
    .start (ascii "a") [(ascii "href", urlNorm (urlFilter url)), (ascii "aria-label", ascii label)] ::
    text (ascii word) ++ [.close (ascii "a"), .close (ascii "li")]) ++
  text (ascii "\n        ")

/-- The pagination. -/
def navTokens (l : Pg.Links) : List Token :=
  tokens lNav ++ entry "pagination-previous" "Previous Page" "Previous" l.previous ++ tokens lBetween ++
  entry "pagination-next" "Next page" "Next" l.next ++ tokens lNavEnd

/-- The table of records. -/
def tableTokens (json : Str → Str) (rs : List Record) : List Token :=
  tokens lTable ++ rs.flatMap (recordTokens json) ++ tokens lTableEnd

/-- A line of the list of aggregate types: a link and a number. -/
def typeTokens (name number : Str) : List Token :=
  text (ascii "\n                    ") ++ .start (ascii "tr") [] :: text (ascii "\n                        ") ++
  cell [] (link (ascii "/a/" ++ urlNorm name) (text name)) ++ text (ascii "\n                        ") ++
  cell [] (text number) ++
  text (ascii "\n                    ") ++ [.close (ascii "tr")] ++ text (ascii "\n                    ")

/-! ## The parts -/

/-- The end of the last attribute of a link. -/
theorem reads_close (n v : Str) (attrs : List (Str × Str)) :
    Reads (.dq ⟨false, ascii "a", attrs⟩ n v) [34, 62] .data [.start (ascii "a") (attrs ++ [(n, v)])] := by
  have h : inside (ascii "a") = .data := by decide +kernel
  constructor
  simp only [run, step, plainStep, space, finish, Tag.add]
  simp [h]

/-- A second attribute. -/
theorem reads_label (v : Str) : Reads (.dq ⟨false, ascii "a", []⟩ (ascii "href") v)
    [34, 32, 97, 114, 105, 97, 45, 108, 97, 98, 101, 108, 61, 34]
    (.dq ⟨false, ascii "a", [(ascii "href", v)]⟩ (ascii "aria-label") []) [] := by
  rw [show ascii "aria-label" = [97, 114, 105, 97, 45, 108, 97, 98, 101, 108] by decide +kernel]
  constructor
  simp [run, step, plainStep, space, Tag.add, lowerCase]

theorem reads_row (json : Str → Str) (r : Record) : Reads .data (row json r) .data (recordTokens json r) := by
  have e1 : Reads .data lRow .data (.start (ascii "tr") [] :: indent ++ [.start (ascii "td") []]) := by
    constructor; decide +kernel
  have e2 : Reads .data lSeq .data ([.close (ascii "td")] ++ indent ++ [.start (ascii "td") []]) := by
    constructor; decide +kernel
  have e3 : Reads .data lEvent .data ([.close (ascii "td")] ++ indent ++ [.start (ascii "td") []]) := by
    constructor; decide +kernel
  have e4 : Reads .data lType (.dq ⟨false, ascii "a", []⟩ (ascii "href") (ascii "/a/"))
      ([.close (ascii "td")] ++ indent ++ [.start (ascii "td") []]) := by
    constructor; decide +kernel
  have e5 : ∀ v, Reads (.dq ⟨false, ascii "a", []⟩ (ascii "href") v) lTypeText .data
      [.start (ascii "a") [(ascii "href", v)]] := fun v => reads_close _ v []
  have e6 : Reads .data lStream (.dq ⟨false, ascii "a", []⟩ (ascii "href") (ascii "/s/"))
      ([.close (ascii "a"), .close (ascii "td")] ++ indent ++ [.start (ascii "td") []]) := by
    constructor; decide +kernel
  have e7 : ∀ v, Reads (.dq ⟨false, ascii "a", []⟩ (ascii "href") v) lStreamText .data
      [.start (ascii "a") [(ascii "href", v)]] := fun v => reads_close _ v []
  have e8 : Reads .data lDate .data ([.close (ascii "a"), .close (ascii "td")] ++ indent ++
      [.start (ascii "td") [(ascii "class", ascii "date")]]) := by
    constructor; decide +kernel
  have e9 : Reads .data lData .data ([.close (ascii "td")] ++ indent ++
      [.start (ascii "td") [(ascii "class", ascii "event-data")]]) := by
    constructor; decide +kernel
  have e10 : Reads .data lRowEnd .data ([.close (ascii "td")] ++ text (ascii "\n        ") ++ [.close (ascii "tr")] ++
      text (ascii "\n    ")) := by
    constructor; decide +kernel
  have d4 := reads_dq ⟨false, ascii "a", []⟩ (ascii "href") (ascii "/a/") (urlNorm r.aggType)
  have d6 := reads_dq ⟨false, ascii "a", []⟩ (ascii "href") (ascii "/s/") (urlNorm r.streamName)
  rw [shown_urlNorm] at d4 d6
  have all := ((((((((((((((((e1.append (reads_data (Dec.natText r.gsn))).append e2).append
    (reads_data (Dec.natText r.seq))).append e3).append (reads_data r.evType)).append e4).append d4).append (e5 _)).append
    (reads_data r.aggType)).append e6).append d6).append (e7 _)).append (reads_data r.streamName)).append e8).append
    (reads_data (Ui.formatDate r.ts))).append e9).append (reads_data (json r.data)) |>.append e10
  unfold row
  refine all.to ?_
  unfold recordTokens cell link
  generalize ascii "td" = td, ascii "tr" = tr, ascii "a" = a, ascii "href" = href, ascii "/a/" = pa, ascii "/s/" = ps,
    ascii "class" = cl, ascii "date" = dt, ascii "event-data" = ed, ascii "\n        " = w1, ascii "\n    " = w2,
    indent = ind
  simp only [List.append_assoc, cons_app, nil_app]

theorem reads_table (json : Str → Str) (rs : List Record) : Reads .data (table json rs) .data (tableTokens json rs) := by
  refine Reads.append (Reads.append ?_ (reads_flatMap _ _ _ (fun r _ => reads_row json r))) ?_
  · exact reads_self (by decide +kernel)
  · exact reads_self (by decide +kernel)

theorem reads_previous (url : Str) :
    Reads .data (if url = [] then lNoPrev else lPrev ++ esc (urlNorm (urlFilter url)) ++ lPrevEnd) .data
      (entry "pagination-previous" "Previous Page" "Previous" url) := by
  unfold entry
  split
  · constructor; decide +kernel
  · have e1 : Reads .data lPrev (.dq ⟨false, ascii "a", []⟩ (ascii "href") [])
        (text (ascii "\n            ") ++ [.start (ascii "li") [(ascii "class", ascii "pagination-previous")]]) := by
      constructor; decide +kernel
    have d := reads_dq ⟨false, ascii "a", []⟩ (ascii "href") [] (urlNorm (urlFilter url))
    rw [shown_urlNorm, List.nil_append] at d
    have e2 : ∀ v, Reads (.dq ⟨false, ascii "a", []⟩ (ascii "href") v) lPrevEnd .data
        (.start (ascii "a") [(ascii "href", v), (ascii "aria-label", ascii "Previous Page")] ::
          text (ascii "Previous") ++ [.close (ascii "a"), .close (ascii "li")] ++ text (ascii "\n        ")) := by
      intro v
      have hs : lPrevEnd = [34, 32, 97, 114, 105, 97, 45, 108, 97, 98, 101, 108, 61, 34] ++ esc (ascii "Previous Page") ++ [34, 62] ++
          lPrevEnd.drop 29 := by decide +kernel
      have hl := reads_dq ⟨false, ascii "a", [(ascii "href", v)]⟩ (ascii "aria-label") [] (ascii "Previous Page")
      rw [show shown (ascii "Previous Page") = ascii "Previous Page" by decide +kernel, List.nil_append] at hl
      have hr : Reads .data (lPrevEnd.drop 29) .data (text (ascii "Previous") ++ [.close (ascii "a"), .close (ascii "li")] ++
          text (ascii "\n        ")) := by constructor; decide +kernel
      rw [hs]
      refine ((((reads_label v).append hl).append (reads_close _ _ _)).append hr).to ?_
      simp only [List.append_assoc, cons_app, nil_app]
    have all := (e1.append d).append (e2 _)
    refine all.to ?_
    simp only [List.append_assoc, cons_app, nil_app]

theorem reads_next (url : Str) :
    Reads .data (if url = [] then lNoNext else lNext ++ esc (urlNorm (urlFilter url)) ++ lNextEnd) .data
      (entry "pagination-next" "Next page" "Next" url) := by
  unfold entry
  split
  · constructor; decide +kernel
  · have e1 : Reads .data lNext (.dq ⟨false, ascii "a", []⟩ (ascii "href") [])
        (text (ascii "\n            ") ++ [.start (ascii "li") [(ascii "class", ascii "pagination-next")]]) := by
      constructor; decide +kernel
    have d := reads_dq ⟨false, ascii "a", []⟩ (ascii "href") [] (urlNorm (urlFilter url))
    rw [shown_urlNorm, List.nil_append] at d
    have e2 : ∀ v, Reads (.dq ⟨false, ascii "a", []⟩ (ascii "href") v) lNextEnd .data
        (.start (ascii "a") [(ascii "href", v), (ascii "aria-label", ascii "Next page")] ::
          text (ascii "Next") ++ [.close (ascii "a"), .close (ascii "li")] ++ text (ascii "\n        ")) := by
      intro v
      have hs : lNextEnd = [34, 32, 97, 114, 105, 97, 45, 108, 97, 98, 101, 108, 61, 34] ++ esc (ascii "Next page") ++ [34, 62] ++
          lNextEnd.drop 25 := by decide +kernel
      have hl := reads_dq ⟨false, ascii "a", [(ascii "href", v)]⟩ (ascii "aria-label") [] (ascii "Next page")
      rw [show shown (ascii "Next page") = ascii "Next page" by decide +kernel, List.nil_append] at hl
      have hr : Reads .data (lNextEnd.drop 25) .data (text (ascii "Next") ++ [.close (ascii "a"), .close (ascii "li")] ++
          text (ascii "\n        ")) := by constructor; decide +kernel
      rw [hs]
      refine ((((reads_label v).append hl).append (reads_close _ _ _)).append hr).to ?_
      simp only [List.append_assoc, cons_app, nil_app]
    have all := (e1.append d).append (e2 _)
    refine all.to ?_
    simp only [List.append_assoc, cons_app, nil_app]

theorem reads_pagination (l : Pg.Links) : Reads .data (pagination l) .data (navTokens l) := by
  refine ((((reads_self ?_).append (reads_previous l.previous)).append (reads_self ?_)).append (reads_next l.next)).append
    (reads_self ?_)
  all_goals decide +kernel

theorem reads_page (title content : Str) (o : List Token) (h : Reads .data content .data o) :
    Reads .data (page title content) .data (frame title o) := by
  have e1 : Reads .data lHead inTitle (tokens lHead) := reads_self (by decide +kernel)
  have e2 : Reads inTitle lTop .data (run inTitle lTop).2 := reads_self (by decide +kernel)
  have e3 : Reads .data lFoot .data (tokens lFoot) := reads_self (by decide +kernel)
  have e4 : Reads .data lEnd .data (tokens lEnd) := reads_self (by decide +kernel)
  have e5 : Reads .data tail .data (tokens tail) := reads_self (by decide +kernel)
  exact ((((((e1.append (reads_raw _ title)).append e2).append h).append e3).append (reads_data version)).append e4).append e5

theorem reads_typeRow (t : Str × Nat) (n : Str) :
    Reads .data (laRow ++ esc (urlNorm t.1) ++ laText ++ esc t.1 ++ laTotal ++ esc n ++ laRowEnd) .data
      (typeTokens t.1 n) := by
  have e1 : Reads .data laRow (.dq ⟨false, ascii "a", []⟩ (ascii "href") (ascii "/a/"))
      (text (ascii "\n                    ") ++ .start (ascii "tr") [] :: text (ascii "\n                        ") ++
        [.start (ascii "td") []]) := by constructor; decide +kernel
  have d := reads_dq ⟨false, ascii "a", []⟩ (ascii "href") (ascii "/a/") (urlNorm t.1)
  rw [shown_urlNorm] at d
  have e2 : ∀ v, Reads (.dq ⟨false, ascii "a", []⟩ (ascii "href") v) laText .data
      [.start (ascii "a") [(ascii "href", v)]] := fun v => reads_close _ v []
  have e3 : Reads .data laTotal .data ([.close (ascii "a"), .close (ascii "td")] ++
      text (ascii "\n                        ") ++ [.start (ascii "td") []]) := by constructor; decide +kernel
  have e4 : Reads .data laRowEnd .data ([.close (ascii "td")] ++ text (ascii "\n                    ") ++
      [.close (ascii "tr")] ++ text (ascii "\n                    ")) := by constructor; decide +kernel
  have all := (((((e1.append d).append (e2 _)).append (reads_data t.1)).append e3).append (reads_data n)).append e4
  refine all.to ?_
  simp only [typeTokens, cell, link, List.append_assoc, cons_app, nil_app]

/-! ## C113: what is stored appears on the pages as text, never as markup -/

/-- The page of a stream is read as the fixed text with the name of the stream, the total and the records in between,
whatever bytes the name, the records and the links consist of. -/
theorem C113_stream (json : Str → Str) (name : Str) (total : Nat) (rs : List Record) (links : Pg.Links) (p : Str)
    (hp : streamPage json name total rs links = some p) :
    ∃ n, Ui.formatUint64 total = some n ∧
      tokens p = frame name (tokens lsContent ++ text name ++ tokens lParen ++ text n ++ tokens lsMid ++
        tableTokens json rs ++ tokens lsGap ++ navTokens links ++ tokens lsEnd) := by
  unfold streamPage at hp
  rw [Option.map_eq_some_iff] at hp
  obtain ⟨n, hn, rfl⟩ := hp
  refine ⟨n, hn, (reads_page _ _ _ ?_).tokens⟩
  refine ((((((((reads_self ?_).append (reads_data name)).append (reads_self ?_)).append (reads_data n)).append
    (reads_self ?_)).append (reads_table json rs)).append (reads_self ?_)).append (reads_pagination links)).append
    (reads_self ?_)
  all_goals decide +kernel

/-- The same for the page of an aggregate type. -/
theorem C113_type (json : Str → Str) (name : Str) (total : Nat) (rs : List Record) (links : Pg.Links) (p : Str)
    (hp : typePage json name total rs links = some p) :
    ∃ n, Ui.formatUint64 total = some n ∧
      tokens p = frame name (tokens ltContent ++ text name ++ tokens lParen ++ text n ++ tokens ltMid ++
        .start (ascii "a") [(ascii "href", ascii "/a/" ++ urlNorm name ++ ascii "/live")] ::
        tokens (ltLive.drop 7) ++
        tableTokens json rs ++ tokens ltGap ++ navTokens links ++ tokens ltEnd) := by
  unfold typePage at hp
  rw [Option.map_eq_some_iff] at hp
  obtain ⟨n, hn, rfl⟩ := hp
  refine ⟨n, hn, (reads_page _ _ _ ?_).tokens⟩
  have d := reads_dq ⟨false, ascii "a", []⟩ (ascii "href") (ascii "/a/") (urlNorm name)
  rw [shown_urlNorm] at d
  have e2 : ∀ v, Reads (.dq ⟨false, ascii "a", []⟩ (ascii "href") v) ltLive .data
      (.start (ascii "a") [(ascii "href", v ++ ascii "/live")] ::
        tokens (ltLive.drop 7)) := by
    intro v
    have : Reads (.dq ⟨false, ascii "a", []⟩ (ascii "href") v) (ltLive.take 5)
        (.dq ⟨false, ascii "a", []⟩ (ascii "href") (v ++ ascii "/live")) [] := by
      have h5 : ltLive.take 5 = esc (ascii "/live") := by decide +kernel
      rw [h5]
      have := reads_dq ⟨false, ascii "a", []⟩ (ascii "href") v (ascii "/live")
      rwa [show shown (ascii "/live") = ascii "/live" by decide +kernel] at this
    have h6 : ∀ w, Reads (.dq ⟨false, ascii "a", []⟩ (ascii "href") w) (ltLive.drop 5) .data
        (.start (ascii "a") [(ascii "href", w)] :: tokens (ltLive.drop 7)) := by
      intro w
      have hs : ltLive.drop 5 = [34, 62] ++ ltLive.drop 7 := by decide +kernel
      rw [hs]
      exact (reads_close _ w []).append (reads_self (by decide +kernel))
    have := this.append (h6 _)
    rwa [List.take_append_drop] at this
  have all := ((((((((((reads_self (st := .data) (st' := .data) (a := ltContent) (by decide +kernel)).append
    (reads_data name)).append
    (reads_self (st' := .data) (a := lParen) (by decide +kernel))).append (reads_data n)).append
    (reads_self (st' := .dq ⟨false, ascii "a", []⟩ (ascii "href") (ascii "/a/")) (a := ltMid) (by decide +kernel))).append
    d).append (e2 _)).append
    (reads_table json rs)).append (reads_self (st' := .data) (a := ltGap) (by decide +kernel))).append
    (reads_pagination links)).append (reads_self (st' := .data) (a := ltEnd) (by decide +kernel))
  refine all.to ?_
  simp only [tokens, List.append_assoc, cons_app, nil_app]

/-- The same for the list of the aggregate types. -/
theorem C113_types (types : List (Str × Nat)) (total : Nat) (p : Str) (hp : typesPage types total = some p) :
    ∃ (n : Str) (numbers : List Str), Ui.formatUint64 total = some n ∧
      types.mapM (fun t => Ui.formatUint64 t.2) = some numbers ∧
      tokens p = frame typesTitle (tokens laContent ++ text n ++ tokens laMid ++
        (types.zip numbers).flatMap (fun t => typeTokens t.1.1 t.2) ++ tokens laEnd) := by
  have rows : ∀ (types : List (Str × Nat)) (rs : List Str), types.mapM typeRow = some rs →
      ∃ numbers : List Str, types.mapM (fun t => Ui.formatUint64 t.2) = some numbers ∧
        Reads .data rs.flatten .data ((types.zip numbers).flatMap (fun t => typeTokens t.1.1 t.2)) := by
    intro types
    induction types with
    | nil =>
      intro rs h
      obtain rfl := Option.some.inj h
      exact ⟨[], rfl, ⟨rfl⟩⟩
    | cons t ts ih =>
      intro rs h
      rw [List.mapM_cons] at h
      simp only [Option.pure_def, Option.bind_eq_bind, Option.bind_eq_some_iff, Option.some.injEq] at h
      obtain ⟨r, hr, rs', hrs, rfl⟩ := h
      obtain ⟨ns, hns, hreads⟩ := ih rs' hrs
      unfold typeRow at hr
      rw [Option.map_eq_some_iff] at hr
      obtain ⟨n, hn, rfl⟩ := hr
      refine ⟨n :: ns, ?_, ?_⟩
      · rw [List.mapM_cons, hn, hns]; rfl
      · rw [List.flatten_cons, List.zip_cons_cons, List.flatMap_cons]
        exact (reads_typeRow t n).append hreads
  unfold typesPage at hp
  split at hp
  · rename_i n rs hn hrs
    obtain rfl := Option.some.inj hp
    obtain ⟨ns, hns, hreads⟩ := rows types rs hrs
    refine ⟨n, ns, hn, hns, (reads_page _ _ _ ?_).tokens⟩
    refine ((((reads_self ?_).append (reads_data n)).append (reads_self ?_)).append hreads).append (reads_self ?_)
    all_goals decide +kernel
  · cases hp

/-- A record, and nothing but what is stored in it: its cells have the stored texts as their content. -/
theorem C113_record (json : Str → Str) (r : Record) : tokens (row json r) = recordTokens json r :=
  (reads_row json r).tokens

/-! ### No token of a page runs a program -/

theorem safe_frame (title : Str) (o : List Token) (h : AllSafe o) : AllSafe (frame title o) := by
  refine (((((((allSafe_of ?_).append (allSafe_text _)).append (allSafe_of ?_)).append h).append (allSafe_of ?_)).append
    (allSafe_text _)).append (allSafe_of ?_)).append (allSafe_of ?_)
  all_goals decide +kernel

theorem allSafe_cons {t : Token} {o : List Token} (ht : Safe t) (h : AllSafe o) : AllSafe (t :: o) := by
  intro x hx
  rcases List.mem_cons.mp hx with rfl | hx
  · exact ht
  · exact h x hx

theorem safe_start (name : String) (attrs : List (Str × Str)) (h : safeB (.start (ascii name) []) = true)
    (ha : ∀ a ∈ attrs, SafeAttr a) : Safe (.start (ascii name) attrs) := ⟨(safeB_spec h).1, ha⟩

theorem allSafe_nil : AllSafe [] := fun _ h => by cases h

theorem safe_close (name : Str) : AllSafe [.close name] := allSafe_cons trivial allSafe_nil

theorem safe_cell (attrs : List (Str × Str)) (o : List Token) (ha : attrs.all safeAttrB = true) (h : AllSafe o) :
    AllSafe (cell attrs o) :=
  (allSafe_cons (safe_start "td" attrs (by decide +kernel) fun a h => safeAttrB_spec (List.all_eq_true.mp ha a h)) h).append
    (allSafe_cons trivial allSafe_nil)

theorem safe_href {u : Str} (h : Local u) : SafeAttr (ascii "href", u) :=
  ⟨by dsimp only; decide +kernel, by dsimp only; decide +kernel, by dsimp only; decide +kernel, fun _ => Or.inl h⟩

theorem safe_link {u : Str} {o : List Token} (hu : Local u) (h : AllSafe o) : AllSafe (link u o) := by
  refine (allSafe_cons (safe_start "a" _ (by decide +kernel) ?_) h).append (allSafe_cons trivial allSafe_nil)
  intro a ha
  simp only [List.mem_singleton] at ha
  subst ha
  exact safe_href hu

theorem local_a (s : Str) : Local (ascii "/a/" ++ s) := by
  refine ⟨97 :: 47 :: s, ?_, by simp⟩
  rw [show ascii "/a/" = [47, 97, 47] by decide +kernel]
  rfl

theorem local_s (s : Str) : Local (ascii "/s/" ++ s) := by
  refine ⟨115 :: 47 :: s, ?_, by simp⟩
  rw [show ascii "/s/" = [47, 115, 47] by decide +kernel]
  rfl

theorem safe_record (json : Str → Str) (r : Record) : AllSafe (recordTokens json r) := by
  have hi : AllSafe indent := allSafe_text _
  exact ((((((((((((((((allSafe_cons (safe_start "tr" [] (by decide +kernel) (by simp)) hi).append
    (safe_cell [] _ rfl (allSafe_text _))).append hi).append
    (safe_cell [] _ rfl (allSafe_text _))).append hi).append
    (safe_cell [] _ rfl (allSafe_text _))).append hi).append
    (safe_cell [] _ rfl (safe_link (local_a _) (allSafe_text _)))).append hi).append
    (safe_cell [] _ rfl (safe_link (local_s _) (allSafe_text _)))).append hi).append
    (safe_cell _ _ (by decide +kernel) (allSafe_text _))).append hi).append
    (safe_cell _ _ (by decide +kernel) (allSafe_text _))).append (allSafe_text _)).append
    (safe_close _)).append (allSafe_text _)

theorem safe_table (json : Str → Str) (rs : List Record) : AllSafe (tableTokens json rs) := by
  refine ((allSafe_of ?_).append ?_).append (allSafe_of ?_)
  · decide +kernel
  · intro t ht
    obtain ⟨r, _, h⟩ := List.mem_flatMap.mp ht
    exact safe_record json r t h
  · decide +kernel

theorem safe_entry (cls label word : String) (url : Str) (h : url = [] ∨ Local url) :
    AllSafe (entry cls label word url) := by
  have plain : ∀ n : String, n = "class" ∨ n = "aria-label" → ∀ v, SafeAttr (ascii n, v) := by
    rintro n hn v
    have : n = "class" ∨ n = "aria-label" := hn
    rcases this with rfl | rfl
    · exact ⟨by dsimp only; decide +kernel, by dsimp only; decide +kernel, by dsimp only; decide +kernel,
        fun h => absurd h (by dsimp only; decide +kernel)⟩
    · exact ⟨by dsimp only; decide +kernel, by dsimp only; decide +kernel, by dsimp only; decide +kernel,
        fun h => absurd h (by dsimp only; decide +kernel)⟩
  unfold entry
  refine ((allSafe_text _).append ?_).append (allSafe_text _)
  split
  · refine (allSafe_cons (safe_start "li" _ (by decide +kernel) ?_) (allSafe_text _)).append
      (allSafe_cons trivial allSafe_nil)
    intro a ha
    simp only [List.mem_singleton] at ha
    subst ha
    exact plain "class" (Or.inl rfl) _
  · rename_i hne
    have hl : Local url := h.resolve_left hne
    refine (allSafe_cons (safe_start "li" _ (by decide +kernel) ?_) (allSafe_cons (safe_start "a" _ (by decide +kernel) ?_)
      (allSafe_text _))).append (allSafe_cons trivial (allSafe_cons trivial allSafe_nil))
    · intro a ha
      simp only [List.mem_singleton] at ha
      subst ha
      exact plain "class" (Or.inl rfl) _
    · intro a ha
      simp only [List.mem_cons, List.not_mem_nil, or_false] at ha
      rcases ha with rfl | rfl
      · rw [urlFilter_local hl]
        exact safe_href (urlNorm_local hl)
      · exact plain "aria-label" (Or.inr rfl) _

theorem safe_nav (l : Pg.Links) (hp : l.previous = [] ∨ Local l.previous) (hn : l.next = [] ∨ Local l.next) :
    AllSafe (navTokens l) := by
  refine ((((allSafe_of ?_).append (safe_entry _ _ _ _ hp)).append (allSafe_of ?_)).append (safe_entry _ _ _ _ hn)).append
    (allSafe_of ?_)
  all_goals decide +kernel

/-- The links below the table, as `Pagination.Links` computes them, are local. -/
theorem links_local (d : Nat) (hd : d = 115 ∨ d = 97) (q : Pg.Pagination) (name : Str) (next : Nat) (l : Pg.Links)
    (h : Pg.links q (47 :: d :: 47 :: name) next = .ok l) :
    (l.previous = [] ∨ Local l.previous) ∧ (l.next = [] ∨ Local l.next) := by
  have loc : ∀ query u, Pg.withQuery (47 :: d :: 47 :: name) query = some u → Local u := by
    intro query u hu
    obtain ⟨rest, rfl⟩ := withQuery_local hd hu
    exact ⟨d :: rest, rfl, by simp; omega⟩
  unfold Pg.links at h
  split at h
  · rename_i a b ha hb
    obtain rfl : ⟨a, b⟩ = l := by injection h
    constructor
    · unfold Pg.previousLink at ha
      split at ha
      · exact Or.inl (Option.some.inj ha).symm
      · exact Or.inr (loc _ _ ha)
    · unfold Pg.nextLink at hb
      split at hb
      · exact Or.inr (loc _ _ hb)
      · exact Or.inl (Option.some.inj hb).symm
  · cases h

/-- What the server answers for a page has the links of a page. -/
theorem served_links (base : Str) (read : Nat → Iter) (idx : Record → Nat) (query : Str) (pg : Pg.Page)
    (h : Pg.servePage base read idx query = .ok pg) : ∃ q n, Pg.links q base n = .ok pg.links := by
  unfold Pg.servePage at h
  simp only at h
  split at h
  · split at h
    · split at h
      · rename_i hl
        obtain rfl : _ = pg := by injection h
        exact ⟨_, _, hl⟩
      all_goals cases h
    · cases h
  · split at h
    · rename_i hl
      obtain rfl : _ = pg := by injection h
      exact ⟨_, _, hl⟩
    all_goals cases h

/-- **C113.** Whatever is stored under whatever names, and whatever URL is requested: the pages of a stream, of an
aggregate type and of the aggregate types run no program and load nothing from elsewhere. -/
theorem C113 (json : Str → Str) :
    (∀ read url name query pg total rs p,
      Pg.route (Pg.streamSite read) url = some (name, query) → Pg.get (Pg.streamSite read) url = some (.ok pg) →
      streamPage json name total rs pg.links = some p → ∀ t ∈ tokens p, Safe t) ∧
    (∀ read url name query pg total rs p,
      Pg.route (Pg.typeSite read) url = some (name, query) → Pg.get (Pg.typeSite read) url = some (.ok pg) →
      typePage json name total rs pg.links = some p → ∀ t ∈ tokens p, Safe t) ∧
    (∀ types total p, typesPage types total = some p → ∀ t ∈ tokens p, Safe t) := by
  refine ⟨?_, ?_, ?_⟩
  · intro read url name query pg total rs p hr hg hp
    obtain ⟨n, _, ht⟩ := C113_stream json name total rs pg.links p hp
    rw [ht]
    unfold Pg.get at hg
    rw [hr] at hg
    obtain ⟨q, k, hl⟩ := served_links _ _ _ _ _ (Option.some.inj hg)
    have hl := links_local 115 (Or.inl rfl) q name k pg.links hl
    apply safe_frame
    refine ((((((((allSafe_of ?_).append (allSafe_text _)).append (allSafe_of ?_)).append (allSafe_text _)).append
      (allSafe_of ?_)).append (safe_table _ _)).append (allSafe_of ?_)).append (safe_nav _ hl.1 hl.2)).append (allSafe_of ?_)
    all_goals decide +kernel
  · intro read url name query pg total rs p hr hg hp
    obtain ⟨n, _, ht⟩ := C113_type json name total rs pg.links p hp
    rw [ht]
    unfold Pg.get at hg
    rw [hr] at hg
    obtain ⟨q, k, hl⟩ := served_links _ _ _ _ _ (Option.some.inj hg)
    have hl := links_local 97 (Or.inr rfl) q name k pg.links hl
    apply safe_frame
    have hlive : AllSafe (.start (ascii "a") [(ascii "href", ascii "/a/" ++ urlNorm name ++ ascii "/live")] ::
        tokens (ltLive.drop 7)) := by
      refine allSafe_cons (safe_start "a" _ (by decide +kernel) ?_) (allSafe_of (by decide +kernel))
      intro a ha
      simp only [List.mem_singleton] at ha
      subst ha
      rw [List.append_assoc]
      exact safe_href (local_a _)
    have pre : AllSafe (tokens ltContent ++ text name ++ tokens lParen ++ text n ++ tokens ltMid) := by
      refine ((((allSafe_of ?_).append (allSafe_text _)).append (allSafe_of ?_)).append (allSafe_text _)).append
        (allSafe_of ?_)
      all_goals decide +kernel
    have := ((((pre.append hlive).append (safe_table json rs)).append (allSafe_of (o := tokens ltGap) (by decide +kernel))).append
      (safe_nav _ hl.1 hl.2)).append (allSafe_of (o := tokens ltEnd) (by decide +kernel))
    exact this
  · intro types total p hp
    obtain ⟨n, ns, _, _, ht⟩ := C113_types types total p hp
    rw [ht]
    apply safe_frame
    refine ((((allSafe_of ?_).append (allSafe_text _)).append (allSafe_of ?_)).append ?_).append (allSafe_of ?_)
    · decide +kernel
    · decide +kernel
    · intro t ht
      obtain ⟨x, _, h⟩ := List.mem_flatMap.mp ht
      have all : AllSafe (typeTokens x.1.1 x.2) := ((((((((allSafe_text _).append (allSafe_cons (safe_start "tr" [] (by decide +kernel) (by simp))
        (allSafe_text _))).append (safe_cell [] _ rfl (safe_link (local_a _) (allSafe_text _)))).append
        (allSafe_text _)).append (safe_cell [] _ rfl (allSafe_text _))).append (allSafe_text _)).append
        (safe_close _)).append (allSafe_text _))
      exact all t h
    · decide +kernel

/-- The pages exist for every total that fits in 64 bits. -/
theorem C113_exists (json : Str → Str) (name : Str) (total : Nat) (h : total < 2 ^ 64) (rs : List Record) (links : Pg.Links) :
    (streamPage json name total rs links).isSome ∧ (typePage json name total rs links).isSome := by
  obtain ⟨n, hn⟩ := Option.isSome_iff_exists.mp (Ui.C108_no_panic total h)
  simp [streamPage, typePage, hn]

/-- A record whose texts are full of markup. -/
def hostile : Record :=
  { streamName := ascii "s!\"><script>alert(1)</script>", aggType := ascii "a'b\" onclick=\"alert(1)",
    aggId := ascii "1", gsn := 7, seq := 3, ts := 1600000000, eventId := [],
    evType := ascii "<img src=x onerror=alert(1)>", data := ascii "</td></tr><script>alert(1)</script>", metadata := [] }

/-- Its row has one opening `tr`, seven cells, two links and nothing else, although a browser reads a script in its data if
nothing is escaped. -/
example : ((tokens (row id hostile)).filterMap fun
      | .start n _ => some n
      | _ => none) =
      [ascii "tr", ascii "td", ascii "td", ascii "td", ascii "td", ascii "a", ascii "td", ascii "a", ascii "td", ascii "td"] ∧
    Token.start (ascii "script") [] ∈ tokens hostile.data ∧ ¬ Safe (.start (ascii "script") []) ∧
    Token.start (ascii "img") [(ascii "src", ascii "x"), (ascii "onerror", ascii "alert(1)")] ∈ tokens hostile.evType :=
  ⟨by decide +kernel, by decide +kernel, fun h => h.1 (by simp), by decide +kernel⟩

/-- A store with five such records in every stream. -/
def five (_ : Str) (start : Nat) : Iter :=
  ⟨((List.range 5).filter (start ≤ ·)).map fun i => { hostile with seq := i }, none⟩

/-- C113 is about pages that are served: the second of three pages of a stream with a name full of markup has two links and
is rendered. -/
example : (match Pg.get (Pg.streamSite five) (ascii "/s/%3Cscript%3E?current=2&itemsPerPage=2&previous=0") with
      | some (.ok pg) => decide (
        pg.records.length = 2 ∧ pg.links.previous = ascii "/s/%3Cscript%3E?current=0&itemsPerPage=2" ∧
        pg.links.next = ascii "/s/%3Cscript%3E?current=4&itemsPerPage=2&previous=0%2C2" ∧
        (streamPage id (ascii "<script>") 5 (pg.records.filterMap id) pg.links).isSome)
      | _ => false) = true ∧
    Pg.route (Pg.streamSite five) (ascii "/s/%3Cscript%3E?current=2&itemsPerPage=2&previous=0") =
      some (ascii "<script>", ascii "current=2&itemsPerPage=2&previous=0") := by
  decide +kernel

/-- A type whose name ends the attribute is escaped in the list of the types, too. -/
example : (typesPage [(ascii "x\"><script>", 3)] 3).isSome ∧
    Token.start (ascii "a") [(ascii "href", ascii "/a/x%22%3e%3cscript%3e")] ∈
      ((typesPage [(ascii "x\"><script>", 3)] 3).map tokens).getD [] := by
  decide +kernel

/-! ## C114: the link of a stream leads to its page -/

/-- **C114.** The link that is shown for a stream leads to the page of that stream. -/
def C114_full : Prop :=
  ∀ (read : Str → Nat → Iter) (name : Str), name ≠ [] → (∀ c ∈ name, c < 256) →
    Pg.route (Pg.streamSite read) (ascii "/s/" ++ urlNorm name) = some (name, [])

theorem unescape_prefix (d : Nat) (hd : d ≠ 37) (s : Str) :
    Pg.unescape false (47 :: d :: 47 :: s) = (Pg.unescape false s).map (fun t => 47 :: d :: 47 :: t) := by
  rw [unescape_other 47 _ (by decide), unescape_other d _ hd, unescape_other 47 _ (by decide)]
  cases Pg.unescape false s <;> rfl

theorem first_mark {name : Str} (h : 35 ∈ name ∨ 63 ∈ name) :
    ∃ p d q, name = p ++ d :: q ∧ (d = 35 ∨ d = 63) ∧ 35 ∉ p ∧ 63 ∉ p := by
  induction name with
  | nil => simp at h
  | cons c r ih =>
    by_cases hc : c = 35 ∨ c = 63
    · exact ⟨[], c, r, rfl, hc, by simp, by simp⟩
    · simp only [not_or] at hc
      have : 35 ∈ r ∨ 63 ∈ r := by
        rcases h with h | h
        · exact Or.inl ((List.mem_cons.mp h).resolve_left (fun e => hc.1 e.symm))
        · exact Or.inr ((List.mem_cons.mp h).resolve_left (fun e => hc.2 e.symm))
      obtain ⟨p, d, q, rfl, hd, h1, h2⟩ := ih this
      exact ⟨c :: p, d, q, rfl, hd, by simp [h1, Ne.symm hc.1], by simp [h2, Ne.symm hc.2]⟩

/-- The path of a link: what comes before the first '?' or '#'. -/
theorem route_path (k : Nat) (hk : k = 115 ∨ k = 97) (name : Str) :
    ∃ p, ((35 ∉ name ∧ 63 ∉ name ∧ p = name) ∨ ((35 ∈ name ∨ 63 ∈ name) ∧ p.length < name.length)) ∧
      (Pg.cutAt 63 (Pg.cutAt 35 (47 :: k :: 47 :: urlNorm name)).1).1 = 47 :: k :: 47 :: urlNorm p ∧
      (35 ∉ name ∧ 63 ∉ name → (Pg.cutAt 63 (Pg.cutAt 35 (47 :: k :: 47 :: urlNorm name)).1).2 = []) := by
  have pre : ∀ (c : Nat) (s : Str), (c = 35 ∨ c = 63) → c ∉ s → c ∉ 47 :: k :: 47 :: s := by
    intro c s hc h
    simp only [List.mem_cons, not_or]
    exact ⟨by omega, by omega, by omega, h⟩
  by_cases h : 35 ∈ name ∨ 63 ∈ name
  · obtain ⟨p, d, q, rfl, hd, h1, h2⟩ := first_mark h
    refine ⟨p, Or.inr ⟨h, by simp⟩, ?_, ?_⟩
    · have hx : isHex d = false := by rcases hd with rfl | rfl <;> decide
      have hk2 : urlNorm (d :: q) = d :: urlNorm q := by
        rw [urlNorm, if_pos (by rcases hd with rfl | rfl <;> simp [keeps])]
        rfl
      rw [urlNorm_append _ _ _ hx, hk2]
      have hp35 := pre 35 _ (Or.inl rfl) (urlNorm_free (Or.inl rfl) h1)
      have hp63 := pre 63 _ (Or.inr rfl) (urlNorm_free (Or.inr rfl) h2)
      rcases hd with rfl | rfl
      · have := Pg.cutAt_some (urlNorm q) hp35
        simp only [List.cons_append] at this
        rw [this, Pg.cutAt_none hp63]
      · by_cases hq : 35 ∈ urlNorm q
        · obtain ⟨a, b, hab, ha⟩ := List.eq_append_cons_of_mem hq
          have h35 : 35 ∉ 47 :: k :: 47 :: (urlNorm p ++ 63 :: a) := by
            simp only [List.mem_cons, List.mem_append, not_or] at hp35 ⊢
            exact ⟨hp35.1, hp35.2.1, hp35.2.2.1, hp35.2.2.2, by decide, ha⟩
          have := Pg.cutAt_some b h35
          simp only [List.cons_append, List.append_assoc] at this
          rw [hab, this]
          have := Pg.cutAt_some a hp63
          simp only [List.cons_append] at this
          rw [this]
        · have h35 : 35 ∉ 47 :: k :: 47 :: (urlNorm p ++ 63 :: urlNorm q) := by
            simp only [List.mem_cons, List.mem_append, not_or] at hp35 ⊢
            exact ⟨hp35.1, hp35.2.1, hp35.2.2.1, hp35.2.2.2, by decide, hq⟩
          rw [Pg.cutAt_none h35]
          have := Pg.cutAt_some (urlNorm q) hp63
          simp only [List.cons_append] at this
          rw [this]
    · rintro ⟨a, b⟩
      exact absurd h (by simp only [not_or]; exact ⟨a, b⟩)
  · simp only [not_or] at h
    refine ⟨name, Or.inl ⟨h.1, h.2, rfl⟩, ?_, ?_⟩
    all_goals
      rw [Pg.cutAt_none (pre 35 _ (Or.inl rfl) (urlNorm_free (Or.inl rfl) h.1)),
        Pg.cutAt_none (pre 63 _ (Or.inr rfl) (urlNorm_free (Or.inr rfl) h.2))]
    intro _
    rfl

/-- The link leads to the page exactly if the name has none of the characters that mean something in a URL. -/
theorem C114_partial (read : Str → Nat → Iter) (name : Str) (hb : ∀ c ∈ name, c < 256) :
    Pg.route (Pg.streamSite read) (ascii "/s/" ++ urlNorm name) = some (name, []) ↔
      (name ≠ [] ∧ name ≠ ascii "." ∧ name ≠ ascii ".." ∧
        47 ∉ name ∧ 63 ∉ name ∧ 35 ∉ name ∧ ¬ PercentPair name) := by
  rw [show ascii "." = [46] by decide +kernel, show ascii ".." = [46, 46] by decide +kernel]
  have hs : ascii "/s/" ++ urlNorm name = 47 :: 115 :: 47 :: urlNorm name := by
    rw [show ascii "/s/" = [47, 115, 47] by decide +kernel]; rfl
  obtain ⟨p, hp, hpath, hq⟩ := route_path 115 (Or.inl rfl) name
  rw [hs]
  have acc : ∀ t, (Pg.streamSite read).accepts t = true ↔ (t ≠ [] ∧ t ≠ [46] ∧ t ≠ [46, 46] ∧ 47 ∉ t) := by
    intro t
    simp only [Pg.streamSite, Bool.and_eq_true, decide_eq_true_eq, Bool.not_eq_true', decide_eq_false_iff_not]
    constructor
    · rintro ⟨⟨⟨a, b⟩, c⟩, d⟩; exact ⟨a, c, d, b⟩
    · rintro ⟨a, c, d, b⟩; exact ⟨⟨⟨a, b⟩, c⟩, d⟩
  have hr : Pg.route (Pg.streamSite read) (47 :: 115 :: 47 :: urlNorm name) =
      match Pg.unescape false (urlNorm p) with
      | none => none
      | some t => if (Pg.streamSite read).accepts t then
          some (t, (Pg.cutAt 63 (Pg.cutAt 35 (47 :: 115 :: 47 :: urlNorm name)).1).2) else none := by
    unfold Pg.route
    simp only [hpath]
    rw [unescape_prefix 115 (by decide)]
    cases Pg.unescape false (urlNorm p) with
    | none => rfl
    | some t => simp [Pg.streamSite]
  rw [hr]
  constructor
  · intro h
    split at h
    · cases h
    · rename_i t ht
      split at h
      · rename_i ha
        have hlen := unescape_urlNorm_length _ p t (Nat.le_refl _) ht
        have he := Option.some.inj h
        simp only [Prod.mk.injEq] at he
        obtain rfl : t = name := he.1
        have ha := (acc t).mp ha
        rcases hp with ⟨h1, h2, rfl⟩ | ⟨_, hlt⟩
        · refine ⟨ha.1, ha.2.1, ha.2.2.1, ha.2.2.2, h2, h1, ?_⟩
          intro hpp
          have := hlen.2 ((hasEscape_iff _).mpr hpp)
          omega
        · omega
      · cases h
  · rintro ⟨h1, h2, h3, h4, h5, h6, h7⟩
    rcases hp with ⟨_, _, rfl⟩ | ⟨h, _⟩
    · rw [unescape_urlNorm p hb (by
        cases he : hasEscape p with
        | false => rfl
        | true => exact absurd ((hasEscape_iff p).mp he) h7)]
      simp only
      rw [if_pos ((acc p).mpr ⟨h1, h2, h3, h4⟩), hq ⟨h6, h5⟩]
    · exact absurd h (by simp only [not_or]; exact ⟨h6, h5⟩)

/-- The full claim is false: the link of the stream "a?b" leads to the stream "a", that of "%41" to the stream "A", and
those of "a/b" and of "." lead nowhere. -/
theorem C114_false : ¬ C114_full := by
  intro h
  have := h (fun _ _ => ⟨[], none⟩) [97, 63, 98] (by decide) (by decide)
  rw [C114_partial _ _ (by decide)] at this
  exact this.2.2.2.2.1 (by decide)

example : Pg.route (Pg.streamSite five) (ascii "/s/" ++ urlNorm (ascii "a?b")) = some (ascii "a", ascii "b") ∧
    Pg.route (Pg.streamSite five) (ascii "/s/" ++ urlNorm (ascii "%41")) = some (ascii "A", []) ∧
    Pg.route (Pg.streamSite five) (ascii "/s/" ++ urlNorm (ascii "a/b")) = none ∧
    Pg.route (Pg.streamSite five) (ascii "/s/" ++ urlNorm (ascii ".")) = none := by
  decide +kernel

/-- Names with spaces, quotes, markup, lone percent signs and bytes of any characters are not affected. -/
example : Pg.route (Pg.streamSite five) (ascii "/s/" ++ urlNorm (ascii "100% \"<b>\" thing!1" ++ [195, 188])) =
    some (ascii "100% \"<b>\" thing!1" ++ [195, 188], []) := by
  decide +kernel

/-- The link of an aggregate type leads to the page of that type exactly if its name consists of letters and '-'. -/
theorem C114_types (read : Str → Nat → Iter) (name : Str) :
    Pg.route (Pg.typeSite read) (ascii "/a/" ++ urlNorm name) = some (name, []) ↔
      (name ≠ [] ∧ ∀ c ∈ name, (65 ≤ c ∧ c ≤ 90) ∨ (97 ≤ c ∧ c ≤ 122) ∨ c = 45) := by
  have hs : ascii "/a/" ++ urlNorm name = 47 :: 97 :: 47 :: urlNorm name := by
    rw [show ascii "/a/" = [47, 97, 47] by decide +kernel]; rfl
  have acc : ∀ t, (Pg.typeSite read).accepts t = true ↔
      (t ≠ [] ∧ ∀ c ∈ t, (65 ≤ c ∧ c ≤ 90) ∨ (97 ≤ c ∧ c ≤ 122) ∨ c = 45) := by
    intro t
    simp [Pg.typeSite, List.all_eq_true, or_assoc]
  obtain ⟨p, hp, hpath, hq⟩ := route_path 97 (Or.inr rfl) name
  rw [hs]
  have hr : Pg.route (Pg.typeSite read) (47 :: 97 :: 47 :: urlNorm name) =
      match Pg.unescape false (urlNorm p) with
      | none => none
      | some t => if (Pg.typeSite read).accepts t then
          some (t, (Pg.cutAt 63 (Pg.cutAt 35 (47 :: 97 :: 47 :: urlNorm name)).1).2) else none := by
    unfold Pg.route
    simp only [hpath]
    rw [unescape_prefix 97 (by decide)]
    cases Pg.unescape false (urlNorm p) with
    | none => rfl
    | some t => simp [Pg.typeSite]
  rw [hr]
  constructor
  · intro h
    split at h
    · cases h
    · rename_i t ht
      split at h
      · rename_i ha
        have he := Option.some.inj h
        simp only [Prod.mk.injEq] at he
        obtain rfl : t = name := he.1
        exact (acc t).mp ha
      · cases h
  · intro h
    have free : ∀ d, d = 35 ∨ d = 63 ∨ d = 37 → d ∉ name := by
      intro d hd hm
      have := h.2 d hm
      omega
    rcases hp with ⟨_, _, rfl⟩ | ⟨hx, _⟩
    · rw [unescape_urlNorm p (fun c hc => by have := h.2 c hc; omega) (by
        cases he : hasEscape p with
        | false => rfl
        | true =>
          obtain ⟨a, x, y, b, rfl, _, _⟩ := (hasEscape_iff p).mp he
          exact absurd (by simp) (free 37 (by simp)))]
      simp only
      rw [if_pos ((acc p).mpr h), hq ⟨free 35 (by simp), free 63 (by simp)⟩]
    · exact absurd hx (by simp only [not_or]; exact ⟨free 35 (by simp), free 63 (by simp)⟩)

example : Pg.route (Pg.typeSite five) (ascii "/a/" ++ urlNorm (ascii "Thing-A")) = some (ascii "Thing-A", []) ∧
    Pg.route (Pg.typeSite five) (ascii "/a/" ++ urlNorm (ascii "thing2")) = none := by
  decide +kernel

/-! ## The fixed texts, compared with the template files -/

set_option maxRecDepth 50000

example : version = bytes "0.13.0-dev" := by decide +kernel
example : typesTitle = bytes "Aggregate Types" := by decide +kernel
example : String.ofList (lHead.map Char.ofNat) = "\n    <!doctype html>\n    <html class=\"no-js\" lang=\"en\">\n    <head>\n        <meta charset=\"utf-8\"/>\n        <meta name=\"viewport\" content=\"width=device-width, initial-scale=1.0\"/>\n        <title>" := by rfl
example : String.ofList (lTop.map Char.ofNat) = " - RangeDB</title>\n        <link rel=\"icon\" href=\"/static/img/favicon.ico\"/>\n        <link rel=\"shortcut icon\" type=\"image/x-icon\" href=\"/static/img/favicon.ico\"/>\n        <link rel=\"stylesheet\" href=\"/static/css/foundation-6.5.3.min.css\">\n        <link rel=\"stylesheet\" href=\"/static/css/foundation-icons.css\">\n        <link rel=\"stylesheet\" href=\"/static/css/site.css\">\n        \n    </head>\n    <body>\n    <div id=\"header\" class=\"top-bar\">\n        <div class=\"top-bar-left\">\n            <div class=\"top-bar-title\">\n                <a href=\"/\">\n                    <img src=\"/static/img/rangedb-logo-white-30x30.png\" width=\"30\" height=\"30\" alt=\"RangeDB Logo\"/>\n                    <span>RangeDB</span>\n                </a>\n            </div>\n        </div>\n        <div class=\"top-bar-right\">\n            <ul class=\"menu\">\n                <li><a href=\"/\">Home</a></li>\n            </ul>\n        </div>\n    </div>\n\n    <div id=\"content\">\n        " := by rfl
example : String.ofList (lFoot.map Char.ofNat) = "\n    </div>\n\n    <div id=\"footer\" class=\"grid-container\">\n        <div class=\"grid-x grid-padding-x align-center\">\n            <div class=\"cell text-center\">\n                <small>\n                    RangeDB " := by rfl
example : String.ofList (lEnd.map Char.ofNat) = "\n                    | <a href=\"https://github.com/inklabs/rangedb\">Documentation</a>\n                    | <a href=\"/api/list-aggregate-types\">API</a>\n                </small>\n            </div>\n        </div>\n    </div>\n\n    \n\n    </body>\n    </html>\n" := by rfl
example : String.ofList (lTable.map Char.ofNat) = "\n<table class=\"records\">\n    <thead>\n    <tr>\n        <th title=\"Global Sequence Number\">GSN</th>\n        <th title=\"Stream Sequence Number\">SSN</th>\n        <th>Event Type</th>\n        <th>Aggregate Type</th>\n        <th>Stream</th>\n        <th>Insert Date</th>\n        <th>Data</th>\n    </tr>\n    </thead>\n    <tbody>\n\n    " := by rfl
example : String.ofList (lRow.map Char.ofNat) = "<tr>\n            <td>" := by rfl
example : String.ofList (lSeq.map Char.ofNat) = "</td>\n            <td>" := by rfl
example : String.ofList (lEvent.map Char.ofNat) = "</td>\n            <td>" := by rfl
example : String.ofList (lType.map Char.ofNat) = "</td>\n            <td><a href=\"/a/" := by rfl
example : String.ofList (lTypeText.map Char.ofNat) = "\">" := by rfl
example : String.ofList (lStream.map Char.ofNat) = "</a></td>\n            <td><a href=\"/s/" := by rfl
example : String.ofList (lStreamText.map Char.ofNat) = "\">" := by rfl
example : String.ofList (lDate.map Char.ofNat) = "</a></td>\n            <td class=\"date\">" := by rfl
example : String.ofList (lData.map Char.ofNat) = "</td>\n            <td class=\"event-data\">" := by rfl
example : String.ofList (lRowEnd.map Char.ofNat) = "</td>\n        </tr>\n    " := by rfl
example : String.ofList (lTableEnd.map Char.ofNat) = "\n    </tbody>\n</table>\n" := by rfl
example : String.ofList (lNav.map Char.ofNat) = "\n<nav aria-label=\"Pagination\">\n    <ul class=\"pagination text-center\">\n        " := by rfl
example : String.ofList (lPrev.map Char.ofNat) = "\n            <li class=\"pagination-previous\"><a href=\"" := by rfl
example : String.ofList (lPrevEnd.map Char.ofNat) = "\" aria-label=\"Previous Page\">Previous</a></li>\n        " := by rfl
example : String.ofList (lNoPrev.map Char.ofNat) = "\n            <li class=\"pagination-previous disabled\">Previous</li>\n        " := by rfl
example : String.ofList (lBetween.map Char.ofNat) = "\n        " := by rfl
example : String.ofList (lNext.map Char.ofNat) = "\n            <li class=\"pagination-next\"><a href=\"" := by rfl
example : String.ofList (lNextEnd.map Char.ofNat) = "\" aria-label=\"Next page\">Next</a></li>\n        " := by rfl
example : String.ofList (lNoNext.map Char.ofNat) = "\n            <li class=\"pagination-next disabled\">Next</li>\n        " := by rfl
example : String.ofList (lNavEnd.map Char.ofNat) = "\n    </ul>\n</nav>\n" := by rfl
example : String.ofList (lsContent.map Char.ofNat) = "\n    <div class=\"grid-container\">\n        <div class=\"grid-x grid-padding-x\">\n            <div class=\"cell medium-12 medium-order-1\">\n                <nav aria-label=\"You are here:\" role=\"navigation\">\n                    <ul class=\"breadcrumbs\">\n                        <li>\n                            " := by rfl
example : String.ofList (lParen.map Char.ofNat) = " (" := by rfl
example : String.ofList (lsMid.map Char.ofNat) = ")\n                        </li>\n                    </ul>\n                </nav>\n                " := by rfl
example : String.ofList (lsGap.map Char.ofNat) = "\n                " := by rfl
example : String.ofList (lsEnd.map Char.ofNat) = "\n            </div>\n        </div>\n    </div>\n" := by rfl
example : String.ofList (ltContent.map Char.ofNat) = "\n    <div class=\"grid-container\">\n        <div class=\"grid-x grid-padding-x\">\n            <div class=\"cell medium-12 medium-order-1\">\n                <nav aria-label=\"You are here:\" role=\"navigation\">\n                    <ul class=\"breadcrumbs\">\n                        <li><a href=\"/aggregate-types\">Aggregate</a></li>\n                        <li>\n                            " := by rfl
example : String.ofList (ltMid.map Char.ofNat) = ")\n                        </li>\n                        <li>\n                            <a href=\"/a/" := by rfl
example : String.ofList (ltLive.map Char.ofNat) = "/live\">Realtime</a>\n                        </li>\n                    </ul>\n                </nav>\n                " := by rfl
example : String.ofList (ltGap.map Char.ofNat) = "\n                " := by rfl
example : String.ofList (ltEnd.map Char.ofNat) = "\n            </div>\n        </div>\n    </div>\n" := by rfl
example : String.ofList (laContent.map Char.ofNat) = "\n    <div class=\"grid-container\">\n        <div class=\"grid-x grid-padding-x\">\n            <div class=\"cell medium-6 medium-order-1\">\n                <nav aria-label=\"You are here:\" role=\"navigation\">\n                    <ul class=\"breadcrumbs\">\n                        <li>\n                            <a href=\"/aggregate-types\">Aggregate</a> (" := by rfl
example : String.ofList (laMid.map Char.ofNat) = ")\n                        </li>\n                        <li>\n                            <a href=\"/aggregate-types/live\">Realtime</a>\n                        </li>\n                    </ul>\n                </nav>\n                <table>\n                    <thead>\n                    <tr>\n                        <th>Type</th>\n                        <th>Total Events</th>\n                    </tr>\n                    </thead>\n                    <tbody>\n                    " := by rfl
example : String.ofList (laRow.map Char.ofNat) = "\n                    <tr>\n                        <td><a href=\"/a/" := by rfl
example : String.ofList (laText.map Char.ofNat) = "\">" := by rfl
example : String.ofList (laTotal.map Char.ofNat) = "</a></td>\n                        <td>" := by rfl
example : String.ofList (laRowEnd.map Char.ofNat) = "</td>\n                    </tr>\n                    " := by rfl
example : String.ofList (laEnd.map Char.ofNat) = "\n                    </tbody>\n                </table>\n                <ul>\n                </ul>\n            </div>\n        </div>\n    </div>\n" := by rfl
example : String.ofList (tail.map Char.ofNat) = "\n\n\n\n" := by rfl

end RangeDB.Html

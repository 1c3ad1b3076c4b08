import Verif.Proof.Paging
import Verif.Thm.InMemory

/-!
# Theorems: paging (C34)
-/

namespace RangeDB.Pg

open Txt

/-! ## Lemmas -/

theorem fromQuery_valid (q : Str) : 1 ≤ (newPaginationFromQuery q).itemsPerPage ∧
    (newPaginationFromQuery q).itemsPerPage ≤ 1000 ∧ (newPaginationFromQuery q).currentIndex < 2 ^ 64 ∧
    ∀ n ∈ (newPaginationFromQuery q).previousIndices, n < 2 ^ 64 := by
  have hu : ∀ s n, Dec.parseUint s = some n → n < 2 ^ 64 := by
    intro s n h
    unfold Dec.parseUint at h
    split at h
    · rename_i h'; simp only [Option.some.injEq] at h; rw [← h]; exact h'.2.2
    · simp at h
  unfold newPaginationFromQuery newPaginationFromString newPagination
  refine ⟨?_, ?_, ?_, ?_⟩
  · simp only
    generalize (Dec.parseUint (queryGet q kItems)).getD 10 = n
    repeat' split
    all_goals omega
  · simp only
    generalize (Dec.parseUint (queryGet q kItems)).getD 10 = n
    repeat' split
    all_goals omega
  · simp only
    cases h : Dec.parseUint (queryGet q kCurrent) with
    | none => simp
    | some n => simpa using hu _ n h
  · simp only
    intro n hn
    generalize split [44] (queryGet q kPrevious) = ps at hn
    induction ps with
    | nil => simp [parseIndices] at hn
    | cons t ts ih =>
      simp only [parseIndices] at hn
      split at hn
      · rename_i m hm
        simp only [List.mem_cons] at hn
        rcases hn with rfl | hn
        · exact hu _ _ hm
        · exact ih hn
      · simp at hn

theorem encodeQuery_no_hash (items cur : Nat) (prev : List Nat) :
    35 ∉ encodeQuery items cur (if prev.length > 0 then some (csv prev) else none) := by
  have hj : ∀ (ts : List Str), (∀ t ∈ ts, 35 ∉ t) → 35 ∉ join [38] ts := by
    intro ts
    induction ts with
    | nil => intro _; simp [join]
    | cons t ts ih =>
      intro h
      cases ts with
      | nil => exact h t (by simp)
      | cons u us =>
        simp only [join, List.mem_append, List.mem_singleton, not_or]
        exact ⟨⟨h t (by simp), by decide⟩,
          ih (fun t ht => h t (by simp [List.mem_cons] at ht ⊢; exact Or.inr ht))⟩
  have hk : 35 ∉ kCurrent ∧ 35 ∉ kItems ∧ 35 ∉ kPrevious := by decide
  have hv : ∀ (k v : Str), 35 ∉ k → (∀ c ∈ v, c < 256) → 35 ∉ k ++ 61 :: escape .query v := by
    intro k v h1 h2
    simp only [List.mem_append, List.mem_cons, not_or]
    exact ⟨h1, by decide, fun e => (escape_query_clean h2 e).2.2.2.1 rfl⟩
  unfold encodeQuery
  apply hj
  intro t ht
  simp only [List.mem_append, List.mem_cons, List.not_mem_nil, or_false] at ht
  rcases ht with (rfl | rfl) | ht
  · exact hv _ _ hk.1 (natText_bytes _)
  · exact hv _ _ hk.2.1 (natText_bytes _)
  · by_cases h : prev = []
    · simp [h] at ht
    · rw [if_pos (List.length_pos_iff.mpr h)] at ht
      simp only [List.mem_cons, List.not_mem_nil, or_false] at ht
      subst ht
      exact hv _ _ hk.2.2 (csv_bytes prev h)

/-- A link to a page of a name that the site accepts and links can carry. -/
theorem link_routes (site : Site) {name : Str} (hname : site.accepts name = true)
    (hsafe : Safe (site.pre ++ name)) (items cur : Nat) (prev : List Nat) :
    ∃ url, withQuery (site.pre ++ name)
        (encodeQuery items cur (if prev.length > 0 then some (csv prev) else none)) = some url ∧ url ≠ [] ∧
      route site url = some (name,
        encodeQuery items cur (if prev.length > 0 then some (csv prev) else none)) := by
  have hq := encodeQuery_no_hash items cur prev
  generalize encodeQuery items cur (if prev.length > 0 then some (csv prev) else none) = q at hq
  obtain ⟨p, h1, h2, h3, h4⟩ := withQuery_safe q hsafe
  refine ⟨p ++ 63 :: q, h1, by simp, ?_⟩
  unfold route
  have h35 : 35 ∉ p ++ 63 :: q := by
    simp only [List.mem_append, List.mem_cons, not_or]
    exact ⟨h2, by decide, hq⟩
  simp only [cutAt_none h35, cutAt_some q h3, h4]
  have hp : site.pre.isPrefixOf (site.pre ++ name) = true := by
    rw [List.isPrefixOf_iff_prefix]; exact ⟨name, rfl⟩
  simp [hname]

/-- What a page shows: the first `items` records from its index on, and links to the next page (if there
are more records) and to the previous one (if it was reached from one). -/
theorem servePage_eq (base : Str) (read : Nat → Iter) (idx : Record → Nat) (q : Str) (p : Pagination)
    (hp : newPaginationFromQuery q = p) :
    servePage base read idx q =
      let all := (read p.currentIndex).recs
      let next := match all[p.itemsPerPage]? with
        | some r => idx r
        | none => p.currentIndex
      match links p base next with
      | .ok l => .ok ⟨(all.take p.itemsPerPage).map some, l⟩
      | .err e => .err e
      | .panic => .panic
      | .blocked => .blocked := by
  subst hp
  generalize hp : newPaginationFromQuery q = p
  have hr : (readNRecords (p.itemsPerPage + 1) (read p.currentIndex).results id).1
      = ((read p.currentIndex).recs.take (p.itemsPerPage + 1)).map some := by
    have := readNLoop_spec (read p.currentIndex).err (p.itemsPerPage + 1) (read p.currentIndex).recs 0
      ((read p.currentIndex).results.length + 1) .zero rfl (Nat.zero_le _) (by simp)
    exact this.1
  unfold servePage
  simp only [hp, hr]
  generalize (read p.currentIndex).recs = all
  by_cases hlen : p.itemsPerPage < all.length
  · have e1 : ((all.take (p.itemsPerPage + 1)).map some).length > p.itemsPerPage := by
      simp; omega
    have e2 : all.take (p.itemsPerPage + 1) = all.take p.itemsPerPage ++ [all[p.itemsPerPage]] :=
      List.take_succ_eq_append_getElem hlen
    rw [if_pos e1, e2, List.getElem?_eq_getElem hlen]
    simp only [List.map_append, List.map_cons, List.map_nil, List.getLast?_append,
      List.getLast?_singleton, Option.some_or, List.dropLast_concat]
    cases links p base (idx all[p.itemsPerPage]) <;> rfl
  · have e1 : ¬ ((all.take (p.itemsPerPage + 1)).map some).length > p.itemsPerPage := by
      simp; omega
    rw [if_neg e1, List.getElem?_eq_none (by omega)]
    simp only
    rw [List.take_of_length_le (by omega : all.length ≤ p.itemsPerPage + 1),
      List.take_of_length_le (by omega : all.length ≤ p.itemsPerPage)]
    cases links p base p.currentIndex <;> rfl

/-- The links of a page, when links can carry its name. -/
theorem links_safe (site : Site) {name : Str} (hname : site.accepts name = true)
    (hsafe : Safe (site.pre ++ name)) (p : Pagination) (next : Nat) :
    ∃ l, links p (site.pre ++ name) next = .ok l ∧
      (next ≤ p.currentIndex → l.next = []) ∧
      (next > p.currentIndex → l.next ≠ [] ∧ ∃ q, route site l.next = some (name, q) ∧
        q = encodeQuery p.itemsPerPage next
          (if (p.previousIndices ++ [p.currentIndex]).length > 0
            then some (csv (p.previousIndices ++ [p.currentIndex])) else none)) ∧
      (∀ init last, p.previousIndices = init ++ [last] → ∃ q, route site l.previous = some (name, q) ∧
        q = encodeQuery p.itemsPerPage last (if init.length > 0 then some (csv init) else none)) := by
  have hprev : ∃ a, previousLink p (site.pre ++ name) = some a ∧
      (∀ init last, p.previousIndices = init ++ [last] → ∃ q, route site a = some (name, q) ∧
        q = encodeQuery p.itemsPerPage last (if init.length > 0 then some (csv init) else none)) := by
    unfold previousLink
    cases hl : p.previousIndices.getLast? with
    | none =>
      refine ⟨[], rfl, ?_⟩
      intro init last h
      rw [List.getLast?_eq_none_iff] at hl
      simp [hl] at h
    | some cur =>
      obtain ⟨url, h1, h2, h3⟩ := link_routes site hname hsafe p.itemsPerPage cur p.previousIndices.dropLast
      refine ⟨url, h1, ?_⟩
      intro init last h
      rw [h] at hl h3
      simp only [List.getLast?_append, List.getLast?_singleton, Option.some_or, Option.some.injEq] at hl
      simp only [List.dropLast_concat] at h3
      exact ⟨_, h3, by rw [hl]⟩
  obtain ⟨a, ha, ha'⟩ := hprev
  by_cases hn : next > p.currentIndex
  · obtain ⟨url, h1, h2, h3⟩ := link_routes site hname hsafe p.itemsPerPage next
      (p.previousIndices ++ [p.currentIndex])
    refine ⟨⟨a, url⟩, ?_, fun h => by omega, fun _ => ⟨h2, _, h3, rfl⟩, ha'⟩
    unfold links nextLink
    simp only [ha, if_pos hn]
    have : (p.previousIndices ++ [p.currentIndex]).length > 0 := by simp
    rw [if_pos this] at h1
    rw [h1]
  · refine ⟨⟨a, []⟩, ?_, fun _ => rfl, fun h => absurd h hn, ha'⟩
    unfold links nextLink
    simp only [ha, if_neg hn]

/-- Reading from the index of the record after the first `k` skips exactly those. -/
theorem filter_from {idx : Record → Nat} {recs : List Record} (hs : recs.Pairwise (fun a b => idx a < idx b))
    {k : Nat} (hk : k < recs.length) :
    recs.filter (fun r => idx (recs[k]) ≤ idx r) = recs.drop k := by
  have h0 : recs = recs.take k ++ recs.drop k := (List.take_append_drop k recs).symm
  have hcons : recs.drop k = recs[k] :: recs.drop (k + 1) := List.drop_eq_getElem_cons hk
  rw [h0, List.pairwise_append] at hs
  rw [congrArg (List.filter (fun r => decide (idx recs[k] ≤ idx r))) h0, List.filter_append]
  have e1 : (recs.take k).filter (fun r => decide (idx recs[k] ≤ idx r)) = [] := by
    rw [List.filter_eq_nil_iff]
    intro r hr
    have := hs.2.2 r hr recs[k] (hcons ▸ List.mem_cons_self)
    simp; omega
  have e2 : (recs.drop k).filter (fun r => decide (idx recs[k] ≤ idx r)) = recs.drop k := by
    rw [List.filter_eq_self]
    intro r hr
    have h2 := hs.2.1
    rw [hcons, List.pairwise_cons] at h2
    rw [hcons, List.mem_cons] at hr
    rcases hr with rfl | hr
    · simp
    · have := h2.1 r hr; simp; omega
  simp only [e1, e2, List.nil_append]

/-- What following the Next links shows, from a request for the records with index at least `i`. -/
theorem follow_spec (site : Site) {name : Str} (hname : site.accepts name = true)
    (hsafe : Safe (site.pre ++ name)) (recs : List Record)
    (hs : recs.Pairwise (fun a b => site.idx a < site.idx b)) (hb : ∀ r ∈ recs, site.idx r < 2 ^ 64)
    (hread : ∀ i, (site.read name i).recs = recs.filter (fun r => i ≤ site.idx r)) :
    ∀ (fuel : Nat) (url q : Str), route site url = some (name, q) →
      ∀ j, (followNext site fuel url)[j]? =
        if j < fuel ∧ (j = 0 ∨ j * (newPaginationFromQuery q).itemsPerPage <
            (recs.filter (fun r => (newPaginationFromQuery q).currentIndex ≤ site.idx r)).length) then
          some ((((recs.filter (fun r => (newPaginationFromQuery q).currentIndex ≤ site.idx r)).drop
            (j * (newPaginationFromQuery q).itemsPerPage)).take
              (newPaginationFromQuery q).itemsPerPage).map some)
        else none := by
  intro fuel
  induction fuel with
  | zero => intro url q _ j; simp [followNext]
  | succ fuel ih =>
    intro url q hroute j
    have hv := fromQuery_valid q
    generalize hp : newPaginationFromQuery q = p at hv ⊢
    have hget : get site url = some (servePage (site.pre ++ name) (site.read name) site.idx q) := by
      simp [get, hroute]
    rw [servePage_eq _ _ _ q p hp, hread] at hget
    simp only at hget
    have hss : (recs.filter (fun r => p.currentIndex ≤ site.idx r)).Pairwise
        (fun a b => site.idx a < site.idx b) := hs.filter _
    have hmem : ∀ r ∈ recs.filter (fun r => p.currentIndex ≤ site.idx r),
        p.currentIndex ≤ site.idx r ∧ site.idx r < 2 ^ 64 := by
      intro r hr
      rw [List.mem_filter] at hr
      exact ⟨by simpa using hr.2, hb r hr.1⟩
    have hfilt : ∀ n, p.currentIndex ≤ n → recs.filter (fun r => n ≤ site.idx r)
        = (recs.filter (fun r => p.currentIndex ≤ site.idx r)).filter (fun r => n ≤ site.idx r) := by
      intro n hn
      rw [List.filter_filter]
      congr 1
      funext r
      rw [Bool.eq_iff_iff]
      simp only [Bool.and_eq_true, decide_eq_true_eq]
      omega
    generalize recs.filter (fun r => p.currentIndex ≤ site.idx r) = all at *
    have hnext : ∀ n, n = (match all[p.itemsPerPage]? with
        | some r => site.idx r
        | none => p.currentIndex) → ∃ l, links p (site.pre ++ name) n = .ok l ∧
        (followNext site (fuel + 1) url) = (all.take p.itemsPerPage).map some ::
          (if l.next = [] then [] else followNext site fuel l.next) ∧
        (n ≤ p.currentIndex → l.next = []) ∧
        (n > p.currentIndex → l.next ≠ [] ∧ ∃ q, route site l.next = some (name, q) ∧
        q = encodeQuery p.itemsPerPage n
          (if (p.previousIndices ++ [p.currentIndex]).length > 0
            then some (csv (p.previousIndices ++ [p.currentIndex])) else none)) := by
      intro n hn
      obtain ⟨l, h1, h2, h3, _⟩ := links_safe site hname hsafe p n
      refine ⟨l, h1, ?_, h2, h3⟩
      rw [← hn, h1] at hget
      simp only [followNext, hget]
    obtain ⟨l, hl, hfol, hn1, hn2⟩ := hnext _ rfl
    rw [hfol]
    cases j with
    | zero => simp
    | succ j =>
      rw [List.getElem?_cons_succ]
      by_cases hlen : p.itemsPerPage < all.length
      · -- there is a next page
        rw [List.getElem?_eq_getElem hlen] at hn2
        simp only at hn2
        have h0 : all.length ≠ 0 := by omega
        have hlt : site.idx all[0] < site.idx all[p.itemsPerPage] := by
          rw [List.pairwise_iff_getElem] at hss
          exact hss 0 p.itemsPerPage (by omega) hlen (by omega)
        have hge := (hmem all[0] (List.getElem_mem _)).1
        have hlt64 := (hmem all[p.itemsPerPage] (List.getElem_mem _)).2
        obtain ⟨hne, q', hr', hq'⟩ := hn2 (by omega)
        rw [if_neg hne, ih l.next q' hr' j]
        have hpg : newPaginationFromQuery q'
            = ⟨p.itemsPerPage, site.idx all[p.itemsPerPage], p.previousIndices ++ [p.currentIndex]⟩ := by
          rw [hq']
          apply fromQuery_encode
          · exact ⟨hv.1, hv.2.1⟩
          · exact hlt64
          · intro n hn
            simp only [List.mem_append, List.mem_singleton] at hn
            rcases hn with hn | rfl
            · exact hv.2.2.2 n hn
            · exact hv.2.2.1
        have hall : recs.filter (fun r => site.idx all[p.itemsPerPage] ≤ site.idx r)
            = all.drop p.itemsPerPage := by
          rw [hfilt _ (by omega)]
          exact filter_from hss hlen
        simp only [hpg, hall, List.length_drop, List.drop_drop]
        have e1 : (j + 1) * p.itemsPerPage = j * p.itemsPerPage + p.itemsPerPage := Nat.succ_mul _ _
        have e2 : p.itemsPerPage + j * p.itemsPerPage = (j + 1) * p.itemsPerPage := by omega
        rw [e2]
        have hiff : (j < fuel ∧ (j = 0 ∨ j * p.itemsPerPage < all.length - p.itemsPerPage)) ↔
            (j + 1 < fuel + 1 ∧ (j + 1 = 0 ∨ (j + 1) * p.itemsPerPage < all.length)) := by
          constructor
          · rintro ⟨h1, h2⟩
            refine ⟨by omega, Or.inr ?_⟩
            rcases h2 with rfl | h2
            · simpa using hlen
            · omega
          · rintro ⟨h1, h2⟩
            refine ⟨by omega, ?_⟩
            rcases h2 with h2 | h2
            · omega
            · right; omega
        simp only [hiff]
      · -- the last page
        rw [List.getElem?_eq_none (by omega)] at hn1
        rw [if_pos (hn1 (Nat.le_refl _))]
        have : ¬ (j + 1) * p.itemsPerPage < all.length := by
          have e1 : (j + 1) * p.itemsPerPage = j * p.itemsPerPage + p.itemsPerPage := Nat.succ_mul _ _
          have : 0 ≤ j * p.itemsPerPage := Nat.zero_le _
          omega
        rw [if_neg (by rintro ⟨_, h | h⟩ <;> omega)]
        simp

/-- The URL of the first page with `k` records per page. -/
def firstURL (site : Site) (name : Str) (k : Nat) : Str :=
  site.pre ++ name ++ 63 :: (kItems ++ 61 :: Dec.natText k)

theorem firstURL_route (site : Site) {name : Str} (hname : site.accepts name = true)
    (hsafe : Safe (site.pre ++ name)) (k : Nat) (hk : 1 ≤ k ∧ k ≤ 1000) :
    ∃ q, route site (firstURL site name k) = some (name, q) ∧ newPaginationFromQuery q = ⟨k, 0, []⟩ := by
  refine ⟨kItems ++ 61 :: Dec.natText k, ?_, ?_⟩
  · unfold route firstURL
    have h63 : 63 ∉ site.pre ++ name := fun e => (hsafe _ e).2.2.2.2.1 rfl
    have h37 : 37 ∉ site.pre ++ name := fun e => (hsafe _ e).2.2.2.1 rfl
    have h35 : 35 ∉ site.pre ++ name ++ 63 :: (kItems ++ 61 :: Dec.natText k) := by
      simp only [List.mem_append, List.mem_cons, not_or]
      have := (fun e => (hsafe 35 e).2.2.2.2.2 rfl : ¬ 35 ∈ site.pre ++ name)
      simp only [List.mem_append] at this
      exact ⟨⟨fun e => this (Or.inl e), fun e => this (Or.inr e)⟩, by decide, by decide, by decide, natText_not (by omega)⟩
    simp only [cutAt_none h35, cutAt_some _ h63, unescape_plain false _ h37 (by simp)]
    simp [hname]
  · have e : kItems ++ 61 :: Dec.natText k
        = join [38] ([(kItems, Dec.natText k)].map (fun p => p.1 ++ 61 :: escape .query p.2)) := by
      have : escape .query (Dec.natText k) = Dec.natText k := by
        have hb := Dec.natText_digits k
        rw [List.all_eq_true] at hb
        generalize Dec.natText k = t at hb
        induction t with
        | nil => rfl
        | cons c cs ih =>
          have hc := hb c (by simp)
          have : escape .query (c :: cs) = escapeByte .query c ++ escape .query cs := rfl
          rw [this, ih (fun d hd => hb d (by simp [hd]))]
          have h1 : c ≠ 32 := by rintro rfl; exact absurd hc (by decide)
          have h2 : isAlnum c = true := by
            simp only [Dec.isDigit, Bool.and_eq_true, decide_eq_true_eq] at hc
            simp [isAlnum, hc.1, hc.2]
          simp [escapeByte, h1, shouldEscape, h2]
      simp [join, this]
    have hk' : ∀ p ∈ [(kItems, Dec.natText k)], p.1 ≠ [] ∧ (∀ c ∈ p.1, isAlnum c = true) := by
      intro p hp
      simp only [List.mem_cons, List.not_mem_nil, or_false] at hp
      subst hp
      exact ⟨by simp [kItems], (by decide : ∀ c ∈ kItems, isAlnum c = true)⟩
    have hv : ∀ p ∈ [(kItems, Dec.natText k)], ∀ c ∈ p.2, c < 256 := by
      intro p hp
      simp only [List.mem_cons, List.not_mem_nil, or_false] at hp
      subst hp
      exact natText_bytes k
    unfold newPaginationFromQuery newPaginationFromString
    rw [e, queryGet_pairs _ (by simp) hk' hv, queryGet_pairs _ (by simp) hk' hv,
      queryGet_pairs _ (by simp) hk' hv]
    have e1 : ([(kItems, Dec.natText k)].filter (fun p => p.1 = kItems)) = [(kItems, Dec.natText k)] := by
      simp
    have e2 : ([(kItems, Dec.natText k)].filter (fun p => p.1 = kCurrent)) = [] := by
      simp [kItems, kCurrent]
    have e3 : ([(kItems, Dec.natText k)].filter (fun p => p.1 = kPrevious)) = [] := by
      simp [kItems, kPrevious]
    have e4 : parseIndices (split [44] []) = [] := by decide
    have e5 : Dec.parseUint [] = none := by decide
    rw [e1, e2, e3]
    simp only [List.map_cons, List.map_nil, List.head?_cons, List.head?_nil, Option.getD_some,
      Option.getD_none, e4, e5, Dec.parseUint_natText k (by omega)]
    unfold newPagination
    have e : (if k ≤ 0 then 10 else k) = k := if_neg (by omega)
    simp only [e]
    rw [if_neg (by omega)]

/-! ## The theorems -/

/-- The full C34: for every name for which the site has a page, the Next links, starting from a request
for the first page with `k` records per page, show all records of that name in order. -/
def C34_full : Prop :=
  ∀ (site : Site) (name : Str) (recs : List Record) (k : Nat) (url : Str),
    site.accepts name = true →
    (∃ q, route site url = some (name, q) ∧ newPaginationFromQuery q = ⟨k, 0, []⟩) →
    recs.Pairwise (fun a b => site.idx a < site.idx b) → (∀ r ∈ recs, site.idx r < 2 ^ 64) →
    (∀ i, (site.read name i).recs = recs.filter (fun r => i ≤ site.idx r)) →
    (followNext site (recs.length + 1) url).flatten = recs.map some

/-- Two records of a stream. -/
def two : List Record := [mkRecord [97] 1 1 (Demo.evA [1]), mkRecord [97] 2 2 (Demo.evA [2])]

/-- A site whose only stream with records is `name`. -/
def only (name : Str) : Site :=
  streamSite (fun n i => ⟨if n = name then two.filter (fun r => i ≤ r.seq) else [], none⟩)

/-- **C34 is false** for stream names with '?' (or '#'): the Next link of the page of stream "a?b", reached
as "/s/a%3Fb", leads to stream "a". -/
theorem C34_false : ¬ C34_full := fun h => by
  have h1 := h (only [97, 63, 98]) [97, 63, 98] two 1
    [47, 115, 47, 97, 37, 51, 70, 98, 63, 105, 116, 101, 109, 115, 80, 101, 114, 80, 97, 103, 101, 61, 49]
    (by decide)
    ⟨[105, 116, 101, 109, 115, 80, 101, 114, 80, 97, 103, 101, 61, 49], by decide +kernel, by decide +kernel⟩
    (by decide +kernel) (by decide +kernel) (by intro i; rfl)
  revert h1
  decide +kernel

/-- For stream names with a '%' that does not start a valid escape, such as "50%", the page of a stream
with more than one page of records panics. -/
theorem C34_panics : get (only [53, 48, 37])
    [47, 115, 47, 53, 48, 37, 50, 53, 63, 105, 116, 101, 109, 115, 80, 101, 114, 80, 97, 103, 101, 61, 49]
      = some .panic := by
  decide +kernel

/-- **C34**, what does hold, for names made of bytes other than control characters, '%', '?' and '#'
(every aggregate type the route accepts is such a name): following the Next links from the first page with
`k` records per page, `1 ≤ k ≤ 1000`, page `j` shows records `j*k`, ..., `j*k + k - 1` of the name in order;
there are exactly as many pages as needed (one, empty, if there are no records); so every record is shown
exactly once, in order. `recs` are the records of the name in the order of the index the pages use, and
`hread` is what the stores provide (C02, C04). -/
theorem C34_partial (site : Site) (name : Str) (recs : List Record) (k : Nat)
    (hname : site.accepts name = true) (hsafe : Safe (site.pre ++ name)) (hk : 1 ≤ k ∧ k ≤ 1000)
    (hs : recs.Pairwise (fun a b => site.idx a < site.idx b)) (hb : ∀ r ∈ recs, site.idx r < 2 ^ 64)
    (hread : ∀ i, (site.read name i).recs = recs.filter (fun r => i ≤ site.idx r)) :
    (∀ j, (followNext site (recs.length + 1) (firstURL site name k))[j]? =
      if j = 0 ∨ j * k < recs.length then some (((recs.drop (j * k)).take k).map some) else none) ∧
    (followNext site (recs.length + 1) (firstURL site name k)).flatten = recs.map some := by
  obtain ⟨q, hr, hq⟩ := firstURL_route site hname hsafe k hk
  have h := follow_spec site hname hsafe recs hs hb hread (recs.length + 1) _ q hr
  have h0 : recs.filter (fun r => 0 ≤ site.idx r) = recs := by
    rw [List.filter_eq_self]; intro r _; simp
  simp only [hq, h0] at h
  have h1 : ∀ j, (followNext site (recs.length + 1) (firstURL site name k))[j]? =
      if j = 0 ∨ j * k < recs.length then some (((recs.drop (j * k)).take k).map some) else none := by
    intro j
    rw [h j]
    have hiff : (j < recs.length + 1 ∧ (j = 0 ∨ j * k < recs.length)) ↔ (j = 0 ∨ j * k < recs.length) := by
      constructor
      · exact fun h => h.2
      · intro h
        refine ⟨?_, h⟩
        rcases h with rfl | h
        · omega
        · have : j * 1 ≤ j * k := Nat.mul_le_mul_left j hk.1
          omega
    simp only [hiff]
  refine ⟨h1, ?_⟩
  generalize followNext site (recs.length + 1) (firstURL site name k) = pages at h1
  -- lists with these pages concatenate to the records
  have key : ∀ (pages : List (List (Option Record))) (l : List Record),
      (∀ j, pages[j]? = if j = 0 ∨ j * k < l.length then some (((l.drop (j * k)).take k).map some) else none) →
      pages.flatten = l.map some := by
    intro pages
    induction pages with
    | nil => intro l h; have := h 0; simp at this
    | cons a as ih =>
      intro l h
      have ha := h 0
      simp only [List.getElem?_cons_zero, true_or, if_true, Nat.zero_mul, List.drop_zero,
        Option.some.injEq] at ha
      cases as with
      | nil =>
        have h1 := h 1
        simp only [List.getElem?_cons_succ, List.getElem?_nil, Nat.one_mul] at h1
        split at h1
        · simp at h1
        · rename_i hn
          rw [ha]
          simp only [List.flatten_cons, List.flatten_nil, List.append_nil]
          rw [List.take_of_length_le (by omega)]
      | cons b bs =>
        have h1 := h 1
        simp only [List.getElem?_cons_succ, List.getElem?_cons_zero, Nat.one_mul] at h1
        have hlen : k < l.length := by
          split at h1
          · rename_i hh; omega
          · simp at h1
        have := ih (l.drop k) (by
          intro j
          have hj := h (j + 1)
          rw [List.getElem?_cons_succ] at hj
          rw [hj, List.drop_drop, List.length_drop]
          have e1 : (j + 1) * k = j * k + k := Nat.succ_mul _ _
          have e2 : k + j * k = (j + 1) * k := by omega
          rw [e2]
          have hiff : (j + 1 = 0 ∨ (j + 1) * k < l.length) ↔ (j = 0 ∨ j * k < l.length - k) := by
            constructor
            · rintro (h | h)
              · omega
              · right; omega
            · rintro (rfl | h)
              · right; omega
              · right; omega
          simp only [hiff])
        rw [List.flatten_cons, this, ha, ← List.map_append, List.take_append_drop]
  exact key pages recs h1

/-- **C34**, links are inverse: if a page has a Next link, the page that link leads to has a Previous link
that shows the first page again. This holds for every request and every store content. -/
theorem C34_previous (site : Site) (url name q : Str) (page : Page)
    (hroute : route site url = some (name, q)) (hsafe : Safe (site.pre ++ name))
    (hidx : ∀ i, ∀ r ∈ (site.read name i).recs, site.idx r < 2 ^ 64)
    (hget : get site url = some (.ok page)) (hnext : page.links.next ≠ []) :
    ∃ page', get site page.links.next = some (.ok page') ∧ page'.links.previous ≠ [] ∧
      get site page'.links.previous = some (.ok page) := by
  have hname : site.accepts name = true := by
    unfold route at hroute
    split at hroute
    split at hroute
    split at hroute
    · simp at hroute
    · split at hroute
      · rename_i hc
        simp only [Option.some.injEq, Prod.mk.injEq] at hroute
        rw [Bool.and_eq_true] at hc
        rw [← hroute.1]; exact hc.2
      · simp at hroute
  have hv := fromQuery_valid q
  generalize hp : newPaginationFromQuery q = p at hv
  have hserve : servePage (site.pre ++ name) (site.read name) site.idx q = .ok page := by
    have : get site url = some (servePage (site.pre ++ name) (site.read name) site.idx q) := by
      simp [get, hroute]
    rw [this] at hget
    simpa using hget
  have hs0 := servePage_eq (site.pre ++ name) (site.read name) site.idx q p hp
  rw [hserve] at hs0
  simp only at hs0
  -- the page's links
  generalize hn : (match (site.read name p.currentIndex).recs[p.itemsPerPage]? with
    | some r => site.idx r
    | none => p.currentIndex) = n at hs0
  have hn64 : n < 2 ^ 64 := by
    rw [← hn]
    split
    · rename_i r hr; exact hidx p.currentIndex r (List.mem_of_getElem? hr)
    · exact hv.2.2.1
  obtain ⟨l, h1, h2, h3, _⟩ := links_safe site hname hsafe p n
  rw [h1] at hs0
  simp only [Outcome.ok.injEq] at hs0
  have hl : page.links = l := by rw [hs0]
  have hgt : n > p.currentIndex := by
    apply Nat.lt_of_not_le
    intro hle
    exact hnext (by rw [hl]; exact h2 hle)
  obtain ⟨_, q', hr', hq'⟩ := h3 hgt
  have hpg : newPaginationFromQuery q' = ⟨p.itemsPerPage, n, p.previousIndices ++ [p.currentIndex]⟩ := by
    rw [hq']
    apply fromQuery_encode
    · exact ⟨hv.1, hv.2.1⟩
    · exact hn64
    · intro m hm
      simp only [List.mem_append, List.mem_singleton] at hm
      rcases hm with hm | rfl
      · exact hv.2.2.2 m hm
      · exact hv.2.2.1
  -- the next page
  have hs1 := servePage_eq (site.pre ++ name) (site.read name) site.idx q' _ hpg
  simp only at hs1
  generalize (match (site.read name n).recs[p.itemsPerPage]? with
    | some r => site.idx r
    | none => n) = n2 at hs1
  obtain ⟨l2, g1, _, _, g4⟩ := links_safe site hname hsafe
    ⟨p.itemsPerPage, n, p.previousIndices ++ [p.currentIndex]⟩ n2
  rw [g1] at hs1
  simp only at hs1
  obtain ⟨q'', hr'', hq''⟩ := g4 p.previousIndices p.currentIndex rfl
  refine ⟨⟨((site.read name n).recs.take p.itemsPerPage).map some, l2⟩, ?_, ?_, ?_⟩
  · simp only [get, hl, hr', Option.map_some, hs1]
  · intro e
    simp only at e
    rw [e] at hr''
    unfold route at hr''
    have : cutAt 35 [] = ([], []) := by decide
    simp only [this] at hr''
    have : cutAt 63 [] = ([], []) := by decide
    simp only [this] at hr''
    simp only [unescape] at hr''
    split at hr''
    · rename_i hc
      rw [Bool.and_eq_true, List.isPrefixOf_iff_prefix, List.prefix_nil] at hc
      -- a name is left only if the prefix is empty, and then the name is empty
      simp only [Option.some.injEq, Prod.mk.injEq, hc.1] at hr''
      have e1 : name = [] := by simpa using hr''.1.symm
      have e2 : q'' = [] := hr''.2.symm
      rw [e2] at hq''
      have := congrArg List.length hq''
      unfold encodeQuery at this
      split at this <;> simp [join, kCurrent] at this <;> omega
    · simp at hr''
  · simp only [get, hr'', Option.map_some]
    have hpg2 : newPaginationFromQuery q'' = p := by
      rw [hq'']
      exact fromQuery_encode _ _ _ ⟨hv.1, hv.2.1⟩ hv.2.2.1 hv.2.2.2
    have := servePage_eq (site.pre ++ name) (site.read name) site.idx q'' p hpg2
    rw [this]
    simp only
    rw [hn, h1]
    simp only [Option.some.injEq, Outcome.ok.injEq]
    exact hs0.symm

/-- **C34**, the link text: the list of previous pages in a link parses back to itself. -/
theorem C34_list_text (l : List Nat) (hl : l ≠ []) (h : ∀ n ∈ l, n < 2 ^ 64) :
    parseIndices (split [44] (csv l)) = l := parse_csv l hl h

/-- **C34**, the text of the links: the path of a Previous or Next link decodes to the path of the page, and
consists of printable ASCII without space, quotation mark or angle bracket, whatever the name is made of
(other than control characters, '%', '?' and '#'). A path of letters, digits and `/ - _ . ~ ! :` is used as it
is. -/
theorem C34_link_text (base query : Str) (hsafe : Safe base) :
    ∃ path, withQuery base query = some (path ++ [63] ++ query) ∧ unescape false path = some base ∧
      (∀ c ∈ path, 33 ≤ c ∧ c < 127 ∧ c ≠ 34 ∧ c ≠ 60 ∧ c ≠ 62) ∧
      ((∀ c ∈ base, isAlnum c = true ∨ c ∈ [47, 45, 95, 46, 126, 33, 58]) → path = base) := by
  obtain ⟨p, h1, h2, h3, h4⟩ := withQuery_printable query hsafe
  refine ⟨p, by rw [h1]; simp, h3, h2, fun hb => h4 fun c hc => ?_⟩
  rcases hb c hc with h | h
  · simp [validByte, shouldEscape, h]
  · simp only [List.mem_cons, List.not_mem_nil, or_false] at h
    rcases h with h | h | h | h | h | h | h <;> subst h <;> decide

/-- `/s/a b` is linked as `/s/a%20b`, and `/s/a!b` as it is. -/
example : withQuery [47, 115, 47, 97, 32, 98] [113] = some [47, 115, 47, 97, 37, 50, 48, 98, 63, 113] ∧
    withQuery [47, 115, 47, 97, 33, 98] [113] = some [47, 115, 47, 97, 33, 98, 63, 113] := by
  decide

/-! ## The in-memory store's pages -/

/-- **C34** for the pages of a stream of the in-memory store, after any history of calls in which no batch
addressed to a stream that is not named `aggregateType!aggregateID` is rejected (C07). -/
theorem C34_stream_pages {z : Serializer} (hz : z.Lawful) (ops : List Op) (hg : ∀ op ∈ ops, op.Guarded z)
    (name : Str) (k : Nat)
    (hname : (streamSite (fun n i => IM.eventsByStream z (IM.run z ops) none i n)).accepts name = true)
    (hsafe : Safe ([47, 115, 47] ++ name)) (hk : 1 ≤ k ∧ k ≤ 1000)
    (hb : ∀ r ∈ (IM.events z (IM.run z ops) none 0).recs, r.seq < 2 ^ 64) :
    ∃ fuel, (followNext (streamSite (fun n i => IM.eventsByStream z (IM.run z ops) none i n)) fuel
      (firstURL (streamSite (fun n i => IM.eventsByStream z (IM.run z ops) none i n)) name k)).flatten
      = ((IM.events z (IM.run z ops) none 0).recs.filter (fun r => r.streamName = name)).map some := by
  obtain ⟨n, all, h1, h2, h3, h4, h5⟩ := IM.C02_stream_contiguous hz ops hg name
  refine ⟨all.length + 1, ?_⟩
  rw [← h2]
  refine (C34_partial _ name all k hname hsafe hk ?_ ?_ ?_).2
  · have : (all.map (·.seq)).Pairwise (· < ·) := by rw [h3]; exact List.pairwise_lt_range'
    rw [List.pairwise_map] at this
    exact this
  · intro r hr
    rw [h2] at hr
    exact hb r (List.mem_filter.mp hr).1
  · intro i
    simp only [streamSite]
    by_cases h0 : n = 0
    · rw [h4 h0]
      have : all = [] := by
        have := congrArg List.length h3
        simp [h0] at this
        exact this
      simp [this]
    · rw [h5 h0]
      rfl

/-- **C34** for the pages of an aggregate type of the in-memory store. -/
theorem C34_type_pages {z : Serializer} (hz : z.Lawful) (ops : List Op) (hg : ∀ op ∈ ops, op.Guarded z)
    (name : Str) (k : Nat)
    (hname : (typeSite (fun n i => IM.eventsByAggregateTypes z (IM.run z ops) (fun _ => none) i [n])).accepts name
      = true) (hk : 1 ≤ k ∧ k ≤ 1000)
    (hb : ∀ r ∈ (IM.events z (IM.run z ops) none 0).recs, r.gsn < 2 ^ 64) :
    ∃ fuel, (followNext (typeSite (fun n i => IM.eventsByAggregateTypes z (IM.run z ops) (fun _ => none) i [n]))
      fuel (firstURL (typeSite (fun n i => IM.eventsByAggregateTypes z (IM.run z ops) (fun _ => none) i [n]))
        name k)).flatten
      = ((IM.events z (IM.run z ops) none 0).recs.filter (fun r => r.aggType = name)).map some := by
  have hread : ∀ i, (IM.eventsByAggregateTypes z (IM.run z ops) (fun _ => none) i [name]).recs
      = ((IM.events z (IM.run z ops) none 0).recs.filter (fun r => r.aggType = name)).filter
          (fun r => i ≤ r.gsn) := by
    intro i
    rw [(IM.C04_events_by_types hz ops hg i [name] (by simp)).1, List.filter_filter]
    simp [Bool.and_comm]
  have hsorted := (IM.C04_events_by_types hz ops hg 0 [name] (by simp)).2
  rw [hread 0] at hsorted
  have h0 : ((IM.events z (IM.run z ops) none 0).recs.filter (fun r => r.aggType = name)).filter
      (fun r => 0 ≤ r.gsn) = (IM.events z (IM.run z ops) none 0).recs.filter (fun r => r.aggType = name) := by
    rw [List.filter_eq_self]; intro r _; simp
  rw [h0] at hsorted
  refine ⟨_, (C34_partial _ name _ k hname ?_ hk hsorted ?_ hread).2⟩
  · intro c hc
    simp only [typeSite, List.mem_append] at hc
    rcases hc with hc | hc
    · simp only [List.mem_cons, List.not_mem_nil, or_false] at hc
      omega
    · simp only [typeSite, Bool.and_eq_true, List.all_eq_true] at hname
      have := hname.2 c hc
      simp only [Bool.or_eq_true, Bool.and_eq_true, decide_eq_true_eq] at this
      omega
  · intro r hr
    exact hb r (List.mem_filter.mp hr).1

/-! ## Examples -/

example : Safe ([47, 115, 47] ++ [116, 104, 105, 110, 103, 33, 49]) := by
  simp only [Safe]
  decide

example : followNext (only [97, 33, 49]) 3 (firstURL (only [97, 33, 49]) [97, 33, 49] 1)
    = two.map (fun r => [some r]) := by decide +kernel

example : ∀ i, ((only [97, 33, 49]).read [97, 33, 49] i).recs = two.filter (fun r => i ≤ r.seq) :=
  fun _ => rfl

end RangeDB.Pg

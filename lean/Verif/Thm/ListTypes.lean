import Verif.Model.ListTypes
import Verif.Thm.Projection
import Verif.Thm.Http

/-!
# What the HTTP API lists about the aggregate types (C124)
-/

namespace RangeDB.Http

open Json Demo

/-! ## Specification: how a client reads the list -/

/-- The value of a field of an object. -/
def get (k : String) : Json → Option Json
  | .obj l => (l.find? (fun f => f.1 = bytes k)).map (·.2)
  | _ => none

/-- A string. -/
def str? : Json → Option Str
  | .str s => some s
  | _ => none

/-- A `uint64`. -/
def num? : Json → Option Nat
  | .num t => Dec.parseUint t
  | _ => none

/-- One element of the list. -/
structure Row where
  name : Str
  total : Nat
  self : Str
deriving DecidableEq

/-- How a client reads it. -/
def rowOf (v : Json) : Option Row :=
  match (get "name" v).bind str?, (get "totalEvents" v).bind num?, ((get "links" v).bind (get "self")).bind str? with
  | some n, some c, some l => some ⟨n, c, l⟩
  | _, _, _ => none

/-- The elements; a client takes `null` for an empty list. -/
def rowsOf (v : Json) : Option (List Row) :=
  match get "data" v with
  | some .null => some []
  | some (.arr vs) => vs.mapM rowOf
  | _ => none

/-- The list says what it should about the records `rs`. -/
structure Lists (base : Str) (rs : List Record) (v : Json) : Prop where
  total : (get "totalEvents" v).bind num? = some rs.length
  rows : ∃ l, rowsOf v = some l ∧ (l.map (·.name)).Pairwise (fun a b => Prj.strLt a b = true) ∧
    (∀ t, t ∈ l.map (·.name) ↔ ∃ r ∈ rs, r.aggType = t) ∧
    ∀ x ∈ l, x.total = (rs.filter (fun r => r.aggType = x.name)).length ∧
      x.self = base ++ bytes "/events-by-aggregate-type/" ++ x.name ++ bytes ".json"
  self : ((get "links" v).bind (get "self")).bind str? = some (base ++ bytes "/list-aggregate-types")
  all : ((get "links" v).bind (get "allEvents")).bind str? = some (base ++ bytes "/all-events.json")

/-- The full claim of **C124**: on statistics that count the records `rs`, the answer has status 200 and is one JSON
value and a newline, and it lists every aggregate type, with the number of its events, in order. -/
def C124_full : Prop :=
  ∀ (base : Str) (rs : List Record) (s : Prj.Stats), Utf8 base → rs.length < 2 ^ 64 →
    Prj.Stats.new.acceptAll rs = .ok s →
    (listAggregateTypes base s).status = 200 ∧
    ∃ v, parse (listAggregateTypes base s).body = some (v, [10]) ∧ Lists base rs v

/-! ## Proofs -/

theorem Utf8.append {a b : Str} (ha : Utf8 a) (hb : Utf8 b) : Utf8 (a ++ b) := by
  obtain ⟨x, hx, rfl⟩ := ha
  obtain ⟨y, hy, rfl⟩ := hb
  refine ⟨x ++ y, ?_, by simp⟩
  intro c hc
  rcases List.mem_append.mp hc with h | h
  · exact hx c h
  · exact hy c h

theorem utf8_const {a : Str} (h : Valid a) : Utf8 a := valid_iff_utf8.mp h

theorem row_wf {base t : Str} (hb : Utf8 base) (ht : Utf8 t) (s : Prj.Stats) : (typeRow base s t).WF := by
  refine ⟨(by decide : Valid kLinks), ⟨(by decide : Valid kSelf), valid_iff_utf8.mpr ?_, trivial⟩,
    (by decide : Valid kName), valid_iff_utf8.mpr ht, (by decide : Valid kTotalEvents), scanNum_natText _, trivial⟩
  exact Utf8.append hb (Utf8.append (utf8_const (by decide)) (Utf8.append ht (utf8_const (by decide))))

theorem rows_wf {base : Str} (hb : Utf8 base) (s : Prj.Stats) (l : List Str) (hl : ∀ t ∈ l, Utf8 t) :
    WFs (l.map (typeRow base s)) := by
  induction l with
  | nil => trivial
  | cons t ts ih => exact ⟨row_wf hb (hl t (by simp)) s, ih (fun u hu => hl u (by simp [hu]))⟩

theorem list_wf {base : Str} (hb : Utf8 base) (s : Prj.Stats) (hl : ∀ t ∈ s.sortedTypes, Utf8 t) :
    (listJson base s).WF := by
  refine ⟨(by decide : Valid kData), ?_, (by decide : Valid kTotalEvents), scanNum_natText _,
    (by decide : Valid kLinks), ⟨(by decide : Valid kAllEvents), valid_iff_utf8.mpr ?_, (by decide : Valid kSelf),
      valid_iff_utf8.mpr ?_, trivial⟩, trivial⟩
  · cases h : s.sortedTypes with
    | nil => simp [Json.WF]
    | cons t ts =>
      rw [h] at hl
      exact rows_wf hb s (t :: ts) hl
  · exact Utf8.append hb (utf8_const (by decide))
  · exact Utf8.append hb (utf8_const (by decide))

theorem rowOf_row (base t : Str) (s : Prj.Stats) (h : s.totalByType t < 2 ^ 64) :
    rowOf (typeRow base s t) = some ⟨t, s.totalByType t, selfLink base t⟩ := by
  have h1 : get "name" (typeRow base s t) = some (.str t) := rfl
  have h2 : get "totalEvents" (typeRow base s t) = some (.num (Dec.natText (s.totalByType t))) := rfl
  have h3 : (get "links" (typeRow base s t)).bind (get "self") = some (.str (selfLink base t)) := rfl
  simp only [rowOf, h1, h2, h3, Option.bind_some, str?, num?, Dec.parseUint_natText _ h]

/-- **C124**, what holds: the claim, if the aggregate types are UTF-8 text. Missing: other aggregate types, for
which it is false. -/
theorem C124_partial (base : Str) (rs : List Record) (s : Prj.Stats) (hb : Utf8 base) (hn : rs.length < 2 ^ 64)
    (hs : Prj.Stats.new.acceptAll rs = .ok s) (hu : ∀ r ∈ rs, Utf8 r.aggType) :
    (listAggregateTypes base s).status = 200 ∧
    ∃ v, parse (listAggregateTypes base s).body = some (v, [10]) ∧ Lists base rs v := by
  refine ⟨rfl, ?_⟩
  obtain ⟨s', e, hc⟩ := Prj.C33_counts rs
  rw [hs] at e
  obtain rfl := Outcome.ok.inj e
  have ht : ∀ t ∈ s.sortedTypes, Utf8 t := by
    intro t h
    obtain ⟨r, hr, rfl⟩ := (hc.types t).mp h
    exact hu r hr
  refine ⟨listJson base s, parse_text _ (list_wf hb s ht) [10] (by intro h; simp [listJson, Json.isNum] at h), ?_⟩
  have hsmall : ∀ t, s.totalByType t < 2 ^ 64 := by
    intro t
    rw [hc.byType]
    have := List.length_filter_le (fun r => decide (r.aggType = t)) rs
    omega
  refine ⟨?_, ⟨s.sortedTypes.map (fun t => ⟨t, s.totalByType t, selfLink base t⟩), ?_, ?_, ?_, ?_⟩, ?_, ?_⟩
  · show num? (.num (Dec.natText s.total)) = _
    simp only [num?]
    rw [Dec.parseUint_natText _ (by rw [hc.total]; exact hn), hc.total]
  · have hm : ∀ l : List Str, (l.map (typeRow base s)).mapM rowOf =
        some (l.map (fun t => ⟨t, s.totalByType t, selfLink base t⟩)) := by
      intro l
      induction l with
      | nil => rfl
      | cons t ts ih =>
        rw [List.map_cons, List.mapM_cons, rowOf_row base t s (hsmall t), ih]
        rfl
    have hd : get "data" (listJson base s) =
        some (match s.sortedTypes with | [] => .null | t :: ts => .arr ((t :: ts).map (typeRow base s))) := rfl
    unfold rowsOf
    rw [hd]
    cases h : s.sortedTypes with
    | nil => rfl
    | cons t ts => exact hm (t :: ts)
  · rw [List.map_map]
    have : ((fun x : Row => x.name) ∘ fun t => (⟨t, s.totalByType t, selfLink base t⟩ : Row)) = id := rfl
    rw [this, List.map_id]
    exact hc.sorted
  · intro t
    rw [List.map_map]
    have : ((fun x : Row => x.name) ∘ fun t => (⟨t, s.totalByType t, selfLink base t⟩ : Row)) = id := rfl
    rw [this, List.map_id]
    exact hc.types t
  · intro x hx
    obtain ⟨t, _, rfl⟩ := List.mem_map.mp hx
    refine ⟨hc.byType t, ?_⟩
    have e1 : tByType = bytes "/events-by-aggregate-type/" := by decide
    have e2 : tDotJson = bytes ".json" := by decide
    simp only [selfLink, e1, e2, List.append_assoc]
  · show str? (.str (base ++ tListTypes)) = _
    have : tListTypes = bytes "/list-aggregate-types" := by decide
    rw [this]; rfl
  · show str? (.str (base ++ tAllEvents)) = _
    have : tAllEvents = bytes "/all-events.json" := by decide
    rw [this]; rfl

/-- Three records of two types. -/
example := C124_partial (bytes "http://x")
  [mkRecord sB 1 1 (evB [1]), mkRecord sA 2 1 (evA [1]), mkRecord sB 3 2 (evB [1])]
  ⟨some [([66], 2), ([65], 1)], 3, 3⟩ (utf8_const (by decide)) (by decide) (by decide)
  (by
    intro r hr
    simp only [List.mem_cons, List.not_mem_nil, or_false] at hr
    rcases hr with rfl | rfl | rfl
    · exact Prj.utf8_B
    · exact Prj.utf8_A
    · exact Prj.utf8_B)

/-- The texts, with one type and with none. -/
example : (listAggregateTypes [104] ⟨some [([66], 2)], 3, 2⟩).body =
      bytes "{\"data\":[{\"links\":{\"self\":\"h/events-by-aggregate-type/B.json\"},\"name\":\"B\",\"totalEvents\":2}],\"totalEvents\":2,\"links\":{\"allEvents\":\"h/all-events.json\",\"self\":\"h/list-aggregate-types\"}}\n" ∧
    (listAggregateTypes [104] .new).body =
      bytes "{\"data\":null,\"totalEvents\":0,\"links\":{\"allEvents\":\"h/all-events.json\",\"self\":\"h/list-aggregate-types\"}}\n" := by
  refine ⟨by decide +kernel, by decide +kernel⟩

/-- **C124 is false** of aggregate types that are not UTF-8: two of them appear as two elements with the same
name. -/
theorem C124_false : ¬ C124_full := by
  intro hf
  obtain ⟨_, v, h1, h2⟩ := hf []
    [{ mkRecord sA 1 1 (evA [1]) with aggType := [255] }, { mkRecord sA 2 2 (evA [1]) with aggType := [254] }]
    ⟨some [([255], 1), ([254], 1)], 2, 2⟩ ⟨[], by simp, rfl⟩ (by decide) (by decide)
  obtain ⟨l, hl, _, hm, _⟩ := h2.rows
  have e : (parse (listAggregateTypes [] ⟨some [([255], 1), ([254], 1)], 2, 2⟩).body).map
      (fun p => (rowsOf p.1).map (fun l => l.map (·.name))) = some (some [[239, 191, 189], [239, 191, 189]]) := by
    decide +kernel
  rw [h1] at e
  simp only [Option.map_some, hl, Option.some.injEq] at e
  have := (hm [255]).mpr ⟨{ mkRecord sA 1 1 (evA [1]) with aggType := [255] }, by simp, rfl⟩
  rw [e] at this
  revert this
  decide

end RangeDB.Http

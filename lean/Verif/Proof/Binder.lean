import Verif.Spec.Binder

/-!
# Lemmas about binding
-/

namespace RangeDB.Evb

theorem bind_append (m : Identifier) (es fs : List Bound) : bind m (es ++ fs) = bind (bind m es) fs := by
  induction es generalizing m with
  | nil => rfl
  | cons e es ih => exact ih _

theorem lookup_bind_one (m : Identifier) (e : Bound) (t : Str) :
    lookup (bind m [e]) t = if e.eventType = t then some (getType e.ty) else lookup m t := by
  unfold bind bind lookup
  by_cases h : e.eventType = t
  · simp [h]
  · simp only [h, if_false, List.find?_cons, decide_false]
    congr 1
    induction m with
    | nil => rfl
    | cons x xs ih =>
      by_cases hx : x.1 = e.eventType
      · have : x.1 ≠ t := fun c => h (hx.symm.trans c)
        simp only [List.filter_cons, hx, ne_eq, not_true_eq_false, decide_false, List.find?_cons, h]
        exact ih
      · simp only [List.filter_cons, ne_eq, hx, not_false_eq_true, decide_true, if_true, List.find?_cons]
        split
        · rfl
        · exact ih

theorem type_of_top {p : Package} (hv : p.Valid) {d : TypeDecl} (hd : d ∈ p.top) : p.type d.name = some d := by
  unfold Package.type
  unfold Package.Valid at hv
  revert hv hd
  generalize p.top = l
  intro hv hd
  induction l with
  | nil => simp at hd
  | cons a as ih =>
    simp only [List.map_cons, List.nodup_cons, List.mem_map, not_exists, not_and] at hv
    rcases List.mem_cons.mp hd with rfl | hd'
    · simp
    · have : a.name ≠ d.name := fun c => hv.1 d hd' c.symm
      simp only [List.find?_cons, this, decide_false]
      exact ih hv.2 hd'

theorem arguments_mem (p : Package) (names : List Str) (b : Bound) :
    b ∈ arguments p names ↔
      ∃ n ∈ names, ∃ d, p.type n = some d ∧ d.eventType = some b.eventType ∧ b.ty = .ptr (.named n) := by
  unfold arguments
  simp only [List.mem_filterMap]
  constructor
  · rintro ⟨n, hn, h⟩
    cases hp : p.type n with
    | none => simp [hp] at h
    | some d =>
      cases ht : d.eventType with
      | none => simp [hp, ht] at h
      | some t =>
        simp only [hp, ht, Option.map_some, Option.some.injEq] at h
        subst h
        exact ⟨n, hn, d, hp, ht, rfl⟩
  · rintro ⟨n, hn, d, hp, ht, hb⟩
    refine ⟨n, hn, ?_⟩
    simp only [hp, ht, Option.map_some, Option.some.injEq]
    cases b
    simp_all

end RangeDB.Evb

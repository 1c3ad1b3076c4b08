import Verif.Thm.EventParser
import Verif.Thm.Projection

/-!
# The order in which generated code handles numeric fields (part of C77)
-/

namespace RangeDB.Gen

open Prj

/-- In the order of the keys: no key before a smaller one. -/
def InOrder (l : List (Str × Str)) : Prop := l.Pairwise (fun p q => strLt q.1 p.1 = false)

theorem insertKey_order (p : Str × Str) : ∀ l, InOrder l → InOrder (insertKey p l)
  | [], _ => by simp [insertKey, InOrder]
  | q :: qs, h => by
    simp only [InOrder, List.pairwise_cons] at h
    simp only [insertKey]
    split
    · rename_i hlt
      refine List.pairwise_cons.mpr ⟨?_, insertKey_order p qs h.2⟩
      intro r hr
      rcases List.mem_cons.mp ((insertKey_perm p qs).mem_iff.mp hr) with rfl | hr
      · cases hx : strLt r.1 q.1 with
        | false => rfl
        | true => exact absurd (C33_order.2.1 _ _ _ hlt hx) (by simp [C33_order.1])
      · exact h.1 r hr
    · rename_i hlt
      refine List.pairwise_cons.mpr ⟨?_, List.pairwise_cons.mpr h⟩
      intro r hr
      rcases List.mem_cons.mp hr with rfl | hr
      · simpa using hlt
      · have h1 := h.1 r hr
        cases hx : strLt r.1 p.1 with
        | false => rfl
        | true =>
          by_cases e : r.1 = q.1
          · rw [e] at hx
            exact absurd hx hlt
          · rcases C33_order.2.2.1 _ _ e with h' | h'
            · rw [h1] at h'; cases h'
            · exact absurd (C33_order.2.1 _ _ _ h' hx) hlt

theorem sorted_order (pd : PersonalData) : InOrder pd.sorted := by
  unfold PersonalData.sorted
  induction pd.ser with
  | nil => simp [InOrder]
  | cons p l ih => exact insertKey_order p _ ih

theorem perm_eq : ∀ {a b : List (Str × Str)}, a.Perm b → (a.map (·.1)).Nodup → InOrder a → InOrder b → a = b
  | [], b, h, _, _, _ => h.nil_eq
  | p :: a, b, h, hn, ha, hb => by
    cases b with
    | nil => exact absurd h.length_eq (by simp)
    | cons q b =>
      have hpq : p = q := by
        rcases List.mem_cons.mp (h.mem_iff.mp (List.mem_cons_self (a := p) (l := a))) with e | hp
        · exact e
        rcases List.mem_cons.mp (h.mem_iff.mpr (List.mem_cons_self (a := q) (l := b))) with e | hq
        · exact e.symm
        have h1 := (List.pairwise_cons.mp ha).1 q hq
        have h2 := (List.pairwise_cons.mp hb).1 p hp
        have e : p.1 = q.1 := by
          by_cases e : p.1 = q.1
          · exact e
          · rcases C33_order.2.2.1 _ _ e with h' | h' <;> simp_all
        have hq' : q.1 ∈ a.map (·.1) := List.mem_map_of_mem hq
        rw [← e] at hq'
        simp only [List.map_cons, List.nodup_cons] at hn
        exact absurd hq' hn.1
      subst hpq
      simp only [List.map_cons, List.nodup_cons] at hn
      rw [perm_eq (List.perm_cons p |>.mp h) hn.2 (List.pairwise_cons.mp ha).2 (List.pairwise_cons.mp hb).2]

/-- **C77**, order: the generated methods handle the numeric fields in the order of the names of the string fields that take
their cipher texts, and so in one order only: two runs of the generator which find the same pairs, in whatever order, write the
same code. -/
theorem C77_order (pd pd' : PersonalData) :
    (pd.sorted.map (·.1)).Pairwise (fun a b => strLt b a = false) ∧
    (pd.ser.Perm pd'.ser → (pd.ser.map (·.1)).Nodup → pd.sorted = pd'.sorted) := by
  have hp : ∀ pd : PersonalData, pd.sorted.Perm pd.ser := by
    intro pd
    unfold PersonalData.sorted
    induction pd.ser with
    | nil => exact List.Perm.refl _
    | cons p l ih => exact (insertKey_perm p _).trans (ih.cons p)
  refine ⟨List.pairwise_map.mpr (sorted_order pd), fun h hn => ?_⟩
  exact perm_eq ((hp pd).trans (h.trans (hp pd').symm)) (((hp pd).map _).nodup_iff.mpr hn) (sorted_order pd) (sorted_order pd')

example : (PersonalData.sorted ⟨[83], [[70]], [([98], [1]), ([97], [2])]⟩) = [([97], [2]), ([98], [1])] := by
  decide

end RangeDB.Gen

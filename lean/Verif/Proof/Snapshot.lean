import Verif.Proof.Json
import Verif.Model.Projection

/-!
# Proofs about the JSON text of a snapshot of the statistics
-/

namespace RangeDB.Prj

open Json

/-- The same data: Go maps have no order. -/
def Stats.same (s t : Stats) : Prop :=
  s.latest = t.latest ∧ s.total = t.total ∧
  match s.byType, t.byType with
  | none, none => True
  | some a, some b => a.Perm b
  | _, _ => False

/-- Statistics as the code can hold them, and with types that are text. -/
structure Stats.Good (s : Stats) : Prop where
  latest : s.latest < 2 ^ 64
  total : s.total < 2 ^ 64
  nodup : ((s.byType.getD []).map (·.1)).Nodup
  text : ∀ e ∈ s.byType.getD [], Valid e.1
  small : ∀ e ∈ s.byType.getD [], e.2 < 2 ^ 64

theorem insertEntry_perm (x : Str × Nat) (l : List (Str × Nat)) : (insertEntry x l).Perm (x :: l) := by
  induction l with
  | nil => exact .refl _
  | cons y ys ih =>
    unfold insertEntry
    split
    · exact (ih.cons y).trans (.swap x y ys)
    · exact .refl _

theorem sortEntries_perm (l : List (Str × Nat)) : (l.foldr insertEntry []).Perm l := by
  induction l with
  | nil => exact .refl _
  | cons x xs ih => exact (insertEntry_perm x _).trans (ih.cons x)

theorem putNum_new {k : Str} {n : Nat} {m : List (Str × Nat)} (h : k ∉ m.map (·.1)) :
    putNum k n m = m ++ [(k, n)] := by
  induction m with
  | nil => rfl
  | cons x m ih =>
    simp only [List.map_cons, List.mem_cons, not_or] at h
    obtain ⟨a, b⟩ := x
    simp only [putNum, List.cons_append]
    rw [if_neg (fun e => h.1 e.symm), ih h.2]

theorem decodeEntries (l acc : List (Str × Nat)) (hnd : ((acc ++ l).map (·.1)).Nodup)
    (hs : ∀ e ∈ l, e.2 < 2 ^ 64) :
    (l.map (fun e => (e.1, Json.num (Dec.natText e.2)))).foldl decodeEntry (some acc) = some (acc ++ l) := by
  induction l generalizing acc with
  | nil => simp
  | cons x xs ih =>
    simp only [List.map_cons, List.foldl_cons, decodeEntry, decodeNum,
      Dec.parseUint_natText x.2 (hs x (by simp))]
    have hx : x.1 ∉ acc.map (·.1) := by
      intro hm
      rw [List.map_append, List.nodup_append] at hnd
      exact hnd.2.2 x.1 hm x.1 (by simp) rfl
    rw [putNum_new hx, ih _ (by simpa using hnd) (fun e he => hs e (by simp [he]))]
    simp

theorem entries_nums (l : List (Str × Nat)) : Numsf (l.map (fun e => (e.1, Json.num (Dec.natText e.2)))) := by
  induction l with
  | nil => trivial
  | cons x xs ih => exact ⟨scanNum_natText _, ih⟩

theorem entries_wf (l : List (Str × Nat)) (h : ∀ e ∈ l, Valid e.1) :
    WFf (l.map (fun e => (e.1, Json.num (Dec.natText e.2)))) := by
  induction l with
  | nil => trivial
  | cons x xs ih => exact ⟨h x (by simp), scanNum_natText _, ih (fun e he => h e (by simp [he]))⟩

theorem json_nums (s : Stats) : s.json.Nums := by
  refine ⟨?_, scanNum_natText _, scanNum_natText _, trivial⟩
  cases h : s.byType with
  | none => simp [countsJson, Json.Nums]
  | some m => simp only [countsJson, Json.Nums]; exact entries_nums _

theorem json_wf {s : Stats} (h : ∀ e ∈ s.byType.getD [], Valid e.1) : s.json.WF := by
  refine ⟨(by decide : Valid kCounts), ?_, (by decide : Valid kLatest), scanNum_natText _,
    (by decide : Valid kTotal), scanNum_natText _, trivial⟩
  cases hb : s.byType with
  | none => simp [countsJson, Json.WF]
  | some m =>
    simp only [countsJson, Json.WF]
    refine entries_wf _ (fun e he => h e ?_)
    rw [hb]
    exact (sortEntries_perm m).mem_iff.mp he

/-- What `decode` makes of a parsed value. -/
def fromValue : Json → Option Stats
  | .obj l => l.foldl decodeField (some ⟨none, 0, 0⟩)
  | .null => some ⟨none, 0, 0⟩
  | _ => none

theorem decode_of {t : Str} {v : Json} {r : Str} (h : parse t = some (v, r)) : decode t = fromValue v := by
  unfold decode
  rw [h]
  cases v <;> rfl

theorem parse_encode {s : Stats} (h : ∀ e ∈ s.byType.getD [], Valid e.1) (r : Str) :
    parse (s.json.text ++ r) = some (s.json, r) :=
  parse_text _ (json_wf h) r (by intro e; simp [Stats.json, Json.isNum] at e)

/-- A snapshot decodes to the same statistics. -/
theorem decode_encode {s : Stats} (h : s.Good) : ∃ s', decode (encode s) = some s' ∧ s.same s' := by
  rw [encode, decode_of (parse_encode h.text _)]
  simp only [fromValue, Stats.json, List.foldl_cons, List.foldl_nil]
  have h1 : ∀ x st, decodeField (some st) (kCounts, x) =
      (decodeCounts st.byType x).map (fun m => ⟨m, st.latest, st.total⟩) := by
    intro x st; rfl
  have h2 : ∀ x st, decodeField (some st) (kLatest, x) =
      (decodeNum st.latest x).map (fun n => ⟨st.byType, n, st.total⟩) := by
    intro x st; rfl
  have h3 : ∀ x st, decodeField (some st) (kTotal, x) =
      (decodeNum st.total x).map (fun n => ⟨st.byType, st.latest, n⟩) := by
    intro x st; rfl
  rw [h1]
  cases hb : s.byType with
  | none =>
    simp only [countsJson, decodeCounts, Option.map_some, h2, h3, decodeNum,
      Dec.parseUint_natText _ h.latest, Dec.parseUint_natText _ h.total]
    exact ⟨_, rfl, rfl, rfl, by simp [hb]⟩
  | some m =>
    have hp := sortEntries_perm m
    have hg := h.nodup
    have hsm := h.small
    rw [hb] at hg hsm
    simp only [Option.getD_some] at hg hsm
    simp only [countsJson, decodeCounts, Option.getD_none]
    rw [decodeEntries _ [] (by rw [List.nil_append]; exact (hp.map (·.1)).nodup_iff.mpr hg)
      (fun e he => hsm e (hp.mem_iff.mp he))]
    simp only [Option.map_some, h2, h3, decodeNum, Dec.parseUint_natText _ h.latest,
      Dec.parseUint_natText _ h.total, List.nil_append]
    refine ⟨_, rfl, rfl, rfl, ?_⟩
    simp only [hb]
    exact hp.symm

/-- A snapshot that was not completely written either decodes likewise, because only the final newline is
missing, or it does not decode. -/
theorem decode_torn {s : Stats} (h : ∀ e ∈ s.byType.getD [], Valid e.1) (n : Nat) :
    decode ((encode s).take n) = decode (encode s) ∨ decode ((encode s).take n) = none := by
  have hfull := decode_of (parse_encode h [10])
  by_cases hn : n < s.json.text.length
  · right
    unfold encode
    rw [List.take_append_of_le_length (by omega)]
    have := parse_torn s.json (json_nums s) rfl (s.json.text.take n) (s.json.text.drop n)
      (by intro e; have := congrArg List.length e; simp at this; omega) (List.take_append_drop n _).symm
    unfold decode
    rw [this]
  · left
    unfold encode
    rw [List.take_append, List.take_of_length_le (by omega), hfull]
    exact decode_of (parse_encode h _)

end RangeDB.Prj

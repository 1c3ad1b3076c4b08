import Verif.Proof.EventParser
import Verif.Model.Json

/-!
# Properties of the event generator

`ds` is a struct as its author means it (`Spec/EventParser.lean`), `ds.map FieldDecl.source` its source
text, `visit` the generator, and `sealed` what the encrypted store hands to the store behind it.
-/

namespace RangeDB.Gen

open Cry Key

variable {σ : Type} {unq : Str → Option Str}

/-! ## C77: what is marked as personal data is not stored in plain text -/

/-- Every field marked as personal data is stored encrypted for the subject: a text field holds what the
engine made of its text, a number field holds 0 and its target what the engine made of its digits. -/
def AllSealed (K : Store σ) (enc : Encryptor) (ds : List FieldDecl) (v v' : Val) : Prop :=
  (∀ n ∈ ds.flatMap FieldDecl.personal, ∃ d ∈ ds, ∃ s ∈ d.names, d.mark = .subject ∧
    EncOf K enc (v.str s) (v.str n) (v'.str n)) ∧
  (∀ p ∈ ds.flatMap FieldDecl.numbers, v'.int p.2 = 0 ∧ ∃ d ∈ ds, ∃ s ∈ d.names, d.mark = .subject ∧
    EncOf K enc (v.str s) (Dec.itoa (v.int p.2)) (v'.str p.1))

/-- The full claim of **C77**: if the generator accepts a struct and an event of it is saved, as a struct
or as a pointer, then every field marked as personal data is stored encrypted. -/
def C77_full : Prop :=
  ∀ (unq : Str → Option Str) (ds : List FieldDecl) (pd : Option PersonalData), UnquoteOk unq →
    (∀ d ∈ ds, d.Good) → (ds.flatMap (·.names)).Nodup →
    visit unq (ds.map FieldDecl.source) = .ok pd →
    ∀ (enc : Encryptor) (w : World Mem) (pointer : Bool) (v v' : Val),
      (sealed mem enc w pointer pd v).2 = some (v', none) → AllSealed mem enc ds v v'

/-- A whole file: its events are those of its structs, in order, if every struct is accepted; one that is refused makes
the file an error, so that nothing is generated; and one that makes the generator panic does so whatever the others
are. -/
theorem C77_file (structs : List (List Field)) :
    (∀ pds, getEvents unq structs = .ok pds ↔ structs.map (visit unq) = pds.map .ok) ∧
    ((∃ e, getEvents unq structs = .err e) ↔ (∃ s ∈ structs, visit unq s = .err) ∧ ∀ s ∈ structs, visit unq s ≠ .panic) ∧
    (getEvents unq structs = .panic ↔ ∃ s ∈ structs, visit unq s = .panic) := by
  have hp : Parsed.panic ∈ structs.map (visit unq) ↔ ∃ s ∈ structs, visit unq s = .panic := List.mem_map
  have he : Parsed.err ∈ structs.map (visit unq) ↔ ∃ s ∈ structs, visit unq s = .err := List.mem_map
  have hk : ∀ ps : List Parsed, Parsed.panic ∉ ps → Parsed.err ∉ ps → ∀ pds : List (Option PersonalData),
      (ps.filterMap (fun | .ok pd => some pd | _ => none) = pds ↔ ps = pds.map .ok) := by
    intro ps
    induction ps with
    | nil => intro _ _ pds; cases pds <;> simp
    | cons p ps ih =>
      intro h1 h2 pds
      cases p with
      | panic => simp at h1
      | err => simp at h2
      | ok pd =>
        have := ih (fun h => h1 (List.mem_cons_of_mem _ h)) (fun h => h2 (List.mem_cons_of_mem _ h))
        cases pds with
        | nil => simp
        | cons q qs =>
          rw [List.filterMap_cons]
          simp only [List.map_cons, List.cons.injEq, Parsed.ok.injEq]
          rw [this qs]
  have hok : ∀ pds : List (Option PersonalData), Parsed.panic ∉ pds.map Parsed.ok ∧ Parsed.err ∉ pds.map Parsed.ok := by
    intro pds; constructor <;> simp
  simp only [getEvents]
  refine ⟨?_, ?_, ?_⟩
  · intro pds
    by_cases h1 : Parsed.panic ∈ structs.map (visit unq)
    · rw [if_pos h1]
      simp only [reduceCtorEq, false_iff]
      intro h; rw [h] at h1; exact (hok pds).1 h1
    · rw [if_neg h1]
      by_cases h2 : Parsed.err ∈ structs.map (visit unq)
      · rw [if_pos h2]
        simp only [reduceCtorEq, false_iff]
        intro h; rw [h] at h2; exact (hok pds).2 h2
      · rw [if_neg h2]
        simp only [Outcome.ok.injEq]
        exact hk _ h1 h2 pds
  · rw [← he]
    have hp' : (∀ s ∈ structs, visit unq s ≠ .panic) ↔ Parsed.panic ∉ structs.map (visit unq) := by
      rw [hp]; simp
    rw [hp']
    by_cases h1 : Parsed.panic ∈ structs.map (visit unq)
    · rw [if_pos h1]; simp [h1]
    · rw [if_neg h1]
      by_cases h2 : Parsed.err ∈ structs.map (visit unq)
      · rw [if_pos h2]; simp [h1, h2]
      · rw [if_neg h2]; simp [h2]
  · rw [← hp]
    by_cases h1 : Parsed.panic ∈ structs.map (visit unq)
    · simp [h1]
    · rw [if_neg h1]
      by_cases h2 : Parsed.err ∈ structs.map (visit unq)
      · rw [if_pos h2]; simp [h1]
      · rw [if_neg h2]; simp [h1]

/-- **C77**, what holds: for a careful struct (`Careful`: one name per marked declaration, tags in
backticks, a subject, different targets) that is saved as a pointer, every marked field is stored
encrypted. Missing: all other structs, and events that are not saved as pointers, for which the claim is
false. -/
theorem C77_partial (K : Store σ) (enc : Encryptor) (w : World σ) (hu : UnquoteOk unq) (ds : List FieldDecl)
    (hg : ∀ d ∈ ds, d.Good) (hn : (ds.flatMap (·.names)).Nodup) (hc : Careful ds) (pd : Option PersonalData)
    (hv : visit unq (ds.map FieldDecl.source) = .ok pd) (v v' : Val)
    (h : (sealed K enc w true pd v).2 = some (v', none)) : AllSealed K enc ds v v' := by
  have hf := careful_fields ds ⟨[], [], []⟩ hc.single hc.ticks
  have hs := careful_ser ds ⟨[], [], []⟩ hc.single hc.ticks (by simpa using hc.targets)
  have hsub := accOf_subject ds ⟨[], [], []⟩
  rw [visit_source hu ds hg] at hv
  simp only [List.nil_append] at hf hs
  have hpers : ∀ d ∈ ds, ∀ n ∈ d.names, n ∈ ds.flatMap (·.names) := fun d hd n hnn =>
    List.mem_flatMap.mpr ⟨d, hd, hnn⟩
  by_cases hsne : (ds.foldl accOf ⟨[], [], []⟩).subject = []
  · have hno : ¬ ∃ d ∈ ds, d.personal ≠ [] ∨ d.numbers ≠ [] := by
      intro hex
      exact careful_subject ds ⟨[], [], []⟩ hg hc.ticks (Or.inl (hc.subject hex)) hsne
    refine ⟨fun n hn => ?_, fun p hp => ?_⟩
    · obtain ⟨d, hd, hdn⟩ := List.mem_flatMap.mp hn
      exact absurd ⟨d, hd, Or.inl (List.ne_nil_of_mem hdn)⟩ hno
    · obtain ⟨d, hd, hdn⟩ := List.mem_flatMap.mp hp
      exact absurd ⟨d, hd, Or.inr (List.ne_nil_of_mem hdn)⟩ hno
  · split at hv
    · cases hv
    · cases hv
      obtain ⟨ds0, hds0, _, hmark, hhead⟩ := hsub.resolve_left hsne
      have hsname : (ds.foldl accOf ⟨[], [], []⟩).subject ∈ ds0.names := List.mem_of_mem_head? hhead
      generalize hacc : ds.foldl accOf ⟨[], [], []⟩ = a at *
      generalize hpd : (⟨a.subject, a.fields, a.ser⟩ : PersonalData) = pd at h
      have hpf : pd.fields = ds.flatMap FieldDecl.personal := by rw [← hpd]; exact hf
      have hps : pd.ser = ds.flatMap FieldDecl.numbers := by rw [← hpd]; exact hs
      have hpsub : pd.subject = a.subject := by rw [← hpd]
      simp only [sealed, if_true] at h
      cases hge : genEncrypt K enc w (pd.view v) with
      | mk w' r =>
        rw [hge] at h
        cases r with
        | none => simp at h
        | some x =>
          obtain ⟨e, err⟩ := x
          simp only [Option.some.injEq, Prod.mk.injEq] at h
          obtain ⟨rfl, rfl⟩ := h
          obtain ⟨_, _, h49, _⟩ := C49_encrypt K enc w (pd.view v) e none (by rw [hge])
          obtain ⟨l1, g1, g2, l2, g3⟩ := h49 rfl
          -- the names are distinct
          have hnd : pd.fields.Nodup := by
            rw [hpf]
            have := personal_sublist ds
            exact this.nodup hn
          have hsrc : (pd.ser.map (·.2)).Nodup := by
            rw [hps]
            have := numbers_sublist ds
            exact this.nodup hn
          have htgt : (pd.ser.map (·.1)).Nodup := by rw [hps]; exact hc.targets
          have hper := sorted_perm pd
          have hsrc' : (pd.sorted.map (·.2)).Nodup := ((hper.map (·.2)).nodup_iff).mpr hsrc
          have htgt' : (pd.sorted.map (·.1)).Nodup := ((hper.map (·.1)).nodup_iff).mpr htgt
          have hvs : (pd.view v).strs = pd.fields.map v.str := rfl
          have hvi : (pd.view v).ints = pd.sorted.map (fun p => v.int p.2) := rfl
          have hvsub : (pd.view v).subject = v.str a.subject := by simp [PersonalData.view, hpsub]
          constructor
          · intro n hnp
            refine ⟨ds0, hds0, _, hsname, hmark, ?_⟩
            rw [← hpf] at hnp
            obtain ⟨i, hi, hin⟩ := List.getElem_of_mem hnp
            have hle : i < e.strs.length := by rw [l1, hvs]; simpa using hi
            have hnt : n ∉ pd.sorted.map (·.1) := by
              intro ht
              have ht := ((hper.map (·.1)).mem_iff).mp ht
              rw [hps] at ht
              exact hc.apart n ht (hpf ▸ hnp)
            have hval : (pd.write v e).str n = e.strs[i] := by
              simp only [PersonalData.write]
              rw [assign_notMem (fun h => hnt (zip_fst_subset h))]
              apply assign_mem
              · rw [List.map_fst_zip (by rw [l1, hvs]; simp)]; exact hnd
              · rw [List.mem_iff_getElem]
                refine ⟨i, by rw [List.length_zip]; omega, ?_⟩
                rw [List.getElem_zip, hin]
            rw [hval]
            have := g1 i (v.str n) e.strs[i] (by rw [hvs, List.getElem?_map, List.getElem?_eq_getElem hi, hin]; rfl)
              (List.getElem?_eq_getElem hle)
            rw [hvsub] at this
            exact this
          · intro p hp
            rw [← hps] at hp
            have hp := hper.mem_iff.mpr hp
            obtain ⟨i, hi, hip⟩ := List.getElem_of_mem hp
            have hli : e.ints.length = pd.sorted.length := by rw [g2, hvi]; simp
            have hls : e.sers.length = pd.sorted.length := by rw [l2, hvi]; simp
            constructor
            · simp only [PersonalData.write]
              apply assign_mem
              · rw [List.map_fst_zip (by rw [hli]; simp)]; exact hsrc'
              · rw [List.mem_iff_getElem]
                refine ⟨i, by rw [List.length_zip, hli]; simp; omega, ?_⟩
                rw [List.getElem_zip]
                simp [hip, g2]
            · refine ⟨ds0, hds0, _, hsname, hmark, ?_⟩
              have hval : (pd.write v e).str p.1 = e.sers[i]'(by omega) := by
                simp only [PersonalData.write]
                apply assign_mem
                · rw [List.map_fst_zip (by rw [hls]; simp)]; exact htgt'
                · rw [List.mem_iff_getElem]
                  refine ⟨i, by rw [List.length_zip, hls]; simp; omega, ?_⟩
                  rw [List.getElem_zip]
                  simp [hip]
              rw [hval]
              have := g3 i (v.int p.2) (e.sers[i]'(by omega))
                (by rw [hvi, List.getElem?_map, List.getElem?_eq_getElem hi, hip]; rfl)
                (List.getElem?_eq_getElem (by omega))
              rw [hvsub] at this
              exact this

/-- **C77 is false** of events saved as structs: whatever is marked, an event that is not a pointer is
stored as it is. (All generated aggregates, and the chat example, save events as structs.) -/
theorem C77_value_plain (K : Store σ) (enc : Encryptor) (w : World σ) (pd : Option PersonalData) (v v' : Val)
    (err : Option KErr) (h : (sealed K enc w false pd v).2 = some (v', err)) : v' = v ∧ err = none := by
  cases pd with
  | none => simp [sealed] at h; exact ⟨h.1.symm, h.2.symm⟩
  | some pd => simp [sealed] at h; exact ⟨h.1.symm, h.2.symm⟩

/-- **C77 is false** of the second and later names of a declaration: in every struct, a name marked as
personal text that is not the first of its declaration keeps its plain text. -/
theorem C77_second_name_plain (K : Store σ) (enc : Encryptor) (w : World σ) (hu : UnquoteOk unq)
    (ds : List FieldDecl) (hg : ∀ d ∈ ds, d.Good) (pd : Option PersonalData)
    (hv : visit unq (ds.map FieldDecl.source) = .ok pd) (n : Str)
    (hfirst : ∀ d ∈ ds, d.names.head? ≠ some n) (htarget : ∀ d ∈ ds, d.mark ≠ .serialized n)
    (pointer : Bool) (v v' : Val) (err : Option KErr)
    (h : (sealed K enc w pointer pd v).2 = some (v', err)) : v'.str n = v.str n := by
  rw [visit_source hu ds hg] at hv
  split at hv
  · cases hv
  · split at hv
    · cases hv
      simp only [sealed] at h
      split at h
      · split at h
        · simp at h
        · simp only [Option.some.injEq, Prod.mk.injEq] at h
          rw [← h.1]
          apply write_str
          · intro hm
            rcases accOf_fields ds _ n hm with h | ⟨d, hd, _, _, hh⟩
            · simp at h
            · exact hfirst d hd hh
          · intro hm
            obtain ⟨p, hp, rfl⟩ := List.mem_map.mp hm
            rcases accOf_ser ds _ p hp with h | ⟨d, hd, _, hh, _⟩
            · simp at h
            · exact htarget d hd hh
      · simp only [Option.some.injEq, Prod.mk.injEq] at h
        rw [← h.1]
    · cases hv
      simp only [sealed, Option.some.injEq, Prod.mk.injEq] at h
      rw [← h.1]

/-- **C77 is false** of structs without a subject written in backticks: the generator accepts them, writes
no `Encrypt` method, and everything is stored as it is. -/
theorem C77_no_subject_plain (K : Store σ) (enc : Encryptor) (w : World σ) (hu : UnquoteOk unq)
    (ds : List FieldDecl) (hg : ∀ d ∈ ds, d.Good) (pd : Option PersonalData)
    (hv : visit unq (ds.map FieldDecl.source) = .ok pd)
    (hno : ∀ d ∈ ds, d.mark = .subject → d.raw = false)
    (pointer : Bool) (v v' : Val) (err : Option KErr)
    (h : (sealed K enc w pointer pd v).2 = some (v', err)) : pd = none ∧ v' = v ∧ err = none := by
  have hs : (ds.foldl accOf ⟨[], [], []⟩).subject = [] := by
    rcases accOf_subject ds ⟨[], [], []⟩ with h | ⟨d, hd, hr, hm, _⟩
    · exact h
    · rw [hno d hd hm] at hr; cases hr
  rw [visit_source hu ds hg, hs] at hv
  split at hv
  · cases hv
  · simp only [ne_eq, not_true_eq_false, if_false, Parsed.ok.injEq] at hv
    subst hv
    simp only [sealed, Option.some.injEq, Prod.mk.injEq] at h
    exact ⟨rfl, h.1.symm, h.2.symm⟩

/-- **C77 is false** of tags written as strings in double quotes, which Go treats like tags in backticks:
a text field all of whose declarations are so written keeps its plain text. -/
theorem C77_quoted_plain (K : Store σ) (enc : Encryptor) (w : World σ) (hu : UnquoteOk unq)
    (ds : List FieldDecl) (hg : ∀ d ∈ ds, d.Good) (pd : Option PersonalData)
    (hv : visit unq (ds.map FieldDecl.source) = .ok pd) (n : Str)
    (hq : ∀ d ∈ ds, n ∈ d.names → d.raw = false) (htarget : ∀ d ∈ ds, d.mark ≠ .serialized n)
    (pointer : Bool) (v v' : Val) (err : Option KErr)
    (h : (sealed K enc w pointer pd v).2 = some (v', err)) : v'.str n = v.str n := by
  rw [visit_source hu ds hg] at hv
  split at hv
  · cases hv
  · split at hv
    · cases hv
      simp only [sealed] at h
      split at h
      · split at h
        · simp at h
        · simp only [Option.some.injEq, Prod.mk.injEq] at h
          rw [← h.1]
          apply write_str
          · intro hm
            rcases accOf_fields ds _ n hm with h | ⟨d, hd, hr, _, hh⟩
            · simp at h
            · rw [hq d hd (List.mem_of_mem_head? hh)] at hr; cases hr
          · intro hm
            obtain ⟨p, hp, rfl⟩ := List.mem_map.mp hm
            rcases accOf_ser ds _ p hp with h | ⟨d, hd, _, hh, _⟩
            · simp at h
            · exact htarget d hd hh
      · simp only [Option.some.injEq, Prod.mk.injEq] at h
        rw [← h.1]
    · cases hv
      simp only [sealed, Option.some.injEq, Prod.mk.injEq] at h
      rw [← h.1]

/-- `ID string`, marked as the subject. -/
def dID : FieldDecl := ⟨[[73, 68]], .ident tString, .subject, [], [], true⟩
/-- `Name string`, personal text, with a `json:"name"` tag in front. -/
def dName : FieldDecl := ⟨[[78, 97, 109, 101]], .ident tString, .personal, [([106, 115, 111, 110], [110, 97, 109, 101])], [], true⟩
/-- `Born int`, a personal number with target `BornX`. -/
def dBorn : FieldDecl := ⟨[[66, 111, 114, 110]], .ident [105, 110, 116], .serialized [66, 111, 114, 110, 88], [], [], true⟩
/-- `BornX string`. -/
def dBornX : FieldDecl := ⟨[[66, 111, 114, 110, 88]], .ident tString, .plain, [], [], true⟩
/-- `Died int`, a personal number with the same target. -/
def dDied : FieldDecl := ⟨[[68, 105, 101, 100]], .ident [105, 110, 116], .serialized [66, 111, 114, 110, 88], [], [], true⟩
/-- `First, Last string`, personal text. -/
def dNames : FieldDecl := ⟨[[70, 105, 114, 115, 116], [76, 97, 115, 116]], .ident tString, .personal, [], [], true⟩
/-- `Name string`, personal text, the tag written in double quotes. -/
def dQuoted : FieldDecl := ⟨[[78, 97, 109, 101]], .ident tString, .personal, [], [], false⟩

/-- A decidable form of `Good` for declarations with unescaped tags. -/
theorem good_of {d : FieldDecl} (h1 : d.names ≠ [] ∧ [] ∉ d.names)
    (h2 : (d.before ++ d.after).all (fun p => decide (p.1 ≠ [] ∧ 32 ∉ p.1 ∧ 58 ∉ p.1 ∧ p.1 ≠ kEncrypt ∧
      p.1 ≠ kSerialized) && (p.1 ++ p.2).all (fun c => decide (32 ≤ c ∧ c ≤ 126 ∧ c ≠ 34 ∧ c ≠ 92 ∧ c ≠ 96))) = true)
    (h3 : (match d.mark with
      | .serialized t => decide (t ≠ [] ∧ 44 ∉ t) && t.all (fun c => decide (32 ≤ c ∧ c ≤ 126 ∧ c ≠ 34 ∧ c ≠ 92 ∧ c ≠ 96))
      | _ => true) = true) : d.Good := by
  refine ⟨h1, fun p hp => ?_, fun t ht => ?_⟩
  · have := List.all_eq_true.mp h2 p hp
    simp only [Bool.and_eq_true, decide_eq_true_eq, List.all_eq_true, List.mem_append] at this
    obtain ⟨⟨a, b, c, d, e⟩, f⟩ := this
    exact ⟨⟨a, fun x hx => f x (Or.inl hx), b, c⟩, fun x hx => f x (Or.inr hx), d, e⟩
  · rw [ht] at h3
    simp only [Bool.and_eq_true, decide_eq_true_eq, List.all_eq_true] at h3
    exact ⟨h3.1.1, h3.2, h3.1.2⟩

theorem unquote_some : UnquoteOk some := fun _ _ => rfl

theorem dID_good : dID.Good := good_of (by decide) (by decide) (by decide)
theorem dName_good : dName.Good := good_of (by decide) (by decide) (by decide)
theorem dBorn_good : dBorn.Good := good_of (by decide) (by decide) (by decide)
theorem dBornX_good : dBornX.Good := good_of (by decide) (by decide) (by decide)
theorem dNames_good : dNames.Good := good_of (by decide) (by decide) (by decide)
theorem dQuoted_good : dQuoted.Good := good_of (by decide) (by decide) (by decide)

/-- `C77_partial`: a struct with a subject, a text and a number meets the hypotheses; the generator finds
exactly these fields; and saving an event of it with ROT13 succeeds. -/
example : (∀ d ∈ [dID, dName, dBorn, dBornX], d.Good) ∧
    ([dID, dName, dBorn, dBornX].flatMap (·.names)).Nodup ∧ Careful [dID, dName, dBorn, dBornX] ∧
    visit some ([dID, dName, dBorn, dBornX].map FieldDecl.source)
      = .ok (some ⟨[73, 68], [[78, 97, 109, 101]], [([66, 111, 114, 110, 88], [66, 111, 114, 110])]⟩) ∧
    ((sealed mem rot13 ⟨Mem.new, List.replicate 32 1, []⟩ true
      (some ⟨[73, 68], [[78, 97, 109, 101]], [([66, 111, 114, 110, 88], [66, 111, 114, 110])]⟩)
      ⟨fun _ => [97, 98, 99], fun _ => 1990⟩).2.map
        (fun r => (r.1.str [78, 97, 109, 101], r.1.int [66, 111, 114, 110], r.1.str [66, 111, 114, 110, 88], r.2)))
      = some ([110, 111, 112], 0, [49, 57, 57, 48], none) := by
  refine ⟨?_, by decide, ⟨?_, ?_, ?_, by decide, ?_⟩, by decide +kernel, by decide +kernel⟩
  · intro d hd
    simp only [List.mem_cons, List.not_mem_nil, or_false] at hd
    rcases hd with rfl | rfl | rfl | rfl
    · exact dID_good
    · exact dName_good
    · exact dBorn_good
    · exact dBornX_good
  · exact fun _ => ⟨dID, List.mem_cons_self, rfl⟩
  · decide
  · decide
  · decide

theorem engine_rot13 {K : Store σ} {w : World σ} {s f c : Str}
    (h : (engineEncrypt K rot13 w s f).2 = .ok c) : c = f.map rot := by
  simp only [engineEncrypt, rot13] at h
  split at h
  · simp only [R.ok.injEq] at h; exact h.symm
  · split at h
    · cases h
    · split at h
      · cases h
      · simp only [R.ok.injEq] at h; exact h.symm
  · cases h

/-- **C77 is false**: an event with a marked name, saved as a struct, is stored with that name in plain
text. -/
theorem C77_false : ¬ C77_full := by
  intro h
  have := h some [dID, dName] (some ⟨[73, 68], [[78, 97, 109, 101]], []⟩) unquote_some
    (by
      intro d hd
      simp only [List.mem_cons, List.not_mem_nil, or_false] at hd
      rcases hd with rfl | rfl
      · exact dID_good
      · exact dName_good)
    (by decide) (by decide +kernel) rot13 ⟨Mem.new, [], []⟩ false ⟨fun _ => [97], fun _ => 0⟩
    ⟨fun _ => [97], fun _ => 0⟩ rfl
  obtain ⟨d, _, s, _, _, w, hw⟩ := this.1 [78, 97, 109, 101] (by decide)
  have := engine_rot13 hw
  revert this
  decide

/-- **C77 is false** of `First, Last string`: the struct is accepted, the second name is personal, and it
is never encrypted (`C77_second_name_plain` applies). -/
theorem C77_false_second_name (K : Store σ) (enc : Encryptor) (w : World σ) (v v' : Val) (err : Option KErr) :
    visit some ([dID, dNames].map FieldDecl.source)
      = .ok (some ⟨[73, 68], [[70, 105, 114, 115, 116]], []⟩) ∧
    [76, 97, 115, 116] ∈ [dID, dNames].flatMap FieldDecl.personal ∧
    ((sealed K enc w true (some ⟨[73, 68], [[70, 105, 114, 115, 116]], []⟩) v).2 = some (v', err) →
      v'.str [76, 97, 115, 116] = v.str [76, 97, 115, 116]) := by
  have hv : visit some ([dID, dNames].map FieldDecl.source)
      = .ok (some ⟨[73, 68], [[70, 105, 114, 115, 116]], []⟩) := by decide +kernel
  refine ⟨hv, by decide, fun h => ?_⟩
  refine C77_second_name_plain K enc w unquote_some [dID, dNames] ?_ _ hv _ (by decide) (by decide) true v v' err h
  intro d hd
  simp only [List.mem_cons, List.not_mem_nil, or_false] at hd
  rcases hd with rfl | rfl
  · exact dID_good
  · exact dNames_good

/-- **C77 is false** of a struct without a subject: accepted, and nothing is encrypted. -/
theorem C77_false_no_subject (K : Store σ) (enc : Encryptor) (w : World σ) (v : Val) :
    visit some ([dName].map FieldDecl.source) = .ok none ∧
    (sealed K enc w true none v).2 = some (v, none) := by
  exact ⟨by decide +kernel, rfl⟩

/-- **C77 is false** of a tag in double quotes: accepted, and the field is not collected. -/
theorem C77_false_quoted (K : Store σ) (enc : Encryptor) (w : World σ) (v v' : Val) (err : Option KErr) :
    visit some ([dID, dQuoted].map FieldDecl.source) = .ok (some ⟨[73, 68], [], []⟩) ∧
    [78, 97, 109, 101] ∈ [dID, dQuoted].flatMap FieldDecl.personal ∧
    ((sealed K enc w true (some ⟨[73, 68], [], []⟩) v).2 = some (v', err) →
      v'.str [78, 97, 109, 101] = v.str [78, 97, 109, 101]) := by
  have hv : visit some ([dID, dQuoted].map FieldDecl.source)
      = .ok (some ⟨[73, 68], [], []⟩) := by decide +kernel
  refine ⟨hv, by decide, fun h => ?_⟩
  refine C77_quoted_plain K enc w unquote_some [dID, dQuoted] ?_ _ hv _ (by decide) (by decide) true v v' err h
  intro d hd
  simp only [List.mem_cons, List.not_mem_nil, or_false] at hd
  rcases hd with rfl | rfl
  · exact dID_good
  · exact dQuoted_good

/-- **C77 is false** of two numbers with the same target: accepted, and the first one is never
encrypted. -/
theorem C77_false_same_target (K : Store σ) (enc : Encryptor) (w : World σ) (v v' : Val) (err : Option KErr) :
    visit some ([dID, dBorn, dDied, dBornX].map FieldDecl.source)
      = .ok (some ⟨[73, 68], [], [([66, 111, 114, 110, 88], [68, 105, 101, 100])]⟩) ∧
    ([66, 111, 114, 110, 88], [66, 111, 114, 110]) ∈ [dID, dBorn, dDied, dBornX].flatMap FieldDecl.numbers ∧
    ((sealed K enc w true (some ⟨[73, 68], [], [([66, 111, 114, 110, 88], [68, 105, 101, 100])]⟩) v).2 = some (v', err) →
      v'.int [66, 111, 114, 110] = v.int [66, 111, 114, 110]) := by
  refine ⟨by decide +kernel, by decide, fun h => ?_⟩
  simp only [sealed, if_true] at h
  split at h
  · simp at h
  · simp only [Option.some.injEq, Prod.mk.injEq] at h
    rw [← h.1]
    exact write_int _ _ _ (by decide)

/-- A tag that consists of spaces makes the generator panic. -/
theorem C77_blank_tag_panics : visit some [⟨[[73, 68]], .ident tString, some [96, 32, 96]⟩] = .panic := by
  decide

/-! ## C78: the generated methods are legal Go -/

example : getEvents some [[dID, dName, dBorn, dBornX].map FieldDecl.source, [dName].map FieldDecl.source]
    = .ok [some ⟨[73, 68], [[78, 97, 109, 101]], [([66, 111, 114, 110, 88], [66, 111, 114, 110])]⟩, none] := by
  decide +kernel

/-- The lower case of ASCII letters. -/
def lowerAscii (s : Str) : Str := s.map (fun c => if 65 ≤ c ∧ c ≤ 90 then c + 32 else c)

/-- `lcFirst` on names whose first rune is ASCII. -/
def lcAscii : Str → Str := lcFirst lowerAscii (fun _ => 1)

/-- The full claim of **C78**: the variables that the generated methods of an accepted struct declare are
legal. Names are ASCII. -/
def C78_full : Prop :=
  ∀ (unq : Str → Option Str) (ds : List FieldDecl) (pd : PersonalData), UnquoteOk unq →
    (∀ d ∈ ds, d.Good) → (ds.flatMap (·.names)).Nodup → (∀ n ∈ ds.flatMap (·.names), ∀ c ∈ n, c < 128) →
    visit unq (ds.map FieldDecl.source) = .ok (some pd) →
    LegalLocals (pd.encryptLocals lcAscii) ∧ LegalLocals (pd.decryptLocals lcAscii)

/-- `Type string`, personal text. -/
def dType : FieldDecl := ⟨[[84, 121, 112, 101]], .ident tString, .personal, [], [], true⟩

/-- **C78 is false**: a personal field called `Type` makes the generator write `type, err := ...`. -/
theorem C78_false : ¬ C78_full := by
  intro h
  have := h some [dID, dType] ⟨[73, 68], [[84, 121, 112, 101]], []⟩ unquote_some
    (by
      intro d hd
      simp only [List.mem_cons, List.not_mem_nil, or_false] at hd
      rcases hd with rfl | rfl
      · exact dID_good
      · exact good_of (by decide) (by decide) (by decide))
    (by decide) (by decide) (by decide +kernel)
  exact (this.1.2 [116, 121, 112, 101] (by decide)).1 (by decide)

/-- **C78 is false** of names that do not start with an ASCII letter: `lcFirst` removes one byte where it
should remove a rune, so that the name of the variable is not UTF-8. For every lower-casing that turns
"Ä" into "ä". -/
theorem C78_false_utf8 (lower : Str → Str) (runeLen : Str → Nat) (h1 : runeLen [195, 132, 103, 101] = 2)
    (h2 : lower [195, 132] = [195, 164]) :
    Json.Valid [195, 132, 103, 101] ∧ ¬ Json.Valid (lcFirst lower runeLen [195, 132, 103, 101]) := by
  refine ⟨by unfold Json.Valid; decide, ?_⟩
  have : lcFirst lower runeLen [195, 132, 103, 101] = [195, 164, 132, 103, 101] := by
    simp only [lcFirst, h1]
    rw [show List.take 2 [195, 132, 103, 101] = [195, 132] from rfl, h2]
    rfl
  rw [this]
  unfold Json.Valid
  decide

/-- A name that starts with a capital ASCII letter, as exported Go names do. -/
def Capital (n : Str) : Prop := ∃ c cs, n = c :: cs ∧ 65 ≤ c ∧ c ≤ 90

theorem lcAscii_capital {c : Nat} {cs : Str} (h : 65 ≤ c ∧ c ≤ 90) : lcAscii (c :: cs) = (c + 32) :: cs := by
  simp only [lcAscii, lcFirst, lowerAscii, List.take_succ_cons, List.take_zero, List.map_cons, List.map_nil, if_pos h]
  rfl

theorem lcAscii_inj {a b : Str} (ha : Capital a) (hb : Capital b) (h : lcAscii a = lcAscii b) : a = b := by
  obtain ⟨c, cs, rfl, hc⟩ := ha
  obtain ⟨d, ds, rfl, hd⟩ := hb
  rw [lcAscii_capital hc, lcAscii_capital hd] at h
  simp only [List.cons.injEq] at h
  obtain ⟨h1, h2⟩ := h
  rw [h2, show c = d by omega]

theorem nodup_lc {l : List Str} (h : l.Nodup) (hc : ∀ n ∈ l, Capital n) : (l.map lcAscii).Nodup := by
  induction l with
  | nil => simp
  | cons a l ih =>
    rw [List.nodup_cons] at h
    rw [List.map_cons, List.nodup_cons]
    refine ⟨?_, ih h.2 (fun n hn => hc n (List.mem_cons_of_mem _ hn))⟩
    intro hm
    obtain ⟨b, hb, he⟩ := List.mem_map.mp hm
    exact h.1 (lcAscii_inj (hc b (List.mem_cons_of_mem _ hb)) (hc a List.mem_cons_self) he ▸ hb)

/-- The general form: variables `pre ++ f p` and `lc (g p)` for every entry. -/
theorem legal_of (fields : List Str) (l : List (Str × Str)) (pre : Str) (f g : Str × Str → Str)
    (hnd : (fields ++ l.map g).Nodup) (hnf : (l.map f).Nodup) (hc : ∀ n ∈ fields ++ l.map g, Capital n)
    (hr : ∀ n ∈ fields ++ l.map g, lcAscii n ∉ keywords ∧ lcAscii n ∉ usedNames)
    (hp : ∀ n ∈ fields ++ l.map g, ¬ pre <+: lcAscii n)
    (hk : ∀ x, pre ++ x ∉ keywords ∧ pre ++ x ∉ usedNames) :
    LegalLocals (fields.map lcAscii ++ l.flatMap (fun p => [pre ++ f p, lcAscii (g p)])) := by
  have hperm : (fields.map lcAscii ++ l.flatMap (fun p => [pre ++ f p, lcAscii (g p)])).Perm
      ((fields ++ l.map g).map lcAscii ++ (l.map f).map (fun x => pre ++ x)) := by
    rw [List.map_append, List.append_assoc]
    apply List.Perm.append_left
    clear hnd hnf hc hr hp
    induction l with
    | nil => exact List.Perm.refl _
    | cons p l ih =>
      simp only [List.flatMap_cons, List.map_cons, List.cons_append, List.nil_append]
      refine List.Perm.trans (List.Perm.swap _ _ _) ?_
      apply List.Perm.cons
      exact (ih.cons _).trans List.perm_middle.symm
  have hnodup : ((fields ++ l.map g).map lcAscii ++ (l.map f).map (fun x => pre ++ x)).Nodup := by
    rw [List.nodup_append]
    refine ⟨nodup_lc hnd hc, ?_, ?_⟩
    · clear hperm hnd hc hr hp
      induction l with
      | nil => simp
      | cons p l ih =>
        simp only [List.map_cons, List.nodup_cons] at hnf ⊢
        refine ⟨?_, ih hnf.2⟩
        intro hm
        obtain ⟨x, hx, he⟩ := List.mem_map.mp hm
        have : x = f p := by simpa using he
        exact hnf.1 (this ▸ hx)
    · intro a ha b hb hab
      obtain ⟨n, hn, rfl⟩ := List.mem_map.mp ha
      obtain ⟨x, _, rfl⟩ := List.mem_map.mp hb
      exact hp n hn (hab ▸ List.prefix_append _ _)
  refine ⟨hperm.nodup_iff.mpr hnodup, fun x hx => ?_⟩
  rcases List.mem_append.mp (hperm.mem_iff.mp hx) with h | h
  · obtain ⟨n, hn, rfl⟩ := List.mem_map.mp h
    exact hr n hn
  · obtain ⟨y, _, rfl⟩ := List.mem_map.mp h
    exact hk y

theorem tString_free (x : Str) : tString ++ x ∉ keywords ∧ tString ++ x ∉ usedNames := by
  have : ∀ l : List Str, l.all (fun k => ! tString.isPrefixOf k) = true → tString ++ x ∉ l := by
    intro l hl hm
    have := List.all_eq_true.mp hl _ hm
    rw [List.isPrefixOf_iff_prefix.mpr (List.prefix_append _ _)] at this
    cases this
  exact ⟨this _ (by decide), this _ (by decide)⟩

theorem tDecrypted_free (x : Str) : tDecrypted ++ x ∉ keywords ∧ tDecrypted ++ x ∉ usedNames := by
  have : ∀ l : List Str, l.all (fun k => ! tDecrypted.isPrefixOf k) = true → tDecrypted ++ x ∉ l := by
    intro l hl hm
    have := List.all_eq_true.mp hl _ hm
    rw [List.isPrefixOf_iff_prefix.mpr (List.prefix_append _ _)] at this
    cases this
  exact ⟨this _ (by decide), this _ (by decide)⟩

/-- **C78**, what holds: if the marked names and the targets are distinct, start with a capital ASCII
letter, and their lower-case forms are no keywords, no names the methods use, and do not start with
`string` or `decrypted`, then the variables of both methods are legal. Missing: other names, for which the
claim is false. -/
theorem C78_partial (hu : UnquoteOk unq) (ds : List FieldDecl) (hg : ∀ d ∈ ds, d.Good) (hc : Careful ds)
    (pd : PersonalData) (hv : visit unq (ds.map FieldDecl.source) = .ok (some pd))
    (names targets : List Str)
    (hnames : names = ds.flatMap FieldDecl.personal ++ (ds.flatMap FieldDecl.numbers).map (·.2))
    (htargets : targets = (ds.flatMap FieldDecl.numbers).map (·.1))
    (hnd : (names ++ targets).Nodup) (hcap : ∀ n ∈ names ++ targets, Capital n)
    (hr : ∀ n ∈ names ++ targets, lcAscii n ∉ keywords ∧ lcAscii n ∉ usedNames)
    (hp : ∀ n ∈ names ++ targets, ¬ tString <+: lcAscii n ∧ ¬ tDecrypted <+: lcAscii n) :
    LegalLocals (pd.encryptLocals lcAscii) ∧ LegalLocals (pd.decryptLocals lcAscii) := by
  have hf := careful_fields ds ⟨[], [], []⟩ hc.single hc.ticks
  have hs := careful_ser ds ⟨[], [], []⟩ hc.single hc.ticks (by simpa using hc.targets)
  simp only [List.nil_append] at hf hs
  have hpd : pd.fields = ds.flatMap FieldDecl.personal ∧ pd.ser = ds.flatMap FieldDecl.numbers := by
    rw [visit_source hu ds hg] at hv
    split at hv
    · cases hv
    · split at hv
      · cases hv; exact ⟨hf, hs⟩
      · cases hv
  have hper := sorted_perm pd
  rw [hpd.2] at hper
  subst hnames htargets
  have h1 := (List.nodup_append.mp hnd).1
  have h2 := (List.nodup_append.mp hnd).2.1
  have h3 := (List.nodup_append.mp h1).1
  have h4 := (List.nodup_append.mp h1).2.1
  have sub1 : ∀ n ∈ pd.fields ++ pd.sorted.map (·.1), n ∈ (ds.flatMap FieldDecl.personal ++
      (ds.flatMap FieldDecl.numbers).map (·.2)) ++ (ds.flatMap FieldDecl.numbers).map (·.1) := by
    intro n hn
    rcases List.mem_append.mp hn with h | h
    · rw [hpd.1] at h; exact List.mem_append_left _ (List.mem_append_left _ h)
    · exact List.mem_append_right _ ((hper.map (·.1)).mem_iff.mp h)
  have sub2 : ∀ n ∈ pd.fields ++ pd.sorted.map (·.2), n ∈ (ds.flatMap FieldDecl.personal ++
      (ds.flatMap FieldDecl.numbers).map (·.2)) ++ (ds.flatMap FieldDecl.numbers).map (·.1) := by
    intro n hn
    rcases List.mem_append.mp hn with h | h
    · rw [hpd.1] at h; exact List.mem_append_left _ (List.mem_append_left _ h)
    · exact List.mem_append_left _ (List.mem_append_right _ ((hper.map (·.2)).mem_iff.mp h))
  constructor
  · refine legal_of pd.fields pd.sorted tString (·.2) (·.1) ?_ ((hper.map (·.2)).nodup_iff.mpr h4)
      (fun n hn => hcap n (sub1 n hn)) (fun n hn => hr n (sub1 n hn)) (fun n hn => (hp n (sub1 n hn)).1)
      tString_free
    rw [hpd.1, List.nodup_append]
    refine ⟨h3, (hper.map (·.1)).nodup_iff.mpr h2, fun a ha b hb hab => ?_⟩
    exact (List.nodup_append.mp hnd).2.2 a (List.mem_append_left _ ha) b ((hper.map (·.1)).mem_iff.mp hb) hab
  · refine legal_of pd.fields pd.sorted tDecrypted (·.2) (·.2) ?_ ((hper.map (·.2)).nodup_iff.mpr h4)
      (fun n hn => hcap n (sub2 n hn)) (fun n hn => hr n (sub2 n hn)) (fun n hn => (hp n (sub2 n hn)).2)
      tDecrypted_free
    rw [hpd.1, List.nodup_append]
    refine ⟨h3, (hper.map (·.2)).nodup_iff.mpr h4, fun a ha b hb hab => ?_⟩
    exact (List.nodup_append.mp h1).2.2 a ha b ((hper.map (·.2)).mem_iff.mp hb) hab

/-- `C78_partial`: the names `Name`, `Born` and the target `BornX` meet the hypotheses. -/
example : ([[78, 97, 109, 101], [66, 111, 114, 110], [66, 111, 114, 110, 88]] : List Str).Nodup ∧
    (∀ n ∈ ([[78, 97, 109, 101], [66, 111, 114, 110], [66, 111, 114, 110, 88]] : List Str), Capital n) ∧
    (∀ n ∈ ([[78, 97, 109, 101], [66, 111, 114, 110], [66, 111, 114, 110, 88]] : List Str),
      (lcAscii n ∉ keywords ∧ lcAscii n ∉ usedNames) ∧ (¬ tString <+: lcAscii n ∧ ¬ tDecrypted <+: lcAscii n)) := by
  refine ⟨by decide, ?_, by decide⟩
  intro n hn
  simp only [List.mem_cons, List.not_mem_nil, or_false] at hn
  rcases hn with rfl | rfl | rfl
  · exact ⟨78, _, rfl, by decide⟩
  · exact ⟨66, _, rfl, by decide⟩
  · exact ⟨66, _, rfl, by decide⟩

end RangeDB.Gen

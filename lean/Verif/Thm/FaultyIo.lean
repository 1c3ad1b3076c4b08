import Verif.Spec.FaultyIo
import Verif.Thm.IoStream
import Verif.Thm.Msgpack

/-!
# Theorems: record I/O streams over writers and readers that fail (C134, C135)
-/

namespace RangeDB.Json

/-! ## C134: writing -/

theorem writeLoopTo_pieces (fm : Format) (marshal : Record → Option Str) (fuel : Nat) (saved : Bool) (it : RecordIterator) :
    ∃ ps : List Str, ps.flatten = (writeLoop fm marshal fuel saved it).1 ∧ ∀ (σ : Type) (w : Sink σ) (s : σ),
      writeLoopTo fm marshal w fuel saved s it = (w.feed s ps, (writeLoop fm marshal fuel saved it).2) := by
  have text : ∀ b : Str, ∃ ps : List Str, ps.flatten = b ∧ ∀ (σ : Type) (w : Sink σ) (s : σ), (w.text s b).2 = w.feed s ps ∧
      ∀ qs, w.feed s (ps ++ qs) = (w.text s b).2 ++ w.feed (w.text s b).1 qs := by
    intro b
    by_cases hb : b = []
    · exact ⟨[], by simp [hb], fun σ w s => by simp [Sink.text, hb, Sink.feed]⟩
    · exact ⟨[b], by simp, fun σ w s => by simp [Sink.text, hb, Sink.feed, Sink.call]⟩
  induction fuel generalizing saved it with
  | zero => exact ⟨[], rfl, fun _ _ _ => rfl⟩
  | succ fuel ih =>
    simp only [writeLoop, writeLoopTo]
    rcases hn : it.next with ⟨it', _ | _⟩
    · obtain ⟨ps, h1, h2⟩ := text fm.closing
      exact ⟨ps, h1, fun σ w s => by rw [(h2 σ w s).1]⟩
    · by_cases he : it'.error ≠ none
      · exact ⟨[], by simp [he], fun σ w s => by simp [he, Sink.feed]⟩
      · simp only [he, if_false]
        cases hr : it'.record with
        | none => exact ⟨[], rfl, fun _ _ _ => rfl⟩
        | some r =>
          cases hm : marshal r with
          | none =>
            by_cases hc : fm = .ndjson ∧ saved
            · obtain ⟨ps, h1, h2⟩ := text fm.between
              refine ⟨ps, by simp [hc, hm, h1], fun σ w s => ?_⟩
              simp only [hm, hc, and_self, if_true, Prod.mk.injEq, and_true]
              rw [← (h2 σ w s).1, hc.1]
            · exact ⟨[], by simp [hm, hc], fun σ w s => by simp [hm, hc, Sink.feed]⟩
          | some b =>
            obtain ⟨qs, h1, h2⟩ := ih true it'
            cases saved with
            | false =>
              refine ⟨b :: qs, by simp [hm, h1], fun σ w s => ?_⟩
              simp [hm, h2, Sink.feed, Sink.call]
            | true =>
              obtain ⟨ps, h3, h4⟩ := text fm.between
              refine ⟨ps ++ b :: qs, by simp [hm, h1, h3], fun σ w s => ?_⟩
              simp [hm, h2, (h4 σ w s).2, Sink.feed, Sink.call]

/-- **C134**, exactly what happens: an export is a list of slices, which does not depend on the writer; whatever the writer
does with some of them, it is given all of them; and the error is that of an export to a writer that works. -/
theorem C134_exact (fm : Format) (marshal : Record → Option Str) (chan : List ResultRecord) :
    ∃ ps : List Str, ps.flatten = (write fm marshal chan).1 ∧ ∀ (σ : Type) (w : Sink σ) (s : σ),
      writeTo fm marshal w s chan = (w.feed s ps, (write fm marshal chan).2) := by
  obtain ⟨qs, h1, h2⟩ := writeLoopTo_pieces fm marshal (chan.length + 1) false (.new chan)
  by_cases ho : fm.opening = []
  · refine ⟨qs, by simp [write, h1, ho], fun σ w s => ?_⟩
    simp [writeTo, write, h2, ho, Sink.text]
  · refine ⟨fm.opening :: qs, by simp [write, h1], fun σ w s => ?_⟩
    simp [writeTo, write, h2, ho, Sink.text, Sink.call, Sink.feed]

/-- The claim: an export that reports no error has written everything. -/
def C134_full (fm : Format) : Prop :=
  ∀ (marshal : Record → Option Str) (chan : List ResultRecord) (σ : Type) (w : Sink σ) (s : σ),
    (writeTo fm marshal w s chan).2 = none → (writeTo fm marshal w s chan).1 = (write fm marshal chan).1

/-- It is false of every format, for every export that is not empty: on a full disk nothing is written and nothing said. -/
theorem C134_nothing (fm : Format) (marshal : Record → Option Str) (chan : List ResultRecord) :
    writeTo fm marshal disk 0 chan = ([], (write fm marshal chan).2) := by
  obtain ⟨ps, h0, h⟩ := C134_exact fm marshal chan
  rw [h]
  congr 1
  clear h h0
  induction ps with
  | nil => rfl
  | cons p ps ih => simpa [Sink.feed, disk] using ih

theorem C134_false (fm : Format) : ¬ C134_full fm := by
  intro h
  have h0 := h (fun _ => some [120]) (Iter.mk [demoRec 1] none).results Nat disk 0
  rw [C134_nothing] at h0
  have := h0 (by cases fm <;> rfl)
  cases fm <;> exact absurd this (by decide)

/-- **C134, what holds**: a writer that takes everything it is given has got the whole export. -/
theorem C134_partial (fm : Format) (marshal : Record → Option Str) (chan : List ResultRecord) (σ : Type) (w : Sink σ)
    (hw : w.Sound) (s : σ) : writeTo fm marshal w s chan = write fm marshal chan := by
  obtain ⟨ps, h1, h2⟩ := C134_exact fm marshal chan
  rw [h2, Prod.mk.injEq]
  refine ⟨?_, rfl⟩
  rw [← h1]
  clear h1 h2
  induction ps generalizing s with
  | nil => rfl
  | cons p ps ih => simp [Sink.feed, List.take_of_length_le (hw s p), ih]

/-- **C134**, no error tells anything of the writer. -/
theorem C134_silent (fm : Format) (marshal : Record → Option Str) (chan : List ResultRecord) (σ τ : Type) (w : Sink σ)
    (v : Sink τ) (s : σ) (t : τ) : (writeTo fm marshal w s chan).2 = (writeTo fm marshal v t chan).2 := by
  obtain ⟨ps, _, h⟩ := C134_exact fm marshal chan
  rw [h, h]

/-- **C134**, a disk that fills up: the file is the beginning of the export, as long as the disk allows. -/
theorem C134_disk (fm : Format) (marshal : Record → Option Str) (chan : List ResultRecord) (left : Nat) :
    writeTo fm marshal disk left chan = ((write fm marshal chan).1.take left, (write fm marshal chan).2) := by
  obtain ⟨ps, h1, h2⟩ := C134_exact fm marshal chan
  rw [h2, Prod.mk.injEq]
  refine ⟨?_, rfl⟩
  rw [← h1]
  clear h1 h2
  induction ps generalizing left with
  | nil => simp [Sink.feed]
  | cons p ps ih =>
    simp only [Sink.feed, disk, List.flatten_cons, List.take_append] at ih ⊢
    rw [ih]

/-- **C134**, and the file then reads as the first records; with an error, or, if it happens to end behind a record, without. -/
theorem C134_disk_reads (ty : Types) (rs : List Record) (hg : ∀ r ∈ rs, Good ty r) (left : Nat) :
    (writeTo .json serialize disk left (Iter.mk rs none).results).2 = none ∧
    (writeTo .ndjson serialize disk left (Iter.mk rs none).results).2 = none ∧
    (∃ k, (readJson ty (writeTo .json serialize disk left (Iter.mk rs none).results).1).recs = rs.take k) ∧
    ∃ k, (readNd ty (writeTo .ndjson serialize disk left (Iter.mk rs none).results).1).recs = rs.take k := by
  simp only [C134_disk]
  refine ⟨(C44_json_partial ty rs hg).1, (C44_ndjson_partial ty rs hg).1, ?_, ?_⟩
  · generalize hfile : (write .json serialize (Iter.mk rs none).results).1 = file
    by_cases hq : file.drop left = []
    · have := List.take_append_drop left file
      rw [hq, List.append_nil] at this
      rw [this, ← hfile, (C44_json_partial ty rs hg).2]
      exact ⟨rs.length, by simp⟩
    · exact (C44_json_truncated ty rs hg (file.take left) (file.drop left) hq (by simp [hfile])).1
  · generalize hfile : (write .ndjson serialize (Iter.mk rs none).results).1 = file
    by_cases hq : file.drop left = []
    · have := List.take_append_drop left file
      rw [hq, List.append_nil] at this
      rw [this, ← hfile, (C44_ndjson_partial ty rs hg).2]
      exact ⟨rs.length, by simp⟩
    · exact (C44_ndjson_truncated ty rs hg (file.take left) (file.drop left) hq (by simp [hfile])).1

theorem writeLoopTo_ok {σ : Type} (w : Sink σ) (fm : Format) (marshal : Record → Option Str) (rs : List Record)
    (h : ∀ r ∈ rs, marshal r ≠ none) (tail : List ResultRecord)
    (ht : tail = [] ∨ ∃ e, tail = [⟨none, some e⟩]) (cur : ResultRecord) (hc : cur.err = none) (saved : Bool) (fuel : Nat)
    (hf : rs.length + tail.length < fuel) (s : σ) :
    writeLoopTo fm marshal w fuel saved s ⟨rs.map (fun r => ⟨some r, none⟩) ++ tail, cur⟩ =
      (w.feed s ((if saved then tailSlices fm marshal rs else bodySlices fm marshal rs) ++ slice fm.closing), none) := by
  have text : ∀ (b : Str) (s : σ) qs, w.feed s (slice b ++ qs) = (w.text s b).2 ++ w.feed (w.text s b).1 qs := by
    intro b s qs
    by_cases hb : b = []
    · simp [Sink.text, hb, slice]
    · simp [Sink.text, hb, slice, Sink.feed, Sink.call]
  induction rs generalizing cur saved fuel s with
  | nil =>
    cases fuel with
    | zero => omega
    | succ fuel =>
      have hcl : w.feed s (slice fm.closing) = (w.text s fm.closing).2 := by
        have := text fm.closing s []
        simpa [Sink.feed] using this
      rcases ht with rfl | ⟨e, rfl⟩
      · simp [writeLoopTo, RecordIterator.next, hc, tailSlices, bodySlices, hcl]
      · simp [writeLoopTo, RecordIterator.next, hc, tailSlices, bodySlices, hcl]
  | cons r rs ih =>
    cases fuel with
    | zero => omega
    | succ fuel =>
      cases hm : marshal r with
      | none => exact absurd hm (h r (by simp))
      | some b =>
        simp only [List.map_cons, List.cons_append, writeLoopTo, RecordIterator.next, hc, ne_eq, not_true, if_false,
          Option.isSome_some, RecordIterator.error, RecordIterator.record, hm]
        rw [ih (fun r hr => h r (by simp [hr])) _ rfl true fuel (by simp at hf; omega)]
        cases saved <;> simp [tailSlices, bodySlices, hm, text, Sink.feed, Sink.call]

/-- **C134**, the slices of an export of records that can be marshalled: the opening, then every record, with the separator
before all but the first, then the closing. -/
theorem C134_slices {σ : Type} (w : Sink σ) (s : σ) (fm : Format) (marshal : Record → Option Str) (rs : List Record)
    (e : Option Err) (h : ∀ r ∈ rs, marshal r ≠ none) :
    writeTo fm marshal w s (Iter.mk rs e).results =
      (w.feed s (slice fm.opening ++ (bodySlices fm marshal rs ++ slice fm.closing)), none) := by
  obtain ⟨tail, h1, h2⟩ := iter_results rs e
  rw [h1, writeTo]
  have := writeLoopTo_ok w fm marshal rs h tail h2 .zero rfl false
    ((rs.map (fun r => (⟨some r, none⟩ : ResultRecord)) ++ tail).length + 1) (by simp)
  simp only [RecordIterator.new, this]
  by_cases ho : fm.opening = []
  · simp [Sink.text, ho, slice]
  · simp [Sink.text, ho, slice, Sink.call, Sink.feed]

/-! Which bytes a moody writer lets through. -/

theorem moody_keep (b : Str) : ∃ m, ∀ m' qs, moody.feed (m ++ m') (slice b ++ qs) = b ++ moody.feed m' qs := by
  by_cases hb : b = []
  · exact ⟨[], by simp [hb, slice]⟩
  · exact ⟨[true], by simp [hb, slice, Sink.feed, moody]⟩

theorem moody_drop (b : Str) : ∃ m, ∀ m' qs, moody.feed (m ++ m') (slice b ++ qs) = moody.feed m' qs := by
  by_cases hb : b = []
  · exact ⟨[], by simp [hb, slice]⟩
  · exact ⟨[false], by simp [hb, slice, Sink.feed, moody]⟩

theorem moody_one (a : Bool) (b : Str) (m : List Bool) (qs : List Str) :
    moody.feed (a :: m) (b :: qs) = (if a then b else []) ++ moody.feed m qs := by
  cases a <;> simp [Sink.feed, moody]

theorem moody_tail (fm : Format) (marshal : Record → Option Str) {kept rs : List Record} (h : kept.Sublist rs) :
    (∃ m, ∀ m' qs, moody.feed (m ++ m') (tailSlices fm marshal rs ++ qs) = tailText fm marshal kept ++ moody.feed m' qs) ∧
    ∃ m, ∀ m' qs, moody.feed (m ++ m') (tailSlices fm marshal rs ++ qs) = bodyText fm marshal kept ++ moody.feed m' qs := by
  obtain ⟨mk, hk⟩ := moody_keep fm.between
  obtain ⟨md, hd⟩ := moody_drop fm.between
  induction h with
  | slnil => exact ⟨⟨[], fun _ _ => rfl⟩, ⟨[], fun _ _ => rfl⟩⟩
  | @cons l₁ l₂ a h ih =>
    obtain ⟨⟨m1, h1⟩, ⟨m2, h2⟩⟩ := ih
    refine ⟨⟨md ++ (false :: m1), fun m' qs => ?_⟩, ⟨md ++ (false :: m2), fun m' qs => ?_⟩⟩
    · simp only [tailSlices, List.append_assoc, List.cons_append, hd, moody_one, h1]; simp
    · simp only [tailSlices, List.append_assoc, List.cons_append, hd, moody_one, h2]; simp
  | @cons_cons l₁ l₂ a h ih =>
    obtain ⟨⟨m1, h1⟩, _⟩ := ih
    refine ⟨⟨mk ++ (true :: m1), fun m' qs => ?_⟩, ⟨md ++ (true :: m1), fun m' qs => ?_⟩⟩
    · simp only [tailSlices, tailText, List.append_assoc, List.cons_append, hk, moody_one, h1]; simp
    · simp only [tailSlices, bodyText, List.append_assoc, List.cons_append, hd, moody_one, h1]; simp

/-- **C134**, a writer that fails now and then: whichever of the records you pick, in every format there is a writer after which
the file is, byte for byte, the complete export of these records alone, and no error was reported. -/
theorem C134_any_part (fm : Format) (marshal : Record → Option Str) (rs kept : List Record) (hk : kept.Sublist rs)
    (h : ∀ r ∈ rs, marshal r ≠ none) :
    ∃ moods, writeTo fm marshal moody moods (Iter.mk rs none).results = write fm marshal (Iter.mk kept none).results ∧
      (writeTo fm marshal moody moods (Iter.mk rs none).results).2 = none := by
  have hkept : ∀ r ∈ kept, marshal r ≠ none := fun r hr => h r (hk.subset hr)
  have body : ∃ m, ∀ m' qs, moody.feed (m ++ m') (bodySlices fm marshal rs ++ qs) =
      bodyText fm marshal kept ++ moody.feed m' qs := by
    cases hk with
    | slnil => exact ⟨[], fun _ _ => rfl⟩
    | @cons l₁ l₂ a hs =>
      obtain ⟨_, m, hm⟩ := moody_tail fm marshal hs
      refine ⟨false :: m, fun m' qs => ?_⟩
      simp only [bodySlices, List.cons_append, moody_one, hm]; simp
    | @cons_cons l₁ l₂ a hs =>
      obtain ⟨⟨m, hm⟩, _⟩ := moody_tail fm marshal hs
      refine ⟨true :: m, fun m' qs => ?_⟩
      simp only [bodySlices, bodyText, List.cons_append, moody_one, hm]; simp
  obtain ⟨mo, ho⟩ := moody_keep fm.opening
  obtain ⟨mb, hb⟩ := body
  obtain ⟨mc, hc⟩ := moody_keep fm.closing
  have key : writeTo fm marshal moody (mo ++ (mb ++ (mc ++ []))) (Iter.mk rs none).results =
      write fm marshal (Iter.mk kept none).results := by
    rw [C134_slices moody _ fm marshal rs none h, write_ok fm marshal kept none hkept, ho, hb]
    have := hc [] []
    simp only [List.append_nil, Sink.feed] at this ⊢
    rw [this]
  exact ⟨_, key, by rw [key, write_ok fm marshal kept none hkept]⟩

/-- **C134**, so such a file even reads back: as any part of the records, without an error. -/
theorem C134_any_part_reads (ty : Types) (rs kept : List Record) (hk : kept.Sublist rs) (hg : ∀ r ∈ rs, Good ty r) :
    (∃ moods, readJson ty (writeTo .json serialize moody moods (Iter.mk rs none).results).1 = ⟨kept, none⟩) ∧
    ∃ moods, readNd ty (writeTo .ndjson serialize moody moods (Iter.mk rs none).results).1 = ⟨kept, none⟩ := by
  have hkg : ∀ r ∈ kept, Good ty r := fun r hr => hg r (hk.subset hr)
  constructor
  · obtain ⟨m, h, _⟩ := C134_any_part .json serialize rs kept hk (fun r hr => good_serialize (hg r hr))
    exact ⟨m, by rw [h]; exact (C44_json_partial ty kept hkg).2⟩
  · obtain ⟨m, h, _⟩ := C134_any_part .ndjson serialize rs kept hk (fun r hr => good_serialize (hg r hr))
    exact ⟨m, by rw [h]; exact (C44_ndjson_partial ty kept hkg).2⟩

/-- **C134**, newline-delimited files: a writer that loses whole slices, whichever, leaves a file that reads, without an error,
as some of the records, unchanged and in order. -/
theorem C134_whole_reads (ty : Types) (rs : List Record) (hg : ∀ r ∈ rs, Good ty r) {σ : Type} (w : Sink σ) (hw : w.Whole)
    (s : σ) : ∃ kept, kept.Sublist rs ∧
      readNd ty (writeTo .ndjson serialize w s (Iter.mk rs none).results).1 = ⟨kept, none⟩ := by
  have one : ∀ (r : Record), Good ty r → ∀ s : σ, ∀ qs rs',
      (∀ s, ∃ kept, List.Sublist kept rs' ∧ ∀ fuel, (w.feed s qs).length < fuel → readTop ty fuel (w.feed s qs) = ⟨kept, none⟩) →
      ∃ kept, List.Sublist kept (r :: rs') ∧ ∀ fuel, (w.feed s ((serialize r).getD [] :: qs)).length < fuel →
        readTop ty fuel (w.feed s ((serialize r).getD [] :: qs)) = ⟨kept, none⟩ := by
    intro r hr s qs rs' hq
    obtain ⟨kept, h1, h2⟩ := hq (w.put s ((serialize r).getD [])).1
    rcases hw s ((serialize r).getD []) with h0 | h0
    · refine ⟨kept, List.Sublist.cons _ h1, fun fuel hf => ?_⟩
      simp only [Sink.feed, h0, List.take_zero, List.nil_append] at hf ⊢
      exact h2 fuel hf
    · refine ⟨r :: kept, List.Sublist.cons_cons _ h1, fun fuel hf => ?_⟩
      simp only [Sink.feed, List.take_of_length_le h0, List.length_append] at hf ⊢
      cases fuel with
      | zero => omega
      | succ fuel =>
        have hpos : 0 < ((serialize r).getD []).length := by
          obtain ⟨b, hb, _⟩ := good_roundTrip hr
          obtain ⟨t, ht⟩ := serialize_head hb
          simp [hb, ht]
        rw [readTop_one r hr, h2 fuel (by omega)]
        rfl
  have tail : ∀ rs : List Record, (∀ r ∈ rs, Good ty r) → ∀ s : σ, ∃ kept, List.Sublist kept rs ∧ ∀ fuel,
      (w.feed s (tailSlices .ndjson serialize rs)).length < fuel →
      readTop ty fuel (w.feed s (tailSlices .ndjson serialize rs)) = ⟨kept, none⟩ := by
    intro rs
    induction rs with
    | nil => exact fun _ s => ⟨[], List.Sublist.refl _, fun fuel _ => readTop_nil ty fuel⟩
    | cons r rs ih =>
      intro hg s
      obtain ⟨kept, h1, h2⟩ := one r (hg r (by simp)) (w.put s [10]).1 (tailSlices .ndjson serialize rs) rs
        (ih (fun r hr => hg r (by simp [hr])))
      refine ⟨kept, h1, fun fuel hf => ?_⟩
      have hs : tailSlices .ndjson serialize (r :: rs) = [10] :: (serialize r).getD [] :: tailSlices .ndjson serialize rs := rfl
      rw [hs, Sink.feed] at hf ⊢
      rcases hw s [10] with h0 | h0
      · rw [h0, List.take_zero, List.nil_append] at hf ⊢
        exact h2 fuel hf
      · rw [List.take_of_length_le h0, List.singleton_append] at hf ⊢
        rw [readTop_sep]
        exact h2 fuel (by simp only [List.length_cons] at hf; omega)
  rw [C134_slices w s .ndjson serialize rs none (fun r hr => good_serialize (hg r hr))]
  simp only [slice, Format.opening, Format.closing, if_true, List.nil_append, List.append_nil]
  cases rs with
  | nil => exact ⟨[], List.Sublist.refl _, by simp [bodySlices, Sink.feed, readNd, readTop_nil]⟩
  | cons r rs =>
    obtain ⟨kept, h1, h2⟩ := one r (hg r (by simp)) s (tailSlices .ndjson serialize rs) rs
      (tail rs (fun r hr => hg r (by simp [hr])))
    exact ⟨kept, h1, h2 _ (Nat.lt_succ_self _)⟩

/-- Three records; the writer fails for the separator and the record in the middle. -/
example : moody.Whole ∧ disk.put 5 [1, 2, 3] = (2, 5) ∧
    writeTo .json serialize moody [true, true, false, false] (Iter.mk [demoRec 1, demoRec 2, demoRec 3] none).results =
      write .json serialize (Iter.mk [demoRec 1, demoRec 3] none).results := by
  refine ⟨?_, rfl, by decide +kernel⟩
  intro s b
  rcases s with _ | ⟨_ | _, _⟩
  · exact Or.inr (Nat.le_refl _)
  · exact Or.inl rfl
  · exact Or.inr (Nat.le_refl _)

example : (⟨fun _ b => ((), b.length + 1)⟩ : Sink Unit).Sound := fun _ _ => Nat.le_succ _

/-! ## C135: reading -/

/-- The claim: if the reader fails before the whole export was read, an error is reported. -/
def C135_full (fm : Format) (read : Str → Iter) : Prop :=
  ∀ rs : List Record, (∀ r ∈ rs, Good unbound r) → ∀ p q, q ≠ [] →
    (write fm serialize (Iter.mk rs none).results).1 = p ++ q → (read p).err ≠ none

/-- **C135**, a JSON array: the first records are read, unchanged; and the error of the reader is dropped exactly if it comes
behind a complete record, or behind the opening bracket. -/
theorem C135_json_partial (ty : Types) (rs : List Record) (hg : ∀ r ∈ rs, Good ty r) (p q : Str) (hq : q ≠ [])
    (hp : (write .json serialize (Iter.mk rs none).results).1 = p ++ q) :
    (∃ k, (readJsonBroken ty p).recs = rs.take k) ∧
    ((readJsonBroken ty p).err = none ↔ ∃ k, k ≤ rs.length ∧ p = 91 :: bodyText .json serialize (rs.take k)) := by
  have hw := write_ok .json serialize rs none (fun r hr => good_serialize (hg r hr))
  cases p with
  | nil => exact ⟨⟨0, rfl⟩, by simp [readJsonBroken, skipWs]⟩
  | cons c p =>
    have h := C44_json_truncated ty rs hg (c :: p) q hq hp
    rw [hw] at hp
    simp only [Format.opening, List.cons_append, List.nil_append, List.cons.injEq] at hp
    obtain ⟨rfl, -⟩ := hp
    have : readJsonBroken ty (91 :: p) = readJson ty (91 :: p) := by
      simp only [readJsonBroken, readJson]
      rw [skipWs_of _ _ rfl]
      rfl
    rw [this]
    exact ⟨h.1, h.2.trans (by simp)⟩

/-- **C135**, newline-delimited: the same, exactly behind a complete record or the newline after it, or before the first. -/
theorem C135_ndjson_partial (ty : Types) (rs : List Record) (hg : ∀ r ∈ rs, Good ty r) (p q : Str) (hq : q ≠ [])
    (hp : (write .ndjson serialize (Iter.mk rs none).results).1 = p ++ q) :
    (∃ k, (readNdBroken ty p).recs = rs.take k) ∧
    ((readNdBroken ty p).err = none ↔
      ∃ k, k ≤ rs.length ∧ (p = bodyText .ndjson serialize (rs.take k) ∨
        0 < k ∧ p = bodyText .ndjson serialize (rs.take k) ++ [10])) :=
  C44_ndjson_truncated ty rs hg p q hq hp

/-- It is false of both JSON formats, whatever the records. -/
theorem C135_false :
    ¬ C135_full .json (readJsonBroken unbound) ∧ ¬ C135_full .ndjson (readNdBroken unbound) := by
  have hg : ∀ r ∈ [demoRec 1], Good unbound r := by
    intro r hr; simp only [List.mem_singleton] at hr; subst hr; exact demoRec_good 1 (by decide)
  constructor
  · intro h
    have hw := write_ok .json serialize [demoRec 1] none (fun r hr => good_serialize (hg r hr))
    refine h [demoRec 1] hg (91 :: bodyText .json serialize [demoRec 1]) [93] (by simp) (by rw [hw]; rfl) ?_
    exact (C135_json_partial unbound [demoRec 1] hg _ [93] (by simp) (by rw [hw]; rfl)).2.2 ⟨1, by simp, rfl⟩
  · intro h
    refine h [demoRec 1] hg [] (write .ndjson serialize (Iter.mk [demoRec 1] none).results).1 ?_ rfl rfl
    rw [write_ok .ndjson serialize _ none (fun r hr => good_serialize (hg r hr))]
    obtain ⟨b, hb, _⟩ := good_roundTrip (hg (demoRec 1) (by simp))
    obtain ⟨t, ht⟩ := serialize_head hb
    simp [bodyText, hb, ht]

/-- Of two records the reader fails behind the first, within the second, and at once. -/
example : readJsonBroken unbound (91 :: bodyText .json serialize [demoRec 1]) = ⟨[demoRec 1], none⟩ ∧
    readJsonBroken unbound (91 :: bodyText .json serialize [demoRec 1] ++ [44, 123]) = ⟨[demoRec 1], some .deserialize⟩ ∧
    (readJsonBroken unbound []).err = some .deserialize ∧ (readJsonBroken unbound [49]).err = some .deserialize ∧
    (readJson unbound [49]).err = none := by decide +kernel

end RangeDB.Json

namespace RangeDB.Mp

/-- **C135**, msgpack: every failure of the reader is reported, wherever in the export it comes, even at its very end; and the
records before it are returned, whole and unchanged. -/
theorem C135_msgpack (limit : Nat) (ty : Types) (rs : List Rec) (p q : Str) (h : ∀ r ∈ rs, Good limit ty r)
    (he : writeAll rs = p ++ q) :
    (readBroken limit ty p).2 ≠ none ∧ ∃ k p', p = writeAll (rs.take k) ++ p' ∧
      (p' = [] ∨ ∃ r q', rs[k]? = some r ∧ q' ≠ [] ∧ marshal r = p' ++ q') ∧
      (readBroken limit ty p).1 = (rs.take k).map ty.seen := by
  have key : ∀ (rs : List Rec) (fuel : Nat) (p q : Str), (∀ r ∈ rs, Good limit ty r) → p.length < fuel →
      writeAll rs = p ++ q → (readLoopBroken limit ty fuel p).2 ≠ none ∧ ∃ k p', p = writeAll (rs.take k) ++ p' ∧
      (p' = [] ∨ ∃ r q', rs[k]? = some r ∧ q' ≠ [] ∧ marshal r = p' ++ q') ∧
      (readLoopBroken limit ty fuel p).1 = (rs.take k).map ty.seen := by
    intro rs
    induction rs with
    | nil =>
      intro fuel p q _ hf he
      obtain ⟨g, rfl⟩ : ∃ g, fuel = g + 1 := ⟨fuel - 1, by omega⟩
      simp only [writeAll, List.nil_eq, List.append_eq_nil_iff] at he
      obtain ⟨rfl, -⟩ := he
      exact ⟨by simp [readLoopBroken, unmarshal_nil], 0, [], rfl, Or.inl rfl, by simp [readLoopBroken, unmarshal_nil]⟩
    | cons r rs ih =>
      intro fuel p q h hf he
      obtain ⟨g, rfl⟩ : ∃ g, fuel = g + 1 := ⟨fuel - 1, by omega⟩
      have hr := h r (by simp)
      have hl : 0 < (marshal r).length := List.length_pos_iff.2 (marshal_ne r)
      simp only [writeAll] at he
      rcases split_append he with ⟨q', hq', hc⟩ | ⟨p', hp, hd⟩
      · have hu : ∃ e, unmarshal limit ty p = .error e := by
          rcases unmarshal_cut (ty := ty) hr.1 hc hq' with ⟨h1, _⟩ | ⟨e, _, h1, _⟩
          · exact ⟨_, h1⟩
          · exact ⟨_, h1⟩
        obtain ⟨e, hu⟩ := hu
        exact ⟨by simp [readLoopBroken, hu], 0, p, by simp [writeAll], Or.inr ⟨r, q', by simp, hq', hc⟩,
          by simp [readLoopBroken, hu]⟩
      · subst hp
        simp only [List.length_append] at hf
        obtain ⟨h1, k, y, h2, h3, h4⟩ := ih g p' q (fun x hx => h x (by simp [hx])) (by omega) hd
        simp only [readLoopBroken, unmarshal_seen hr.1 hr.2]
        refine ⟨h1, k + 1, y, ?_, by simpa using h3, by simp [h4]⟩
        simp only [List.take_succ_cons, writeAll, List.append_assoc]
        rw [← h2]
  exact key rs _ p q h (Nat.lt_succ_self _) he

/-- Cut at a seam, where the end of the file would go unnoticed, a failing reader is reported. -/
example : (readBroken 4 noTypes ((marshal thing).take 43)).2 = some .bad ∧ (readAll 4 noTypes ((marshal thing).take 43)).2 = none := by
  constructor <;> decide +kernel

end RangeDB.Mp

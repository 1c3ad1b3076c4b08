import Verif.Proof.Msgpack
import Verif.Thm.Constants

/-!
# C106, C107: records in msgpack
-/

namespace RangeDB.Mp

/-- The record of the tests (msgpack_record_serializer_test.go:104-119). -/
def thing : Rec :=
  ⟨bytes "thing-60f01cc527844cde9953c998a2c077a7", bytes "thing", bytes "60f01cc527844cde9953c998a2c077a7", 100, 2,
   1576892379, [], bytes "ThingWasDone", .map [(bytes "id", .str (bytes "A")), (bytes "number", .num .i64 1)], .nil⟩

/-- The bytes are those of the test (msgpack_record_serializer_test.go:127,158). -/
example : marshal thing =
    [0x8a, 0xa1] ++ bytes "n" ++ [0xd9] ++ bytes "&thing-60f01cc527844cde9953c998a2c077a7" ++ [0xa1] ++ bytes "a" ++
    [0xa5] ++ bytes "thing" ++ [0xa1] ++ bytes "i" ++ [0xd9] ++ bytes " 60f01cc527844cde9953c998a2c077a7" ++ [0xa1] ++
    bytes "g" ++ [0xcf, 0, 0, 0, 0, 0, 0, 0] ++ bytes "d" ++ [0xa1] ++ bytes "s" ++ [0xcf, 0, 0, 0, 0, 0, 0, 0, 2] ++
    [0xa1] ++ bytes "u" ++ [0xcf, 0, 0, 0, 0] ++ bytes "]" ++ [0xfd] ++ bytes "w" ++ [0xdb, 0xa1] ++ bytes "e" ++
    [0xa0, 0xa1] ++ bytes "t" ++ [0xac] ++ bytes "ThingWasDone" ++ [0xa1] ++ bytes "d" ++ [0xc0, 0xa1] ++ bytes "m" ++
    [0xc0, 0x82, 0xa2] ++ bytes "id" ++ [0xa1] ++ bytes "A" ++ [0xa6] ++ bytes "number" ++
    [0xd3, 0, 0, 0, 0, 0, 0, 0, 1] := by
  decide +kernel

/-- The reader knows no event types. -/
def noTypes : Types := fun _ => none

/-! ## C106: what is written is read back -/

/-- A file of records reads back as these records, with no error. Strings may hold any bytes. -/
theorem C106_file (limit : Nat) (ty : Types) (rs : List Rec) (h : ∀ r ∈ rs, Good limit ty r) :
    readAll limit ty (writeAll rs) = (rs.map ty.seen, none) :=
  readLoop_all rs _ h (Nat.lt_succ_self _)

/-- A reader that knows no event types gets the very values that were written. -/
theorem C106_exact (limit : Nat) (rs : List Rec) (h : ∀ r ∈ rs, r.ok limit = true) :
    readAll limit noTypes (writeAll rs) = (rs, none) := by
  rw [C106_file limit noTypes rs (fun r hr => ⟨h r hr, rfl⟩)]
  have : noTypes.seen = id := by funext r; rfl
  rw [this, List.map_id]

/-- Different records are written differently. -/
theorem C106_distinct (limit : Nat) (rs rs' : List Rec) (h : ∀ r ∈ rs, r.ok limit = true)
    (h' : ∀ r ∈ rs', r.ok limit = true) (he : writeAll rs = writeAll rs') : rs = rs' := by
  have h1 := C106_exact limit rs h
  rw [he, C106_exact limit rs' h'] at h1
  exact (congrArg Prod.fst h1).symm

theorem writeAll_append (rs rs' : List Rec) : writeAll (rs ++ rs') = writeAll rs ++ writeAll rs' := by
  induction rs with
  | nil => rfl
  | cons r rs ih => simp [writeAll, ih]

/-- Two files, one after the other, read as one. -/
theorem C106_concat (limit : Nat) (ty : Types) (rs rs' : List Rec) (h : ∀ r ∈ rs, Good limit ty r)
    (h' : ∀ r ∈ rs', Good limit ty r) :
    readAll limit ty (writeAll rs ++ writeAll rs') = (rs.map ty.seen ++ rs'.map ty.seen, none) := by
  rw [← writeAll_append, C106_file, List.map_append]
  intro r hr
  exact (List.mem_append.1 hr).elim (h r) (h' r)

/-- One record through `Serialize` and `Deserialize`: bytes after the record are ignored. -/
theorem C106_record (limit : Nat) (ty : Types) (r : Rec) (h : Good limit ty r) (rest : Str) :
    unmarshal limit ty (marshal r ++ rest) = .ok (ty.seen r, rest) :=
  unmarshal_seen h.1 h.2 rest

theorem ofRecord_fields {limit : Nat} {r : Record} {m : Rec} (h : ofRecord limit r = some m) :
    m.streamName = r.streamName ∧ m.aggType = r.aggType ∧ m.aggId = r.aggId ∧ m.gsn = r.gsn ∧ m.seq = r.seq ∧
    m.ts = r.ts ∧ m.eventId = r.eventId ∧ m.evType = r.evType := by
  unfold ofRecord at h
  split at h
  · simp only [Option.some.injEq] at h
    subst h
    simp
  · simp at h

theorem view_cases (limit : Nat) (ty : Types) (r : Record) :
    ∃ d m, (serializer limit ty).view r = { r with data := d, metadata := m } := by
  simp only [serializer]
  split
  · exact ⟨r.data, r.metadata, rfl⟩
  · exact ⟨_, _, rfl⟩

/-- The msgpack serializer is one for which the theorems about stores hold, provided that the data of an event can be
decoded into the struct bound to its type. -/
theorem C106_lawful (limit : Nat) (ty : Types)
    (h : ∀ t v, Val.ok limit v = true → (ty.read t v).isSome) : (serializer limit ty).Lawful := by
  have hv := view_cases limit ty
  refine ⟨?_, ?_, ?_, ?_, ?_, ?_, ?_, ?_, ?_⟩
  · intro r b hb
    simp only [serializer] at hb ⊢
    cases e : ofRecord limit r with
    | none => simp [e] at hb
    | some m =>
      simp only [e] at hb ⊢
      split at hb
      · next hok =>
        simp only [Option.some.injEq] at hb
        subst hb
        have hd : Val.ok limit m.data = true := by
          simp only [Rec.ok, Bool.and_eq_true] at hok
          exact hok.1.2
        obtain ⟨d, hd⟩ := Option.isSome_iff_exists.1 (h m.evType m.data hd)
        have h1 := unmarshal_marshal hok hd []
        rw [List.append_nil] at h1
        obtain ⟨e1, e2, e3, e4, e5, e6, e7, e8⟩ := ofRecord_fields e
        rw [h1, ← e8, hd]
        simp [Rec.toRecord, e1, e2, e3, e4, e5, e6, e7, e8]
      · simp at hb
  all_goals
    intro r
    obtain ⟨d, m, e⟩ := hv r
    rw [e]

theorem noTypes_lawful (limit : Nat) : (serializer limit noTypes).Lawful := C106_lawful limit noTypes (fun _ _ _ => rfl)

/-- What a store with this serializer returns is exactly what was saved. -/
theorem C106_view (limit : Nat) (r : Rec) (h : r.ok limit = true) :
    (serializer limit noTypes).ser r.toRecord = some (marshal r) ∧
    (serializer limit noTypes).view r.toRecord = r.toRecord := by
  have hok := h
  simp only [Rec.ok, Bool.and_eq_true] at h
  have val : ∀ v, Val.ok limit v = true → value limit (enc v) = some v := by
    intro v hv
    have := (reads_val limit v hv).full []
    rw [flatten_reads, List.append_nil] at this
    simp [value, this]
  have h1 : ofRecord limit r.toRecord = some r := by
    simp [ofRecord, Rec.toRecord, val r.data h.1.2, val r.metadata h.2]
  simp only [serializer, h1, hok]
  exact ⟨rfl, rfl⟩

/-- The hypotheses are met by the record of the tests and by one whose strings are not UTF-8, with nested data. -/
example : Good 4 noTypes thing := ⟨by decide +kernel, rfl⟩

example : readAll 4 noTypes (writeAll [thing,
      ⟨[255, 254], [0], [200], 2 ^ 64 - 1, 0, 7, [], [], .arr [.bin [1], .bool true, .num .f32 5], .map [([], .nil)]⟩]) =
    ([thing,
      ⟨[255, 254], [0], [200], 2 ^ 64 - 1, 0, 7, [], [], .arr [.bin [1], .bool true, .num .f32 5], .map [([], .nil)]⟩],
     none) :=
  C106_exact 4 _ (by
    intro r hr
    simp only [List.mem_cons, List.not_mem_nil, or_false] at hr
    rcases hr with rfl | rfl <;> decide +kernel)

/-- A reader that knows the type keeps only the fields of its struct (here: the first). -/
example : (Types.seen (fun _ => some fun
      | .map (f :: _) => some (.map [f])
      | _ => none) thing).data = .map [(bytes "id", .str (bytes "A"))] := rfl

/-! ## C107: a file cut short -/

/-- The claim: when a file was cut in the middle of a record, the reader reports an error. -/
def C107_full : Prop :=
  ∀ (limit : Nat) (ty : Types) (rs : List Rec) (p q : Str), (∀ r ∈ rs, Good limit ty r) → writeAll rs = p ++ q →
    (∀ k, p ≠ writeAll (rs.take k)) → (readAll limit ty p).2 ≠ none

/-- It is false: after the first byte of a record, the end of the file is taken for the end of the records. -/
theorem C107_false : ¬ C107_full := by
  intro h
  refine h 4 noTypes [thing] [138] ((marshal thing).drop 1) ?_ ?_ ?_ ?_
  · intro r hr
    simp only [List.mem_cons, List.not_mem_nil, or_false] at hr
    subst hr
    exact ⟨by decide +kernel, rfl⟩
  · decide +kernel
  · intro k hk
    cases k with
    | zero => simp [writeAll] at hk
    | succ k =>
      have := congrArg List.length hk
      revert this
      simp only [List.take_succ_cons, List.take_nil]
      decide +kernel
  · decide +kernel

/-- What holds: the reader returns the first records, whole and unchanged, and says nothing exactly if the cut is at a
seam of the next record before its data: between two reads. A cut within a number, a string or a length, and every
cut in the data, is reported. -/
theorem C107_partial (limit : Nat) (ty : Types) (rs : List Rec) (p q : Str) (h : ∀ r ∈ rs, Good limit ty r)
    (he : writeAll rs = p ++ q) (hq : q ≠ []) :
    ∃ k r p', rs[k]? = some r ∧ p = writeAll (rs.take k) ++ p' ∧ (∃ q', q' ≠ [] ∧ marshal r = p' ++ q') ∧
      (readAll limit ty p).1 = (rs.take k).map ty.seen ∧
      ((readAll limit ty p).2 = none ↔ Seam (headReads r) p') :=
  readLoop_cut rs _ p q h (Nat.lt_succ_self _) he hq

/-- Whatever was cut off, no record is returned that was not written, and none in another place. -/
theorem C107_prefix (limit : Nat) (ty : Types) (rs : List Rec) (p q : Str) (h : ∀ r ∈ rs, Good limit ty r)
    (he : writeAll rs = p ++ q) : (readAll limit ty p).1 <+: rs.map ty.seen := by
  by_cases hq : q = []
  · subst hq
    rw [List.append_nil] at he
    rw [← he, C106_file limit ty rs h]
    exact List.prefix_rfl
  · obtain ⟨k, _, _, _, _, _, h4, _⟩ := C107_partial limit ty rs p q h he hq
    rw [h4, List.map_take]
    exact List.take_prefix _ _

/-- The same bytes: cut in the middle of the stream name, and cut in the data, it is reported. -/
example : (readAll 4 noTypes ((marshal thing).take 9)).2 = some .torn := by decide +kernel
example : (readAll 4 noTypes ((marshal thing).dropLast)).2 = some .bad := by decide +kernel
/-- Cut after the stream name, it is not. -/
example : (readAll 4 noTypes ((marshal thing).take 43)).2 = none ∧ (marshal thing).take 43 =
    [0x8a, 0xa1] ++ bytes "n" ++ [0xd9] ++ bytes "&thing-60f01cc527844cde9953c998a2c077a7" := by
  constructor <;> decide +kernel

end RangeDB.Mp

import Verif.Thm.Encrypted

/-!
# Reading records that were not written by this encryptor: C94
-/

namespace RangeDB.ES

open Key Cry

variable {σ : Type}

/-- The full statement of **C94** for a cipher: a store that was used without encryption before is opened as an encrypted store
and used. A read of all events does not panic, and reports an error unless it returned every stored record. -/
def C94_full (enc : Encryptor) : Prop :=
  ∀ (C : Codec) (z : Serializer) (keys nonces : Str) (before : List Op) (ops : List HOp), C.Lawful → z.Lawful → Faithful z →
    let s := hrun C mem enc z ⟨IM.run z before, ⟨Mem.new, keys, nonces⟩⟩ ops
    let got := (events C mem enc z s none 0).2
    got.panicked = false ∧ (got.err = none → got.recs.length = (IM.events z s.parent none 0).recs.length)

/-- The event of record `r` decrypts, at some time, to that of `r'`; the rest of the record is the same. -/
def Decrypts (C : Codec) (K : Store σ) (enc : Encryptor) (r r' : Record) : Prop :=
  r' = { r with data := r'.data } ∧ ∃ w w', decData C K enc w r.evType r.data = (w', some (r'.data, none))

/-- How reading ends behind the records that were returned, `suf` being left. -/
def EndsWith (C : Codec) (K : Store σ) (enc : Encryptor) (err : Option Err) (pre' suf : List Record) (got : Got) : Prop :=
  (suf = [] ∧ got = ⟨pre'.map some, err.map .store, false⟩) ∨
  (∃ r rest e, suf = r :: rest ∧ got = ⟨pre'.map some ++ [none], some (.crypto e), false⟩ ∧
    ∃ w w' d, decData C K enc w r.evType r.data = (w', some (d, some e))) ∨
  (∃ r rest, suf = r :: rest ∧ got.recs = pre'.map some ∧ got.panicked = true ∧
    ∃ w w', decData C K enc w r.evType r.data = (w', none))

theorem consume_ends (C : Codec) (K : Store σ) (enc : Encryptor) (err : Option Err) (recs : List Record) :
    ∀ (fuel : Nat) (w : World σ) (cur : ResultRecord), cur.err = none → recs.length + 2 ≤ fuel →
    ∃ pre suf pre', recs = pre ++ suf ∧ Rel2 (Decrypts C K enc) pre pre' ∧
      EndsWith C K enc err pre' suf (consume C K enc fuel w ⟨⟨(Iter.mk recs err).results, cur⟩, none⟩).2 := by
  induction recs with
  | nil =>
    intro fuel w cur hcur hf
    obtain ⟨fuel, rfl⟩ : ∃ k, fuel = k + 1 := ⟨fuel - 1, by simp at hf; omega⟩
    refine ⟨[], [], [], rfl, Rel2.nil, Or.inl ⟨rfl, ?_⟩⟩
    cases err with
    | none => simp [consume, DIter.next, RecordIterator.next, hcur, Iter.results, DIter.error, RecordIterator.error, ResultRecord.zero]
    | some e => simp [consume, DIter.next, RecordIterator.next, hcur, Iter.results, DIter.error, RecordIterator.error]
  | cons r recs ih =>
    intro fuel w cur hcur hf
    obtain ⟨fuel, rfl⟩ : ∃ k, fuel = k + 1 := ⟨fuel - 1, by simp at hf; omega⟩
    have hnext : (DIter.next ⟨⟨(Iter.mk (r :: recs) err).results, cur⟩, none⟩) =
        (⟨⟨(Iter.mk recs err).results, ⟨some r, none⟩⟩, none⟩, true) := by
      simp [DIter.next, RecordIterator.next, hcur, Iter.results]
    simp only [consume, hnext, DIter.record, RecordIterator.record]
    rcases hd : decData C K enc w r.evType r.data with ⟨w1, o⟩
    rcases o with _ | ⟨d, _ | e⟩
    · exact ⟨[], r :: recs, [], rfl, Rel2.nil, Or.inr (Or.inr ⟨r, recs, rfl, rfl, rfl, w, w1, hd⟩)⟩
    · obtain ⟨pre, suf, pre', h1, h2, h3⟩ := ih fuel w1 ⟨some { r with data := d }, none⟩ rfl (by simp at hf; omega)
      refine ⟨r :: pre, suf, { r with data := d } :: pre', by rw [h1]; rfl, Rel2.cons ⟨rfl, w, w1, hd⟩ h2, ?_⟩
      simp only [setCurrent]
      rcases hc : consume C K enc fuel w1 ⟨⟨(Iter.mk recs err).results, ⟨some { r with data := d }, none⟩⟩, none⟩ with ⟨w2, g⟩
      rw [hc] at h3
      rcases h3 with ⟨e1, e2⟩ | ⟨r', rest, e, e1, e2, e3⟩ | ⟨r', rest, e1, e2, e3, e4⟩
      · simp only at e2
        exact Or.inl ⟨e1, by rw [e2]; rfl⟩
      · simp only at e2
        exact Or.inr (Or.inl ⟨r', rest, e, e1, by rw [e2]; rfl, e3⟩)
      · simp only at e2 e3
        exact Or.inr (Or.inr ⟨r', rest, e1, by simp [e2], by simp [e3], e4⟩)
    · refine ⟨[], r :: recs, [], rfl, Rel2.nil, Or.inr (Or.inl ⟨r, recs, e, rfl, ?_, w, w1, d, hd⟩)⟩
      obtain ⟨fuel, rfl⟩ : ∃ k, fuel = k + 1 := ⟨fuel - 1, by simp at hf; omega⟩
      simp [setCurrent, consume, DIter.next, DIter.error]

/-- **C94**, partial: for every key store, cipher and codec, and whatever records the wrapped store yields. The reader gets
the decrypted records before the first one that cannot be decrypted, in their order and with everything but the data unchanged;
then, if there is such a record, a nil record and the error of the decryption, or the decryption panics; if there is none, the
error of the wrapped store. Missing: that decryption does not panic, see `C94_gcm` and `C94_false`. -/
theorem C94_partial (C : Codec) (K : Store σ) (enc : Encryptor) (w : World σ) (it : Iter) :
    ∃ pre suf pre', it.recs = pre ++ suf ∧ Rel2 (Decrypts C K enc) pre pre' ∧
      EndsWith C K enc it.err pre' suf (readAll C K enc w it).2 :=
  consume_ends C K enc it.err it.recs _ w .zero rfl (Nat.le_refl _)

theorem decFields_no_panic (K : Store σ) (enc : Encryptor) (hp : ∀ k d, enc.decrypt k d ≠ .panic) (subject : Str) :
    ∀ (fs : List Str) (w : World σ), (decFields K enc subject w fs).2 ≠ .panic
  | [], _ => by simp [decFields]
  | f :: fs, w => by
    have h1 : (engineDecrypt K enc w subject f).2 ≠ .panic := by
      simp only [engineDecrypt]
      split
      · simp
      · exact hp _ _
    simp only [decFields]
    rcases he : engineDecrypt K enc w subject f with ⟨w1, _ | _ | _⟩
    · simp only
      have ih := decFields_no_panic K enc hp subject fs w1
      rcases hr : decFields K enc subject w1 fs with ⟨w2, _ | _ | _⟩
      · simp
      · simp
      · rw [hr] at ih; exact absurd rfl ih
    · simp
    · rw [he] at h1; exact absurd rfl h1

theorem decInts_no_panic (K : Store σ) (enc : Encryptor) (hp : ∀ k d, enc.decrypt k d ≠ .panic) (subject : Str) :
    ∀ (fs : List Str) (w : World σ), (decInts K enc subject w fs).2 ≠ .panic
  | [], _ => by simp [decInts]
  | f :: fs, w => by
    have h1 : (engineDecrypt K enc w subject f).2 ≠ .panic := by
      simp only [engineDecrypt]
      split
      · simp
      · exact hp _ _
    simp only [decInts]
    rcases he : engineDecrypt K enc w subject f with ⟨w1, c | _ | _⟩
    · simp only
      split
      · simp
      · have ih := decInts_no_panic K enc hp subject fs w1
        rcases hr : decInts K enc subject w1 fs with ⟨w2, _ | _ | _⟩
        · simp
        · simp
        · rw [hr] at ih; exact absurd rfl ih
    · simp
    · rw [he] at h1; exact absurd rfl h1

theorem decData_no_panic (C : Codec) (K : Store σ) (enc : Encryptor) (hp : ∀ k d, enc.decrypt k d ≠ .panic)
    (w : World σ) (t d : Str) : (decData C K enc w t d).2 ≠ none := by
  have hg : ∀ p, (genDecrypt K enc w p).2 ≠ none := by
    intro p
    have h := decFields_no_panic K enc hp p.subject p.strs w
    simp only [genDecrypt]
    rcases hf : decFields K enc p.subject w p.strs with ⟨w1, _ | e | _⟩
    · simp only
      have h2 := decInts_no_panic K enc hp p.subject p.sers w1
      rcases hi : decInts K enc p.subject w1 p.sers with ⟨w2, _ | e | _⟩
      · simp
      · cases e <;> simp
      · rw [hi] at h2; exact absurd rfl h2
    · cases e <;> simp
    · rw [hf] at h; exact absurd rfl h
  simp only [decData]
  split
  · simp
  · rename_i p _
    have := hg p
    rcases hx : genDecrypt K enc w p with ⟨w1, _ | ⟨q, e⟩⟩
    · rw [hx] at this; exact absurd rfl this
    · simp

/-- **C94**, AES/GCM: with any key store, whatever the wrapped store yields, reading does not panic, and if no error is reported
every record was returned, each decrypted. -/
theorem C94_gcm (A : Aead) (C : Codec) (K : Store σ) (w : World σ) (it : Iter) :
    (readAll C K (gcm A) w it).2.panicked = false ∧
    ((readAll C K (gcm A) w it).2.err = none →
      ∃ rs, (readAll C K (gcm A) w it).2.recs = rs.map some ∧ Rel2 (Decrypts C K (gcm A)) it.recs rs) := by
  obtain ⟨pre, suf, pre', h1, h2, h3⟩ := C94_partial C K (gcm A) w it
  rcases h3 with ⟨rfl, e2⟩ | ⟨r', rest, e, e1, e2, e3⟩ | ⟨r', rest, e1, e2, e3, w1, w2, e4⟩
  · rw [e2]
    refine ⟨rfl, fun _ => ⟨pre', rfl, ?_⟩⟩
    rw [h1, List.append_nil]
    exact h2
  · rw [e2]
    exact ⟨rfl, fun h => by simp at h⟩
  · have := decData_no_panic C K (gcm A) (C55_gcm A) w1 r'.evType r'.data
    rw [e4] at this
    exact absurd rfl this

/-- **C94**, AES/GCM: the full statement holds. -/
theorem C94_gcm_full (A : Aead) : C94_full (gcm A) := by
  intro C z keys nonces before ops _ _ _
  obtain ⟨h1, h2⟩ := C94_gcm A C mem (hrun C mem (gcm A) z ⟨IM.run z before, ⟨Mem.new, keys, nonces⟩⟩ ops).world
    (IM.events z (hrun C mem (gcm A) z ⟨IM.run z before, ⟨Mem.new, keys, nonces⟩⟩ ops).parent none 0)
  refine ⟨h1, fun h => ?_⟩
  obtain ⟨rs, e1, e2⟩ := h2 h
  show (readAll C mem (gcm A) _ _).2.recs.length = _
  rw [e1, List.length_map, e2.length]

open Demo in
/-- The history of the counterexamples: "John" was saved before encryption was introduced; then an event of the same person
through the encrypted store. -/
def damagedBefore : List Op := [.save sA none none [evP [1] [74, 111, 104, 110]]]

open Demo in
def damagedAfter : List HOp := [.save sB none none [⟨⟨[66], [49], [80], [1, 1, 72, 105]⟩, [], [86], 8⟩]]

/-- **C94** is false with XChaCha20-Poly1305: reading the event that was saved before panics. -/
theorem C94_false : ¬ C94_full (xcha toyAead) := by
  intro h
  have := (h codec0 demoAll (tape0 64) (tape0 96) damagedBefore damagedAfter codec0_lawful demoAll_lawful demoAll_faithful).1
  revert this
  decide +kernel

/-- **C94** is false with AES/CBC. -/
theorem C94_false_cbc : ¬ C94_full (cbc toyBlock) := by
  intro h
  have := (h codec0 demoAll (tape0 64) (tape0 96)
    [.save Demo.sA none none [evP [1] (b64enc (tape0 16))]] damagedAfter codec0_lawful demoAll_lawful demoAll_faithful).1
  revert this
  decide +kernel

/-- With AES/GCM the same reader gets a nil record and an error. -/
example : (events codec0 mem (gcm toyAead) demoAll (hrun codec0 mem (gcm toyAead) demoAll
    ⟨IM.run demoAll damagedBefore, ⟨Mem.new, tape0 64, tape0 96⟩⟩ damagedAfter) none 0).2 = 
      ⟨[none], some (.crypto .invalidCipherText), false⟩ := by
  decide +kernel

end RangeDB.ES

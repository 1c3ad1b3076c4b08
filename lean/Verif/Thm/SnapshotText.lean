import Verif.Proof.SnapshotText

/-!
# C174: The text of a snapshot is determined by the events that it counts
-/

namespace RangeDB.Prj

open Demo

/-- **C174**: two projections that count the same events, taken in any order, with the same event last, write the same bytes. -/
theorem C174_same (rs rs' : List Record) (s s' : Stats) (h : Stats.new.acceptAll rs = .ok s) (h' : Stats.new.acceptAll rs' = .ok s')
    (hp : rs.Perm rs') (hl : rs.getLast?.map (·.gsn) = rs'.getLast?.map (·.gsn)) : encode s = encode s' :=
  encode_of_inv (inv_of_accept h) (inv_of_accept h') (fun _ => (hp.filter _).length_eq) hp.length_eq hl

/-- **C174**: the counts are written in ascending order of the types: each type that occurs, once, with its number of events. -/
theorem C174_keys (rs : List Record) (s : Stats) (h : Stats.new.acceptAll rs = .ok s) :
    ∃ l : List (Str × Nat), countsJson s.byType = .obj (l.map (fun e => (e.1, .num (Dec.natText e.2)))) ∧
      l.Pairwise (fun a b => strLt a.1 b.1 = true) ∧
      ∀ t n, (t, n) ∈ l ↔ (∃ r ∈ rs, r.aggType = t) ∧ n = (rs.filter (fun r => r.aggType = t)).length := by
  obtain ⟨⟨m, hm, hnd, hv, hk⟩, _, _⟩ := inv_of_accept h
  refine ⟨m.foldr insertEntry [], by rw [hm]; rfl, sortEntries_ascending m hnd, fun t n => ?_⟩
  rw [(sortEntries_perm m).mem_iff, mem_entries hnd hv hk]

/-- **C174**: a snapshot that is loaded and saved again is the same text. -/
theorem C174_again (rs : List Record) (hp : Plain rs) (s : Stats) (h : Stats.new.acceptAll rs = .ok s) :
    encode (load (some (encode s)) .new) = encode s := by
  have hi := inv_of_accept h
  obtain ⟨s', h1, h2⟩ := decode_encode (good_of_inv hi hp)
  have : load (some (encode s)) .new = s' := by simp [load, h1]
  rw [this]
  exact encode_of_inv (inv_same hi h2) hi (fun _ => rfl) rfl rfl

/-- **C174**: a server that loaded a snapshot, complete or torn, and has caught up writes the same snapshot as one that never stopped. -/
theorem C174_resumed (a b : List Record) (hp : Plain a) (hsort : (a ++ b).Pairwise (fun x y => x.gsn < y.gsn)) (sa s s' : Stats)
    (ha : Stats.new.acceptAll a = .ok sa) (n : Nat)
    (hs : shown (saveSnapshot sa n) ((a ++ b).filter (fun r => decide (startNumber (load (saveSnapshot sa n) .new) ≤ r.gsn))) = .ok s)
    (hs' : Stats.new.acceptAll (a ++ b) = .ok s') : encode s = encode s' := by
  obtain ⟨t, h1, h2⟩ := resume a b hp hsort sa ha n _ rfl
  rw [hs] at h1
  obtain rfl := Outcome.ok.inj h1
  exact encode_of_inv h2 (inv_of_accept hs') (fun _ => rfl) rfl rfl

/-! The hypotheses are met. -/

/-- Two records of different types, taken in different orders before a third. -/
example : encode ⟨some [([66], 2), ([65], 1)], 3, 3⟩ = encode ⟨some [([65], 1), ([66], 2)], 3, 3⟩ :=
  C174_same [mkRecord sB 1 1 (evB [1]), mkRecord sA 2 1 (evA [1]), mkRecord sB 3 2 (evB [1])]
    [mkRecord sA 2 1 (evA [1]), mkRecord sB 1 1 (evB [1]), mkRecord sB 3 2 (evB [1])] _ _ (by decide) (by decide)
    (List.Perm.swap _ _ _) (by decide)

example : encode (load (some (encode ⟨some [([66], 1), ([65], 1)], 2, 2⟩)) .new) = encode ⟨some [([66], 1), ([65], 1)], 2, 2⟩ :=
  C174_again [mkRecord sB 1 1 (evB [1]), mkRecord sA 2 1 (evA [1])]
    ⟨by decide, by
      intro r hr
      simp only [List.mem_cons, List.not_mem_nil, or_false] at hr
      rcases hr with rfl | rfl
      · exact ⟨by decide, utf8_B⟩
      · exact ⟨by decide, utf8_A⟩⟩ _ (by decide)

/-- A snapshot after two records, loaded by a server that then gets the third. -/
example : encode ⟨some [([65], 1), ([66], 2)], 3, 3⟩ = encode ⟨some [([66], 2), ([65], 1)], 3, 3⟩ :=
  C174_resumed [mkRecord sB 1 1 (evB [1]), mkRecord sA 2 1 (evA [1])] [mkRecord sB 3 2 (evB [1])]
    ⟨by decide, by
      intro r hr
      simp only [List.mem_cons, List.not_mem_nil, or_false] at hr
      rcases hr with rfl | rfl
      · exact ⟨by decide, utf8_B⟩
      · exact ⟨by decide, utf8_A⟩⟩
    (by decide) ⟨some [([66], 1), ([65], 1)], 2, 2⟩ _ _ (by decide) 200 (by decide +kernel) (by decide)

end RangeDB.Prj

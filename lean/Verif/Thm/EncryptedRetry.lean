import Verif.Thm.Encrypted
import Verif.Thm.InMemory

/-!
# C56: what a retry with the same events stores

`Verif/Thm/Encrypted.lean` shows that a retry through the encrypted store does not store what the caller meant to
save. Here is exactly what it stores.
-/

namespace RangeDB.ES

open RangeDB.Key RangeDB.Cry Demo

variable {σ : Type}

/-- What reading returns for the data `d0` that was saved on a retry: the personal strings are cipher texts of those in
`d0`, and the personal numbers are 0. Data without personal fields is as it was. -/
def Retried (C : Codec) (K : Store σ) (enc : Encryptor) (t d0 d : Str) : Prop :=
  (C.asP t d0 = none ∧ d = d0) ∨
  ∃ p q, C.asP t d0 = some p ∧ C.asP t d = some q ∧ d = C.ofP t d0 q ∧ q.subject = p.subject ∧ q.rest = p.rest ∧
    q.strs.length = p.strs.length ∧
    (∀ (i : Nat) (f c : Str), p.strs[i]? = some f → q.strs[i]? = some c → EncOf K enc p.subject f c) ∧
    q.ints = List.replicate p.ints.length 0 ∧ q.sers = List.replicate p.ints.length []

/-- An engine's cipher texts are bytes. -/
def CipherBytes (enc : Encryptor) : Prop :=
  ∀ key plain tape c tape', enc.encrypt key plain tape = (.ok c, tape') → Bytes c

theorem b64enc_bytes (s : Str) : Bytes (b64enc s) := by
  have hc : ∀ i, b64chr i < 256 := by
    intro i; unfold b64chr; repeat' split
    all_goals omega
  fun_induction b64enc s with
  | case1 => intro b hb; cases hb
  | case2 a => intro b hb; simp only [List.mem_cons, List.not_mem_nil, or_false] at hb; rcases hb with rfl | rfl | rfl | rfl <;> first | exact hc _ | decide
  | case3 a b => intro b hb; simp only [List.mem_cons, List.not_mem_nil, or_false] at hb; rcases hb with rfl | rfl | rfl | rfl <;> first | exact hc _ | decide
  | case4 a b c rest ih =>
    intro x hx
    simp only [List.mem_cons] at hx
    rcases hx with rfl | rfl | rfl | rfl | hx
    · exact hc _
    · exact hc _
    · exact hc _
    · exact hc _
    · exact ih x hx

theorem encrypt64_bytes (e : Str → Str → Str → R × Str) (d : Str → Str → R) : CipherBytes ⟨encrypt64 e, d⟩ := by
  intro key plain tape c tape' h
  simp only [encrypt64] at h
  cases hk : b64dec key with
  | none => simp [hk] at h
  | some k =>
    simp only [hk] at h
    generalize e plain k tape = x at h
    obtain ⟨r, t⟩ := x
    cases r with
    | ok x =>
      simp only [Prod.mk.injEq, R.ok.injEq] at h
      rw [← h.1]; exact b64enc_bytes x
    | err x => simp at h
    | panic => simp at h

/-- The three engines satisfy the hypothesis. -/
theorem engines_bytes (A : Aead) (B : BlockCipher) : CipherBytes (gcm A) ∧ CipherBytes (xcha A) ∧ CipherBytes (cbc B) :=
  ⟨encrypt64_bytes _ _, encrypt64_bytes _ _, encrypt64_bytes _ _⟩

theorem encOf_bytes {K : Store σ} {enc : Encryptor} (hb : CipherBytes enc) {s f c : Str} (h : EncOf K enc s f c) :
    Bytes c := by
  obtain ⟨w, h⟩ := h
  unfold engineEncrypt at h
  generalize K.get w.ks s = x at h
  obtain ⟨ks, key, r⟩ := x
  cases r with
  | none =>
    exact hb key f w.nonceTape c _ (Prod.ext h rfl)
  | some e =>
    cases e with
    | notFound =>
      simp only at h
      generalize readFull 32 w.keyTape = y at h
      obtain ⟨raw, kt⟩ := y
      cases raw with
      | none => simp at h
      | some raw =>
        simp only at h
        generalize K.set ks s (b64enc raw) = u at h
        obtain ⟨ks', r⟩ := u
        cases r with
        | some e => simp at h
        | none =>
          exact hb (b64enc raw) f w.nonceTape c _ (Prod.ext h rfl)
    | _ => simp at h

/-- The data without the cipher texts of its numbers: what encryption overwrites anyway. -/
def scrubData (C : Codec) (t d : Str) : Str :=
  match C.asP t d with
  | none => d
  | some p => C.ofP t d { p with sers := p.ints.map (fun _ => []) }

/-- The event without these. -/
def scrub (C : Codec) (er : EventRecord) : EventRecord := setData er (scrubData C er.event.evType er.event.data)

/-- As many cipher text fields as numbers. -/
def Sized (C : Codec) (t d : Str) : Prop := ∀ p, C.asP t d = some p → p.sers.length = p.ints.length

theorem encData_scrub {C : Codec} (hC : C.Lawful) {K : Store σ} {enc : Encryptor} {w w' : World σ} {t d d' : Str}
    (hs : Sized C t d) (h : encData C K enc w t d = (w', some (d', none))) :
    encData C K enc w t (scrubData C t d) = (w', some (d', none)) := by
  unfold scrubData
  cases hp : C.asP t d with
  | none => exact h
  | some p =>
    have hsh : SameShape p { p with sers := p.ints.map (fun _ => []) } := ⟨rfl, rfl, rfl, rfl, by simp [hs p hp]⟩
    unfold encData at h ⊢
    simp only [hp] at h
    simp only [hC.get_put t d p _ hp hsh]
    unfold genEncrypt at h ⊢
    simp only
    generalize encFields K enc p.subject w (p.strs ++ p.ints.map Dec.itoa) = x at h ⊢
    obtain ⟨w1, r⟩ := x
    cases r with
    | panic => simp at h
    | err e => cases e <;> simp at h
    | ok cs =>
      simp only [Prod.mk.injEq, Option.some.injEq, and_true] at h ⊢
      exact ⟨h.1, by rw [hC.put_put t d p _ _ hp hsh]; exact h.2⟩

theorem encBatch_scrub {C : Codec} (hC : C.Lawful) {K : Store σ} {enc : Encryptor} (ers : List EventRecord)
    (hs : ∀ er ∈ ers, Sized C er.event.evType er.event.data) :
    ∀ {w w' : World σ} {ers' : List EventRecord}, encBatch C K enc w ers = (w', ers', .ok) →
      encBatch C K enc w (ers.map (scrub C)) = (w', ers', .ok) := by
  induction ers with
  | nil => intro w w' ers' h; exact h
  | cons er ers ih =>
    intro w w' ers' h
    have ih := @ih (fun e he => hs e (List.mem_cons_of_mem _ he))
    simp only [encBatch] at h
    cases hx : encData C K enc w er.event.evType er.event.data with
    | mk w1 r =>
      simp only [hx] at h
      rcases r with _ | ⟨d, _ | e⟩
      · simp at h
      · have h1 := encData_scrub hC (hs er (by simp)) hx
        simp only at h
        cases hy : encBatch C K enc w1 ers with
        | mk w2 y =>
          obtain ⟨l, r⟩ := y
          simp only [hy, Prod.mk.injEq] at h
          obtain ⟨rfl, rfl, rfl⟩ := h
          have h2 := ih hy
          have e1 : (scrub C er).event.evType = er.event.evType := rfl
          have e2 : (scrub C er).event.data = scrubData C er.event.evType er.event.data := rfl
          simp only [List.map_cons, encBatch, e1, e2, h1, h2]
          rfl
      · simp at h

theorem plainOps_append (C : Codec) (K : Store σ) (enc : Encryptor) (z : Serializer) (a b : List HOp) (s : State σ) :
    plainOps C K enc z s (a ++ b) = plainOps C K enc z s a ++ plainOps C K enc z (hrun C K enc z s a) b := by
  induction a generalizing s with
  | nil => rfl
  | cons op a ih =>
    cases op with
    | save st e c ers => simp only [List.cons_append, plainOps, ih, List.append_assoc]; rfl
    | delete st e c => simp only [List.cons_append, plainOps, ih]; rfl
    | world o => simp only [List.cons_append, plainOps, ih]; rfl

/-- In the unencrypted store: what an `OptimisticSave` at `n` stored is what a read from `n + 1` yields. -/
theorem read_back {z : Serializer} (hz : z.Lawful) (hf : Faithful z) (ops : List RangeDB.Op) (st : Str) (n k : Nat)
    (ers : List EventRecord) (hok : (IM.saveEvents z (IM.run z ops) st (some n) none ers).out = .ok k) :
    (IM.eventsByStream z (IM.saveEvents z (IM.run z ops) st (some n) none ers).state none (n + 1) st).recs.map (·.data) =
      ers.map (fun er => er.event.data) := by
  have hg : ∀ l : List RangeDB.Op, ∀ op ∈ l, op.Guarded z := fun l op _ => guarded_of_faithful hf op
  have hn := IM.C05_success_only_if_match ops st n k none ers hok
  obtain ⟨n', g, a1, _, _, a4, a5, _⟩ := IM.C01_save_appends hz ops st (some n) none ers k hok
  rw [hn] at a1
  obtain rfl : n = n' := by injection a1
  have hrun : IM.run z (ops ++ [.save st (some n) none ers]) =
      (IM.saveEvents z (IM.run z ops) st (some n) none ers).state := by
    simp [IM.run, IM.step]
  obtain ⟨n1, all1, b1, b2, b3, b4, b5⟩ := IM.C02_stream_contiguous hz ops (hg _) st
  rw [hn] at b1
  obtain rfl : n = n1 := by injection b1
  obtain ⟨n2, all2, c1, c2, c3, c4, c5⟩ := IM.C02_stream_contiguous hz _ (hg (ops ++ [.save st (some n) none ers])) st
  rw [hrun] at c1 c2 c4 c5
  rw [a5] at c2
  simp only [List.filter_append] at c2
  rw [← b2] at c2
  have hst : ∀ r ∈ (numbered st g n ers).map z.view, r.streamName = st ∧ n + 1 ≤ r.seq := by
    intro r hr
    obtain ⟨r0, h0, rfl⟩ := List.mem_map.mp hr
    refine ⟨by rw [hz.streamName]; exact numbered_stream h0, ?_⟩
    rw [hz.seq]
    have : r0.seq ∈ (numbered st g n ers).map (·.seq) := List.mem_map_of_mem h0
    rw [numbered_seq_range, List.mem_range'_1] at this
    exact this.1
  rw [List.filter_eq_self.mpr (fun r hr => by simp [(hst r hr).1])] at c2
  have hold : all1.filter (fun r => decide (r.seq ≥ n + 1)) = [] := by
    rw [List.filter_eq_nil_iff]
    intro r hr
    have : r.seq ∈ all1.map (·.seq) := List.mem_map_of_mem hr
    rw [b3, List.mem_range'_1] at this
    simp only [ge_iff_le, decide_eq_true_eq]; omega
  have hfil : all2.filter (fun r => decide (r.seq ≥ n + 1)) = (numbered st g n ers).map z.view := by
    rw [c2, List.filter_append, hold, List.nil_append]
    exact List.filter_eq_self.mpr (fun r hr => by simpa using (hst r hr).2)
  have hdata : ∀ (g q : Nat) (l : List EventRecord), ((numbered st g q l).map z.view).map (·.data) =
      l.map (fun er => er.event.data) := by
    intro g q l
    induction l generalizing g q with
    | nil => rfl
    | cons e l ih => simp only [numbered, List.map_cons, ih, hf.data]; rfl
  by_cases h0 : n2 = 0
  · rw [c4 h0]
    have : all2.length = n2 := by
      have := congrArg List.length c3
      simpa using this
    rw [h0, List.length_eq_zero_iff] at this
    rw [this] at hfil
    rw [← hdata g n, ← hfil]; rfl
  · rw [c5 h0]
    simp only [cut, hfil]
    exact hdata g n ers

/-- **C56**, exactly: after any history, an `OptimisticSave` that fails because of the stream's number and is then
repeated with the same events and the actual number stores, for good, cipher texts in place of the personal strings and
zeros in place of the personal numbers. That is what every later read of them returns. -/
theorem C56_exact (C : Codec) (enc : Encryptor) (z : Serializer) (keys nonces : Str) (ops : List HOp) (st : Str)
    (e n k : Nat) (ers : List EventRecord) (hC : C.Lawful) (he : enc.Lawful) (hcb : CipherBytes enc) (hz : z.Lawful)
    (hf : Faithful z) (hk : Bytes keys) (hn : Bytes nonces)
    (hwf : WellFormed C (ops ++ [.save st (some n) none ers])) (hns : NoShred C (ops ++ [.save st (some n) none ers])) :
    let s := hrun C mem enc z (start Mem.new keys nonces) ops
    let first := save C mem enc z s st (some e) none ers
    let retry := save C mem enc z first.state st (some n) none first.events
    first.out = .parent (.err (.unexpected e n)) → retry.out = .parent (.ok k) →
    ∃ got : List Str,
      (eventsByStream C mem enc z retry.state none (n + 1) st).2.recs.map (·.map (·.data)) = got.map some ∧
      got.length = ers.length ∧
      ∀ (i : Nat) (er : EventRecord) (d : Str), ers[i]? = some er → got[i]? = some d →
        Retried C mem enc er.event.evType er.event.data d := by
  intro s first retry h1 h2
  -- the first encryption
  have hmem : HOp.save st (some n) none ers ∈ ops ++ [.save st (some n) none ers] := by simp
  have R := keeps_regime mem_keeps
    (fun s => ∀ now, HOp.world (.call (.delete now s)) ∉ ops ++ [.save st (some n) none ers])
  have hwfo : WellFormed C ops := fun st e c ers h => hwf st e c ers (by simp [h])
  have hok : ∀ op ∈ ops, StepOk C (fun s => ∀ now, HOp.world (.call (.delete now s)) ∉ ops ++ [.save st (some n) none ers])
      (fun c => ∀ now s, (∀ now, HOp.world (.call (.delete now s)) ∉ ops ++ [.save st (some n) none ers]) →
        c ≠ .delete now s) op := by
    intro op hop
    exact stepOk_of hwf hns op (by simp [hop])
  have hH := hrun_holds (C := C) (enc := enc) R he hz hf ops (start_holds (m0 := Mem.new) trivial hk hn) hok
  have hw : WInv _ s.world := hH.1
  have hb1 : ∃ w1 ers1, encBatch C mem enc s.world ers = (w1, ers1, .ok) := by
    generalize hx : encBatch C mem enc s.world ers = x
    obtain ⟨w1, l, r⟩ := x
    cases r with
    | ok => exact ⟨w1, l, rfl⟩
    | err e => simp [first, save, hx] at h1
    | panic => simp [first, save, hx] at h1
  obtain ⟨w1, ers1, hb1⟩ := hb1
  have hrel := encBatch_ok R he C ers (fun er her p hp => ⟨hwf st (some n) none ers hmem er her p hp,
    hns st (some n) none ers hmem er her p hp⟩) hw hb1
  have hev : first.events = ers1 := by simp [first, save, hb1]
  -- what the caller's events look like now
  have hret : Rel2 (fun a b => a.event.evType = b.event.evType ∧ Sized C b.event.evType b.event.data ∧
      Retried C mem enc a.event.evType a.event.data (scrub C b).event.data ∧
      (∀ p, C.asP (scrub C b).event.evType (scrub C b).event.data = some p → Plain p ∧
        ∀ now, HOp.world (.call (.delete now p.subject)) ∉ ops ++ [.save st (some n) none ers])) ers ers1 := by
    refine hrel.imp ?_
    rintro a b ⟨d, rfl, hd⟩
    rcases hd with ⟨hp, rfl⟩ | ⟨p, q, hp, rfl, hsh, _, ⟨hal, hse⟩, _⟩
    · have hsc : scrub C (setData a a.event.data) = a := by simp [scrub, setData, scrubData, hp]
      rw [hsc]
      refine ⟨rfl, fun p hp' => ?_, .inl ⟨hp, rfl⟩, fun p hp' => ?_⟩
      · simp only [setData, hp] at hp'; cases hp'
      · rw [hp] at hp'; cases hp'
    · have hq : C.asP a.event.evType (C.ofP a.event.evType a.event.data q) = some q := hC.get_put _ _ _ _ hp hsh
      obtain ⟨s1, s2, s3, s4, s5, s6, s7⟩ := hse
      have hlen : q.sers.length = q.ints.length := by rw [s6, s5]; simp
      have hsh' : SameShape p { q with sers := q.ints.map (fun _ => []) } := by
        obtain ⟨a1, a2, a3, a4, a5⟩ := hsh
        exact ⟨a1, a2, a3, a4, by simp only [List.length_map]; rw [← hlen]; exact a5⟩
      have hsc : (scrub C (setData a (C.ofP a.event.evType a.event.data q))).event.data =
          C.ofP a.event.evType a.event.data { q with sers := q.ints.map (fun _ => []) } := by
        simp only [scrub, setData, scrubData, hq]
        exact hC.put_put _ _ _ _ _ hp hsh
      have hq' : C.asP a.event.evType (scrub C (setData a (C.ofP a.event.evType a.event.data q))).event.data =
          some { q with sers := q.ints.map (fun _ => []) } := by
        rw [hsc]; exact hC.get_put _ _ _ _ hp hsh'
      refine ⟨rfl, ?_, .inr ⟨p, _, hp, hq', hsc, s1, s2, s3, s4, s5, ?_⟩, ?_⟩
      · intro p' hp'
        simp only [setData, hq, Option.some.injEq] at hp'
        rw [← hp']; exact hlen
      · simp only [s5, List.map_replicate]
      · intro p' hp'
        have : C.asP a.event.evType (scrub C (setData a (C.ofP a.event.evType a.event.data q))).event.data = some p' := hp'
        rw [hq', Option.some.injEq] at this
        subst this
        refine ⟨⟨?_, ?_, rfl⟩, ?_⟩
        · intro f hf'
          obtain ⟨i, hi⟩ := List.mem_iff_getElem?.mp hf'
          have hi1 : i < q.strs.length := by
            obtain ⟨h, _⟩ := List.getElem?_eq_some_iff.mp hi; exact h
          have hi2 : i < p.strs.length := by rw [← s3]; exact hi1
          exact encOf_bytes hcb (s4 i p.strs[i] f (List.getElem?_eq_getElem hi2) hi)
        · intro x hx
          simp only [s5] at hx
          rw [(List.mem_replicate.mp hx).2]; decide
        · rw [show ({ q with sers := q.ints.map (fun _ => []) } : PEvent).subject = p.subject from s1]
          exact hal
  -- the second encryption
  have hb2 : ∃ w2 ers2, encBatch C mem enc first.state.world ers1 = (w2, ers2, .ok) := by
    generalize hx : encBatch C mem enc first.state.world ers1 = x
    obtain ⟨w2, l, r⟩ := x
    cases r with
    | ok => exact ⟨w2, l, rfl⟩
    | err e => simp [retry, save, hev, hx] at h2
    | panic => simp [retry, save, hev, hx] at h2
  obtain ⟨w2, ers2, hb2⟩ := hb2
  have hsized : ∀ er ∈ ers1, Sized C er.event.evType er.event.data := by
    have : ∀ {as bs : List EventRecord} {P : EventRecord → EventRecord → Prop}, Rel2 P as bs → ∀ b ∈ bs, ∃ a ∈ as, P a b := by
      intro as bs P h
      induction h with
      | nil => intro b hb; cases hb
      | cons h _ ih =>
        intro b hb
        rcases List.mem_cons.mp hb with rfl | hb
        · exact ⟨_, by simp, h⟩
        · obtain ⟨a, ha, hp⟩ := ih b hb
          exact ⟨a, by simp [ha], hp⟩
    intro er her
    obtain ⟨a, _, h⟩ := this hret er her
    exact h.2.1
  have hb3 := encBatch_scrub hC ers1 hsized hb2
  have hretry : retry = save C mem enc z first.state st (some n) none (ers1.map (scrub C)) := by
    simp only [retry, save, hev, hb2, hb3]
  -- a history without a retry of encrypted events
  generalize hops : ops ++ [HOp.save st (some e) none ers] = ops1
  have hst1 : hrun C mem enc z (start Mem.new keys nonces) ops1 = first.state := by
    rw [← hops]; simp [hrun, first, s, hstep]
  have hst2 : hrun C mem enc z (start Mem.new keys nonces) (ops1 ++ [.save st (some n) none (ers1.map (scrub C))]) =
      retry.state := by
    rw [hretry, ← hst1]; simp [hrun, hstep]
  have hdel : ∀ now x, HOp.world (.call (.delete now x)) ∈ ops1 ++ [.save st (some n) none (ers1.map (scrub C))] →
      HOp.world (.call (.delete now x)) ∈ ops ++ [.save st (some n) none ers] := by
    intro now x h
    rw [← hops] at h
    simpa using h
  have hscr : ∀ er ∈ ers1.map (scrub C), ∀ p, C.asP er.event.evType er.event.data = some p → Plain p ∧
        ∀ now, HOp.world (.call (.delete now p.subject)) ∉ ops ++ [.save st (some n) none ers] := by
    intro er her p hp
    obtain ⟨b, hb, rfl⟩ := List.mem_map.mp her
    obtain ⟨i, hi⟩ := List.mem_iff_getElem?.mp hb
    have hi1 : i < ers1.length := by
      obtain ⟨h, _⟩ := List.getElem?_eq_some_iff.mp hi; exact h
    have hi2 : i < ers.length := by rw [← hret.length]; exact hi1
    exact (rel2_getElem hret i ers[i] b (List.getElem?_eq_getElem hi2) hi).2.2.2 p hp
  have hsaves : ∀ st' e' c' l, HOp.save st' e' c' l ∈ ops1 ++ [.save st (some n) none (ers1.map (scrub C))] →
      ∀ er ∈ l, ∀ p, C.asP er.event.evType er.event.data = some p → Plain p ∧
        ∀ now, HOp.world (.call (.delete now p.subject)) ∉ ops ++ [.save st (some n) none ers] := by
    intro st' e' c' l h er her p hp
    rw [← hops] at h
    simp only [List.append_assoc, List.mem_append, List.mem_cons, List.not_mem_nil, or_false, HOp.save.injEq] at h
    rcases h with h | ⟨rfl, rfl, rfl, rfl⟩ | ⟨rfl, rfl, rfl, rfl⟩
    · exact ⟨hwf _ _ _ _ (List.mem_append_left _ h) er her p hp, hns _ _ _ _ (List.mem_append_left _ h) er her p hp⟩
    · exact ⟨hwf _ _ _ _ hmem er her p hp, hns _ _ _ _ hmem er her p hp⟩
    · exact hscr er her p hp
  have htr := transparent_of mem_keeps (m0 := Mem.new) trivial C enc z keys nonces
    (ops1 ++ [.save st (some n) none (ers1.map (scrub C))]) hC he hz hf hk hn
    (fun st' e' c' l h er her p hp => (hsaves st' e' c' l h er her p hp).1)
    (fun st' e' c' l h er her p hp now hmem => (hsaves st' e' c' l h er her p hp).2 now (hdel now _ hmem))
  have hcalls := ((C30_calls C mem enc z hf Mem.new keys nonces ops1 st).1 (some n) none (ers1.map (scrub C))).1
  rw [hst1] at hcalls
  have hout := hcalls (by rw [hb3])
  rw [← hretry, h2] at hout
  have hout := (SaveEnd.parent.inj hout).symm
  have hplain : IM.run z (plainOps C mem enc z (start Mem.new keys nonces)
      (ops1 ++ [.save st (some n) none (ers1.map (scrub C))])) =
      (IM.saveEvents z (IM.run z (plainOps C mem enc z (start Mem.new keys nonces) ops1)) st (some n) none
        (ers1.map (scrub C))).state := by
    rw [plainOps_append, hst1]
    simp only [plainOps, hb3, if_true, List.append_nil]
    simp [IM.run, IM.step]
  have hread := read_back hz hf _ st n k _ hout
  refine ⟨(ers1.map (scrub C)).map (fun er => er.event.data), ?_, by simp [hret.length], ?_⟩
  · rw [← hst2, htr.2.1 none (n + 1) st, hplain, ← hread]
    simp [asGot]
  · intro i er d hi hd
    simp only [List.getElem?_map, Option.map_eq_some_iff] at hd
    obtain ⟨_, ⟨b, hb, rfl⟩, rfl⟩ := hd
    exact (rel2_getElem hret i er b hi hb).2.2.1

/-! ### A concrete case -/

/-- A number as two. -/
def putInt : Int → Nat × Nat
  | .ofNat i => (0, i)
  | .negSucc i => (1, i)

/-- Events of type `"N"` (78) carry one personal number: their data is the subject (one byte), the number and the field
that takes its cipher text. -/
def codecN : Codec where
  asP t d := if t = [78] then
      match d with
      | a :: 0 :: i :: x => some ⟨[a], [], [.ofNat i], [x], []⟩
      | a :: 1 :: i :: x => some ⟨[a], [], [.negSucc i], [x], []⟩
      | _ => none
    else none
  ofP _ d q := match d with
    | a :: _ :: _ :: _ => a :: (putInt (q.ints.head?.getD 0)).1 :: (putInt (q.ints.head?.getD 0)).2 :: q.sers.head?.getD []
    | _ => d

theorem codecN_some {t d : Str} {p : PEvent} (h : codecN.asP t d = some p) :
    ∃ (a : Nat) (n : Int) (x : Str), t = [78] ∧ d = a :: (putInt n).1 :: (putInt n).2 :: x ∧ p = ⟨[a], [], [n], [x], []⟩ := by
  simp only [codecN] at h
  split at h
  · rename_i ht
    split at h
    · rename_i a i x
      exact ⟨a, .ofNat i, x, ht, rfl, (Option.some.inj h).symm⟩
    · rename_i a i x
      exact ⟨a, .negSucc i, x, ht, rfl, (Option.some.inj h).symm⟩
    · cases h
  · cases h

theorem codecN_get (a : Nat) (n : Int) (x : Str) :
    codecN.asP [78] (a :: (putInt n).1 :: (putInt n).2 :: x) = some ⟨[a], [], [n], [x], []⟩ := by
  cases n <;> rfl

theorem codecN_lawful : codecN.Lawful where
  get_put t d p q h hs := by
    obtain ⟨a, n, x, rfl, rfl, rfl⟩ := codecN_some h
    obtain ⟨h1, h2, h3, h4, h5⟩ := hs
    obtain ⟨sub, strs, ints, sers, rest⟩ := q
    obtain ⟨m, rfl⟩ : ∃ m, ints = [m] := List.length_eq_one_iff.mp h4
    obtain ⟨y, rfl⟩ : ∃ y, sers = [y] := List.length_eq_one_iff.mp h5
    obtain rfl := List.length_eq_zero_iff.mp h3
    simp only at h1 h2
    subst h1; subst h2
    exact codecN_get a m y
  put_get t d p h := by
    obtain ⟨a, n, x, rfl, rfl, rfl⟩ := codecN_some h
    rfl
  put_put t d p q r h _ := by
    obtain ⟨a, n, x, rfl, rfl, rfl⟩ := codecN_some h
    rfl

/-- An event with the personal number `n`. -/
def evN (a n : Nat) : EventRecord := { evP [] [] with event := { (evP [] []).event with evType := [78], data := [a, 0, n] } }

/-- The hypotheses are met by an event with a personal number, 42: the first attempt fails, the retry succeeds, and the
number read back is 0. -/
example :
    let first := save codecN mem (gcm toyAead) demoAll (start Mem.new (tape0 64) (tape0 96)) sA (some 7) none [evN 5 42]
    let retry := save codecN mem (gcm toyAead) demoAll first.state sA (some 0) none first.events
    first.out = .parent (.err (.unexpected 7 0)) ∧ retry.out = .parent (.ok 1) ∧
    (eventsByStream codecN mem (gcm toyAead) demoAll retry.state none 1 sA).2.recs.map (·.map (·.data)) =
      [some [5, 0, 0]] := by
  decide +kernel

example : codecN.Lawful ∧ CipherBytes (gcm toyAead) ∧ codecN.asP [78] [5, 0, 42] = some ⟨[5], [], [42], [[]], []⟩ :=
  ⟨codecN_lawful, (engines_bytes toyAead ⟨fun _ b => b, fun _ b => b⟩).1, rfl⟩

end RangeDB.ES

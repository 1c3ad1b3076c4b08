import Verif.Spec.Wire
import Verif.Proof.Remote

/-!
# Lemmas about the encoding of messages
-/

namespace RangeDB.Wire

open Json (Valid)

theorem varintLoop_pos (k n : Nat) : 1 ≤ (varintLoop (k + 1) n).length := by
  unfold varintLoop
  split <;> simp

theorem readVarint_varintLoop (k : Nat) : ∀ n, n < 2 ^ (7 * k + 1) → ∀ r,
    readVarint (k + 1) (varintLoop (k + 1) n ++ r) = some (n, r) := by
  induction k with
  | zero =>
    intro n hn r
    have h : n < 128 := by omega
    have h' : ¬ 1 < n := by omega
    simp [varintLoop, readVarint, h, h']
  | succ k ih =>
    intro n hn r
    unfold varintLoop
    by_cases h : n < 128
    · rw [if_pos h]
      simp [readVarint, h]
    · rw [if_neg h]
      have e : 2 ^ (7 * (k + 1) + 1) = 128 * 2 ^ (7 * k + 1) := by
        rw [show 7 * (k + 1) + 1 = 7 + (7 * k + 1) by omega, Nat.pow_add]
      have h1 : n / 128 < 2 ^ (7 * k + 1) := by
        rw [e] at hn
        exact Nat.div_lt_of_lt_mul hn
      have h2 := ih (n / 128) h1 r
      simp only [List.cons_append, readVarint]
      rw [if_neg (by omega), if_neg (by omega), h2]
      simp only [Option.map_some, Option.some.injEq, Prod.mk.injEq, and_true]
      omega

theorem readVarint_varint (n : Nat) (hn : n < 2 ^ 64) (r : Str) : readVarint 10 (varint n ++ r) = some (n, r) :=
  readVarint_varintLoop 9 n (by simpa using hn) r

theorem varint_ne (n : Nat) : ∃ b bs, varint n = b :: bs := by
  unfold varint varintLoop
  split
  · exact ⟨_, _, rfl⟩
  · exact ⟨_, _, rfl⟩

theorem varint_pos (n : Nat) : 1 ≤ (varint n).length := varintLoop_pos 9 n

theorem lengthField_length (f : Nat) (s : Str) : s.length + 2 ≤ (lengthField f s).length := by
  have h1 := varint_pos (8 * f + 2)
  have h2 := varint_pos s.length
  simp only [lengthField, List.length_append]
  omega

section
variable (ok : Str → Bool) (sch : Schema)

/-- Reading `b` turns the content `m` into `m'`. -/
def Steps (b : Str) (m m' : Msg) : Prop :=
  ∃ n ≤ b.length, ∀ fuel r, decodeLoop ok sch (fuel + n) (b ++ r) m = decodeLoop ok sch fuel r m'

variable {ok sch}

theorem Steps.nil (m : Msg) : Steps ok sch [] m m := ⟨0, by simp, by simp⟩

theorem Steps.append {a b : Str} {m m1 m2 : Msg} (h1 : Steps ok sch a m m1) (h2 : Steps ok sch b m1 m2) :
    Steps ok sch (a ++ b) m m2 := by
  obtain ⟨n1, l1, h1⟩ := h1
  obtain ⟨n2, l2, h2⟩ := h2
  refine ⟨n2 + n1, by simp only [List.length_append]; omega, fun fuel r => ?_⟩
  rw [← Nat.add_assoc, List.append_assoc, h1, h2]

theorem decodeLoop_cons (fuel : Nat) (s : Str) (hs : s ≠ []) (m : Msg) :
    decodeLoop ok sch (fuel + 1) s m =
    match readVarint 10 s with
    | none => none
    | some (tag, r) =>
      let f := tag / 8
      if f = 0 ∨ 2 ^ 29 ≤ f then none
      else if tag % 8 = 0 then
        match readVarint 10 r with
        | none => none
        | some (v, r') => decodeLoop ok sch fuel r' (takeNum sch f v m)
      else if tag % 8 = 2 then
        match readVarint 10 r with
        | none => none
        | some (n, r') =>
          if r'.length < n then none
          else
            match takeBytes ok sch f (r'.take n) m with
            | none => none
            | some m' => decodeLoop ok sch fuel (r'.drop n) m'
      else if tag % 8 = 1 then
        if r.length < 8 then none else decodeLoop ok sch fuel (r.drop 8) m
      else if tag % 8 = 5 then
        if r.length < 4 then none else decodeLoop ok sch fuel (r.drop 4) m
      else none := by
  cases s with
  | nil => exact absurd rfl hs
  | cons b bs => rfl

theorem varint_append_ne (n : Nat) (r : Str) : varint n ++ r ≠ [] := by
  obtain ⟨b, bs, h⟩ := varint_ne n
  simp [h]

theorem steps_num {f v : Nat} (hf : 0 < f ∧ f < 2 ^ 29) (hv : v < 2 ^ 64) (m : Msg) :
    Steps ok sch (varint (8 * f) ++ varint v) m (takeNum sch f v m) := by
  refine ⟨1, by have := varint_pos (8 * f); simp only [List.length_append]; omega, fun fuel r => ?_⟩
  rw [List.append_assoc, decodeLoop_cons _ _ (varint_append_ne _ _),
    readVarint_varint _ (by omega), ]
  have e1 : 8 * f / 8 = f := by omega
  have e2 : 8 * f % 8 = 0 := by omega
  simp only [e1, e2, if_true]
  rw [if_neg (by omega), readVarint_varint _ hv]

theorem steps_bytes {f : Nat} {s : Str} (hf : 0 < f ∧ f < 2 ^ 29) (hs : s.length < 2 ^ 64) {m m' : Msg}
    (h : takeBytes ok sch f s m = some m') : Steps ok sch (lengthField f s) m m' := by
  refine ⟨1, by have := lengthField_length f s; omega, fun fuel r => ?_⟩
  unfold lengthField
  rw [List.append_assoc, List.append_assoc, decodeLoop_cons _ _ (varint_append_ne _ _),
    readVarint_varint _ (by omega)]
  have e1 : (8 * f + 2) / 8 = f := by omega
  have e2 : (8 * f + 2) % 8 = 2 := by omega
  simp only [e1, e2]
  rw [if_neg (by omega), if_neg (by omega), if_pos trivial, readVarint_varint _ hs]
  simp only [List.length_append]
  rw [if_neg (by omega)]
  simp [h]

theorem steps_list {f : Nat} (hf : 0 < f ∧ f < 2 ^ 29) : ∀ (l : List Str) (m : Msg),
    (l.flatMap (lengthField f)).length < 2 ^ 64 →
    (∀ s ∈ l, ∀ m, takeBytes ok sch f s m = some (m.add f s)) →
    Steps ok sch (l.flatMap (lengthField f)) m (l.foldl (fun m s => m.add f s) m) := by
  intro l
  induction l with
  | nil => intro m _ _; exact Steps.nil m
  | cons s l ih =>
    intro m hl h
    simp only [List.flatMap_cons, List.length_append] at hl
    have := lengthField_length f s
    exact (steps_bytes hf (by omega) (h s (by simp) m)).append
      (ih _ (by omega) (fun t ht => h t (by simp [ht])))

end

/-- The part of the content that the fields of the schema hold. -/
def restrict (sch : Schema) (m : Msg) : Msg :=
  ⟨fun f => if kindOf sch f = some .num64 ∨ kindOf sch f = some .num32 then m.num f else 0,
   fun f => if kindOf sch f = some .text then m.text f else [],
   fun f => if kindOf sch f = some .texts ∨ kindOf sch f = some .subs then m.list f else []⟩

theorem kindOf_append (a b : Schema) (f : Nat) :
    kindOf (a ++ b) f = (kindOf a f).or (kindOf b f) := by
  unfold kindOf
  rw [List.find?_append]
  cases List.find? (fun x => decide (x.1 = f)) a <;> rfl

theorem kindOf_none {a : Schema} {f : Nat} (h : f ∉ a.map (·.1)) : kindOf a f = none := by
  unfold kindOf
  rw [List.find?_eq_none.mpr]
  · rfl
  · intro x hx
    simp only [decide_eq_true_eq]
    intro e
    exact h (List.mem_map.mpr ⟨x, hx, e⟩)

theorem foldl_add (f : Nat) (l : List Str) (m : Msg) :
    l.foldl (fun m s => m.add f s) m = { m with list := fun g => if g = f then m.list g ++ l else m.list g } := by
  induction l generalizing m with
  | nil => cases m; simp
  | cons s l ih =>
    rw [List.foldl_cons, ih]
    unfold Msg.add
    simp only [Msg.mk.injEq, true_and]
    funext g
    by_cases h : g = f <;> simp [h]

/-- The numbers of the content fit, and its nested messages can be read. -/
def Fits (ok : Str → Bool) (m : Msg) (fk : Nat × Kind) : Prop :=
  (0 < fk.1 ∧ fk.1 < 2 ^ 29) ∧
  match fk.2 with
  | .num32 => m.num fk.1 < 2 ^ 32
  | .num64 => m.num fk.1 < 2 ^ 64
  | .subs => ∀ s ∈ m.list fk.1, ok s = true
  | _ => True

theorem steps_field {ok : Str → Bool} {sch : Schema} {m : Msg} {fk : Nat × Kind} {b : Str}
    (hb : encodeField m fk = some b) (hlen : b.length < 2 ^ 64) (hk : kindOf sch fk.1 = some fk.2)
    (hfit : Fits ok m fk) (pre : Schema) (hpre : fk.1 ∉ pre.map (·.1)) :
    Steps ok sch b (restrict pre m) (restrict (pre ++ [fk]) m) := by
  obtain ⟨f, k⟩ := fk
  obtain ⟨hf, hfit⟩ := hfit
  have hn := kindOf_none hpre
  have hext : ∀ g, kindOf (pre ++ [(f, k)]) g = if g = f then some k else kindOf pre g := by
    intro g
    rw [kindOf_append]
    by_cases hg : g = f
    · subst hg
      rw [show kindOf pre g = none from hn]
      simp [kindOf]
    · have : ¬ f = g := fun c => hg c.symm
      rw [if_neg hg]
      simp [kindOf, this]
  simp only at hn hk hf hfit
  cases k with
  | num64 =>
    simp only [encodeField, Option.some.injEq] at hb
    have htarget : restrict (pre ++ [(f, .num64)]) m = (restrict pre m).setNum f (m.num f) := by
      unfold restrict Msg.setNum
      simp only [hext, Msg.mk.injEq]
      refine ⟨?_, ?_, ?_⟩ <;> funext g <;> by_cases hg : g = f <;> simp [hg, hn]
    by_cases h0 : m.num f = 0
    · rw [if_pos h0] at hb
      subst hb
      have : restrict (pre ++ [(f, .num64)]) m = restrict pre m := by
        rw [htarget, h0]
        unfold restrict Msg.setNum
        simp only [Msg.mk.injEq, and_true]
        funext g
        by_cases hg : g = f <;> simp [hg, hn]
      rw [this]
      exact Steps.nil _
    · rw [if_neg h0] at hb
      subst hb
      have h := steps_num (ok := ok) (sch := sch) hf hfit (restrict pre m)
      have e : takeNum sch f (m.num f) (restrict pre m) = (restrict pre m).setNum f (m.num f) := by
        simp [takeNum, hk]
      rwa [e, ← htarget] at h
  | num32 =>
    simp only [encodeField, Option.some.injEq] at hb
    have htarget : restrict (pre ++ [(f, .num32)]) m = (restrict pre m).setNum f (m.num f) := by
      unfold restrict Msg.setNum
      simp only [hext, Msg.mk.injEq]
      refine ⟨?_, ?_, ?_⟩ <;> funext g <;> by_cases hg : g = f <;> simp [hg, hn]
    by_cases h0 : m.num f = 0
    · rw [if_pos h0] at hb
      subst hb
      have : restrict (pre ++ [(f, .num32)]) m = restrict pre m := by
        rw [htarget, h0]
        unfold restrict Msg.setNum
        simp only [Msg.mk.injEq, and_true]
        funext g
        by_cases hg : g = f <;> simp [hg, hn]
      rw [this]
      exact Steps.nil _
    · rw [if_neg h0] at hb
      subst hb
      have h := steps_num (ok := ok) (sch := sch) (v := m.num f) hf (by omega) (restrict pre m)
      have e : takeNum sch f (m.num f) (restrict pre m) = (restrict pre m).setNum f (m.num f) := by
        simp [takeNum, hk, Nat.mod_eq_of_lt hfit]
      rwa [e, ← htarget] at h
  | text =>
    simp only [encodeField] at hb
    have htarget : restrict (pre ++ [(f, .text)]) m = (restrict pre m).setText f (m.text f) := by
      unfold restrict Msg.setText
      simp only [hext, Msg.mk.injEq]
      refine ⟨?_, ?_, ?_⟩ <;> funext g <;> by_cases hg : g = f <;> simp [hg, hn]
    by_cases h0 : m.text f = []
    · rw [if_pos h0] at hb
      simp only [Option.some.injEq] at hb
      subst hb
      have : restrict (pre ++ [(f, .text)]) m = restrict pre m := by
        rw [htarget, h0]
        unfold restrict Msg.setText
        simp only [Msg.mk.injEq, and_true, true_and]
        funext g
        by_cases hg : g = f <;> simp [hg, hn]
      rw [this]
      exact Steps.nil _
    · rw [if_neg h0] at hb
      by_cases hv : Valid (m.text f)
      · rw [if_pos hv] at hb
        simp only [Option.some.injEq] at hb
        subst hb
        have hl := lengthField_length f (m.text f)
        rw [htarget]
        exact steps_bytes hf (by omega) (by simp [takeBytes, hk, hv])
      · rw [if_neg hv] at hb
        simp at hb
  | texts =>
    simp only [encodeField] at hb
    have htarget : restrict (pre ++ [(f, .texts)]) m =
        (m.list f).foldl (fun m s => m.add f s) (restrict pre m) := by
      rw [foldl_add]
      unfold restrict
      simp only [hext, Msg.mk.injEq]
      refine ⟨?_, ?_, ?_⟩ <;> funext g <;> by_cases hg : g = f <;> simp [hg, hn]
    by_cases hv : ∀ s ∈ m.list f, Valid s
    · rw [if_pos hv] at hb
      simp only [Option.some.injEq] at hb
      subst hb
      rw [htarget]
      exact steps_list hf _ _ hlen (fun s hs m' => by simp [takeBytes, hk, hv s hs])
    · rw [if_neg hv] at hb
      simp at hb
  | subs =>
    simp only [encodeField, Option.some.injEq] at hb
    have htarget : restrict (pre ++ [(f, .subs)]) m =
        (m.list f).foldl (fun m s => m.add f s) (restrict pre m) := by
      rw [foldl_add]
      unfold restrict
      simp only [hext, Msg.mk.injEq]
      refine ⟨?_, ?_, ?_⟩ <;> funext g <;> by_cases hg : g = f <;> simp [hg, hn]
    subst hb
    rw [htarget]
    exact steps_list hf _ _ hlen (fun s hs m' => by simp [takeBytes, hk, hfit s hs])

theorem kindOf_mid {pre post : Schema} {fk : Nat × Kind} (h : fk.1 ∉ pre.map (·.1)) :
    kindOf (pre ++ fk :: post) fk.1 = some fk.2 := by
  rw [kindOf_append, kindOf_none h]
  simp [kindOf]

theorem steps_encode {ok : Str → Bool} {sch : Schema} {m : Msg} :
    ∀ (post pre : Schema) (b : Str), sch = pre ++ post → (sch.map (·.1)).Nodup → encode m post = some b →
      b.length < 2 ^ 64 → (∀ fk ∈ post, Fits ok m fk) → Steps ok sch b (restrict pre m) (restrict sch m) := by
  intro post
  induction post with
  | nil =>
    intro pre b hs _ hb _ _
    simp only [encode, Option.some.injEq] at hb
    subst hb
    simp only [List.append_nil] at hs
    subst hs
    exact Steps.nil _
  | cons fk post ih =>
    intro pre b hs hnd hb hlen hfit
    simp only [encode] at hb
    cases h1 : encodeField m fk with
    | none => simp [h1] at hb
    | some b1 =>
      cases h2 : encode m post with
      | none => simp [h1, h2] at hb
      | some b2 =>
        simp only [h1, h2, Option.map_some, Option.some.injEq] at hb
        subst hb
        simp only [List.length_append] at hlen
        have hpre : fk.1 ∉ pre.map (·.1) := by
          rw [hs, List.map_append, List.map_cons] at hnd
          have := (List.nodup_append.mp hnd).2.2
          intro hmem
          exact this _ hmem _ (by simp) rfl
        have hk : kindOf sch fk.1 = some fk.2 := by rw [hs]; exact kindOf_mid hpre
        exact (steps_field h1 (by omega) hk (hfit fk (by simp)) pre hpre).append
          (ih (pre ++ [fk]) b2 (by simp [hs]) hnd h2 (by omega) (fun x hx => hfit x (by simp [hx])))

theorem decode_encode {ok : Str → Bool} {sch : Schema} {m : Msg} {b : Str} (hnd : (sch.map (·.1)).Nodup)
    (hb : encode m sch = some b) (hlen : b.length < 2 ^ 64) (hfit : ∀ fk ∈ sch, Fits ok m fk) :
    decode ok sch b = some (restrict sch m) := by
  obtain ⟨n, hn, h⟩ := steps_encode (ok := ok) (sch := sch) sch [] b rfl hnd hb hlen hfit
  have h0 : restrict [] m = Msg.empty := by
    simp [restrict, Msg.empty, kindOf]
  have h1 := h (b.length - n) []
  rw [h0, List.append_nil, show b.length - n + n = b.length by omega] at h1
  unfold decode
  rw [h1]
  cases b.length - n <;> rfl

/-! ## The messages -/

theorem valid_nil : Valid [] := rfl

theorem encodeField_text {m : Msg} {f : Nat} : (encodeField m (f, .text)).isSome ↔ Valid (m.text f) := by
  simp only [encodeField]
  by_cases h : m.text f = []
  · simp [h, valid_nil]
  · by_cases h' : Valid (m.text f) <;> simp [h, h']

theorem encodeField_texts {m : Msg} {f : Nat} :
    (encodeField m (f, .texts)).isSome ↔ ∀ s ∈ m.list f, Valid s := by
  simp only [encodeField]
  by_cases h : ∀ s ∈ m.list f, Valid s
  · rw [if_pos h]
    simpa using h
  · rw [if_neg h]
    simpa using h

theorem encodeField_num64 {m : Msg} {f : Nat} : (encodeField m (f, .num64)).isSome ↔ True := by simp [encodeField]
theorem encodeField_num32 {m : Msg} {f : Nat} : (encodeField m (f, .num32)).isSome ↔ True := by simp [encodeField]
theorem encodeField_subs {m : Msg} {f : Nat} : (encodeField m (f, .subs)).isSome ↔ True := by simp [encodeField]

theorem encode_isSome {m : Msg} : ∀ sch : Schema, (encode m sch).isSome ↔ ∀ fk ∈ sch, (encodeField m fk).isSome := by
  intro sch
  induction sch with
  | nil => simp [encode]
  | cons fk sch ih =>
    simp only [encode, List.mem_cons, forall_eq_or_imp]
    rw [← ih]
    cases encodeField m fk with
    | none => simp
    | some b => simp

theorem encodeEvent_isSome (e : PbEvent) : (encodeEvent e).isSome ↔ e.Utf8 := by
  unfold encodeEvent PbEvent.Utf8
  rw [encode_isSome]
  simp [eventSchema, encodeField_text, PbEvent.msg]

theorem decodeEvent_encodeEvent {e : PbEvent} {b : Str} (h : encodeEvent e = some b) (hlen : b.length < 2 ^ 64) :
    decodeEvent b = some e := by
  unfold decodeEvent
  unfold encodeEvent at h
  rw [decode_encode (by decide) h hlen (by simp [eventSchema, Fits])]
  rfl

theorem encodeEvents_isSome (es : List PbEvent) : (encodeEvents es).isSome ↔ ∀ e ∈ es, e.Utf8 := by
  induction es with
  | nil => simp [encodeEvents]
  | cons e es ih =>
    simp only [encodeEvents, List.mem_cons, forall_eq_or_imp]
    rw [← ih, ← encodeEvent_isSome]
    cases encodeEvent e with
    | none => simp
    | some b => simp

theorem decodeEvents_encodeEvents : ∀ (es : List PbEvent) (bs : List Str), encodeEvents es = some bs →
    (∀ b ∈ bs, b.length < 2 ^ 64) → decodeEvents bs = some es ∧ ∀ b ∈ bs, (decodeEvent b).isSome = true := by
  intro es
  induction es with
  | nil =>
    intro bs h _
    simp only [encodeEvents, Option.some.injEq] at h
    subst h
    exact ⟨rfl, by simp⟩
  | cons e es ih =>
    intro bs h hlen
    simp only [encodeEvents] at h
    cases h1 : encodeEvent e with
    | none => simp [h1] at h
    | some b =>
      cases h2 : encodeEvents es with
      | none => simp [h1, h2] at h
      | some bs' =>
        simp only [h1, h2, Option.map_some, Option.some.injEq] at h
        subst h
        obtain ⟨h3, h4⟩ := ih bs' h2 (fun b hb => hlen b (by simp [hb]))
        have h5 := decodeEvent_encodeEvent h1 (hlen b (by simp))
        refine ⟨by simp [decodeEvents, h5, h3], ?_⟩
        intro x hx
        rcases List.mem_cons.mp hx with rfl | hx
        · simp [h5]
        · exact h4 x hx

theorem flatMap_length {f : Nat} {l : List Str} {s : Str} (h : s ∈ l) :
    s.length ≤ (l.flatMap (lengthField f)).length := by
  induction l with
  | nil => simp at h
  | cons a l ih =>
    simp only [List.flatMap_cons, List.length_append]
    rcases List.mem_cons.mp h with rfl | h
    · have := lengthField_length f s
      omega
    · have := ih h
      omega

theorem encode_mem {m : Msg} : ∀ {sch : Schema} {b : Str}, encode m sch = some b → ∀ fk ∈ sch,
    ∃ b1, encodeField m fk = some b1 ∧ b1.length ≤ b.length := by
  intro sch
  induction sch with
  | nil => intro b _ fk h; simp at h
  | cons x sch ih =>
    intro b hb fk hfk
    simp only [encode] at hb
    cases h1 : encodeField m x with
    | none => simp [h1] at hb
    | some b1 =>
      cases h2 : encode m sch with
      | none => simp [h1, h2] at hb
      | some b2 =>
        simp only [h1, h2, Option.map_some, Option.some.injEq] at hb
        subst hb
        simp only [List.length_append]
        rcases List.mem_cons.mp hfk with rfl | hfk
        · exact ⟨b1, h1, by omega⟩
        · obtain ⟨b3, h3, h4⟩ := ih h2 fk hfk
          exact ⟨b3, h3, by omega⟩

theorem encode_sub {m : Msg} {sch : Schema} {b : Str} (hb : encode m sch = some b) {f : Nat}
    (hf : (f, Kind.subs) ∈ sch) : ∀ s ∈ m.list f, s.length ≤ b.length := by
  intro s hs
  obtain ⟨b1, h1, h2⟩ := encode_mem hb _ hf
  simp only [encodeField, Option.some.injEq] at h1
  subst h1
  have := flatMap_length (f := f) hs
  omega

theorem schema_nodup (t : MType) : (t.schema.map (·.1)).Nodup := by cases t <;> decide

/-- What is marshalled can be unmarshalled: as a step, so that more may come before and after. -/
theorem marshal_spec {x : Message} (hx : x.Typed) {b : Str} (hb : marshal x = some b) (hlen : b.length < 2 ^ 64) :
    ∃ m, x.msg = some m ∧ encode m x.type.schema = some b ∧
      (∀ fk ∈ x.type.schema, Fits (fun b => (decodeEvent b).isSome) m fk) ∧
      x.type.ofMsg (restrict x.type.schema m) = some x := by
  unfold marshal at hb
  cases hm : x.msg with
  | none => simp [hm] at hb
  | some m =>
    simp only [hm, Option.bind_some] at hb
    refine ⟨m, rfl, hb, ?_⟩
    cases x <;> simp only [Message.msg, Option.some.injEq] at hm <;> try subst hm
    case optimisticSaveRequest n s es =>
      cases he : encodeEvents es with
      | none => simp [he] at hm
      | some bs =>
        simp only [he, Option.map_some, Option.some.injEq] at hm
        subst hm
        have hsub := encode_sub (f := 3) hb (by simp [Message.type, MType.schema])
        obtain ⟨h1, h2⟩ := decodeEvents_encodeEvents es bs he
          (fun b' hb' => by have := hsub b' hb'; omega)
        refine ⟨?_, ?_⟩
        · simp [Message.type, MType.schema, Fits]
          exact ⟨hx, h2⟩
        · simp [Message.type, MType.schema, MType.ofMsg, restrict, kindOf, h1]
    case saveRequest s es =>
      cases he : encodeEvents es with
      | none => simp [he] at hm
      | some bs =>
        simp only [he, Option.map_some, Option.some.injEq] at hm
        subst hm
        have hsub := encode_sub (f := 2) hb (by simp [Message.type, MType.schema])
        obtain ⟨h1, h2⟩ := decodeEvents_encodeEvents es bs he
          (fun b' hb' => by have := hsub b' hb'; omega)
        refine ⟨?_, ?_⟩
        · simp [Message.type, MType.schema, Fits]
          exact h2
        · simp [Message.type, MType.schema, MType.ofMsg, restrict, kindOf, h1]
    all_goals
      refine ⟨?_, rfl⟩
      simp only [Message.Typed] at hx
      simp [Message.type, MType.schema, Fits, Msg.empty, hx]

theorem marshal_isSome (x : Message) : (marshal x).isSome ↔ x.Utf8 := by
  unfold marshal
  cases x with
  | optimisticSaveRequest n s es =>
    simp only [Message.msg, Message.Utf8, Message.type, MType.schema]
    rw [← encodeEvents_isSome]
    cases encodeEvents es with
    | none => simp
    | some bs => simp [encode_isSome, encodeField_text, encodeField_num64, encodeField_subs]
  | saveRequest s es =>
    simp only [Message.msg, Message.Utf8, Message.type, MType.schema]
    rw [← encodeEvents_isSome]
    cases encodeEvents es with
    | none => simp
    | some bs => simp [encode_isSome, encodeField_text, encodeField_num64, encodeField_subs]
  | _ =>
    simp only [Message.msg, Message.Utf8, Message.type, MType.schema, Option.bind_some, encode_isSome]
    simp [encodeField_text, encodeField_texts, encodeField_num64, encodeField_num32, Msg.empty]

/-! ## Bytes from anywhere -/

theorem readVarint_bound : ∀ (k : Nat) (s : Str) (v : Nat) (r : Str), (∀ b ∈ s, b < 256) →
    readVarint (k + 1) s = some (v, r) → v < 2 ^ (7 * k + 1) ∧ ∀ b ∈ r, b < 256 := by
  intro k
  induction k with
  | zero =>
    intro s v r hs h
    cases s with
    | nil => simp [readVarint] at h
    | cons b bs =>
      simp only [readVarint] at h
      split at h
      · simp at h
      · rename_i hb
        split at h
        · simp only [Option.some.injEq, Prod.mk.injEq] at h
          obtain ⟨rfl, rfl⟩ := h
          exact ⟨by simp at hb; omega, fun x hx => hs x (by simp [hx])⟩
        · simp at h
  | succ k ih =>
    intro s v r hs h
    cases s with
    | nil => simp [readVarint] at h
    | cons b bs =>
      simp only [readVarint] at h
      rw [if_neg (by omega)] at h
      have hb := hs b (by simp)
      have e : 2 ^ (7 * (k + 1) + 1) = 128 * 2 ^ (7 * k + 1) := by
        rw [show 7 * (k + 1) + 1 = 7 + (7 * k + 1) by omega, Nat.pow_add]
      have hp : 0 < 2 ^ (7 * k + 1) := Nat.pow_pos (by omega)
      split at h
      · simp only [Option.some.injEq, Prod.mk.injEq] at h
        obtain ⟨rfl, rfl⟩ := h
        exact ⟨by rw [e]; omega, fun x hx => hs x (by simp [hx])⟩
      · cases hr : readVarint (k + 1) bs with
        | none => simp [hr] at h
        | some p =>
          obtain ⟨v', r'⟩ := p
          simp only [hr, Option.map_some, Option.some.injEq, Prod.mk.injEq] at h
          obtain ⟨rfl, rfl⟩ := h
          obtain ⟨h1, h2⟩ := ih bs v' r' (fun x hx => hs x (by simp [hx])) hr
          exact ⟨by rw [e]; omega, h2⟩

/-- The content of a message that was read. -/
def Sound (ok : Str → Bool) (sch : Schema) (m : Msg) : Prop :=
  ∀ f, m.num f < 2 ^ 64 ∧ (kindOf sch f = some .num32 → m.num f < 2 ^ 32) ∧ Valid (m.text f) ∧
    (kindOf sch f = some .texts → ∀ s ∈ m.list f, Valid s) ∧
    (kindOf sch f = some .subs → ∀ s ∈ m.list f, ok s = true)

theorem sound_empty (ok : Str → Bool) (sch : Schema) : Sound ok sch .empty := by
  intro f
  simp [Msg.empty, valid_nil]

theorem sound_takeNum {ok : Str → Bool} {sch : Schema} {m : Msg} (h : Sound ok sch m) {f v : Nat} (hv : v < 2 ^ 64) :
    Sound ok sch (takeNum sch f v m) := by
  unfold takeNum
  split
  · rename_i hk
    intro g
    obtain ⟨h1, h2, h3⟩ := h g
    refine ⟨?_, ?_, h3⟩
    · by_cases hg : g = f <;> simp [Msg.setNum, hg] <;> first | exact hv | simpa [hg] using (h g).1
    · intro hg'
      by_cases hg : g = f
      · subst hg; rw [hk] at hg'; simp at hg'
      · simp [Msg.setNum, hg]; simpa using h2 hg'
  · intro g
    obtain ⟨h1, h2, h3⟩ := h g
    refine ⟨?_, ?_, h3⟩
    · by_cases hg : g = f
      · simp only [Msg.setNum, hg, if_true]; omega
      · simp only [Msg.setNum, hg, if_false]; exact h1
    · intro hg'
      by_cases hg : g = f
      · simp only [Msg.setNum, hg, if_true]; omega
      · simp only [Msg.setNum, hg, if_false]; exact h2 hg'
  · exact h

theorem sound_takeBytes {ok : Str → Bool} {sch : Schema} {m m' : Msg} (h : Sound ok sch m) {f : Nat} {s : Str}
    (ht : takeBytes ok sch f s m = some m') : Sound ok sch m' := by
  unfold takeBytes at ht
  split at ht
  · rename_i hk
    split at ht
    · rename_i hv
      simp only [Option.some.injEq] at ht
      subst ht
      intro g
      obtain ⟨h1, h2, h3, h4⟩ := h g
      refine ⟨h1, h2, ?_, h4⟩
      by_cases hg : g = f
      · simp only [Msg.setText, hg, if_true]; exact hv
      · simp only [Msg.setText, hg, if_false]; exact h3
    · simp at ht
  · rename_i hk
    split at ht
    · rename_i hv
      simp only [Option.some.injEq] at ht
      subst ht
      intro g
      obtain ⟨h1, h2, h3, h4, h5⟩ := h g
      refine ⟨h1, h2, h3, ?_, ?_⟩
      · intro hk' x hx
        by_cases hg : g = f
        · simp only [Msg.add, hg, if_true, List.mem_append, List.mem_singleton] at hx
          rcases hx with hx | rfl
          · exact h4 hk' x (by rw [hg]; exact hx)
          · exact hv
        · simp only [Msg.add, hg, if_false] at hx
          exact h4 hk' x hx
      · intro hk' x hx
        by_cases hg : g = f
        · subst hg; rw [hk] at hk'; simp at hk'
        · simp only [Msg.add, hg, if_false] at hx
          exact h5 hk' x hx
    · simp at ht
  · rename_i hk
    split at ht
    · rename_i hv
      simp only [Option.some.injEq] at ht
      subst ht
      intro g
      obtain ⟨h1, h2, h3, h4, h5⟩ := h g
      refine ⟨h1, h2, h3, ?_, ?_⟩
      · intro hk' x hx
        by_cases hg : g = f
        · subst hg; rw [hk] at hk'; simp at hk'
        · simp only [Msg.add, hg, if_false] at hx
          exact h4 hk' x hx
      · intro hk' x hx
        by_cases hg : g = f
        · simp only [Msg.add, hg, if_true, List.mem_append, List.mem_singleton] at hx
          rcases hx with hx | rfl
          · exact h5 hk' x (by rw [hg]; exact hx)
          · exact hv
        · simp only [Msg.add, hg, if_false] at hx
          exact h5 hk' x hx
    · simp at ht
  · simp only [Option.some.injEq] at ht
    subst ht
    exact h

theorem sound_decodeLoop {ok : Str → Bool} {sch : Schema} : ∀ (fuel : Nat) (s : Str) (m m' : Msg),
    (∀ b ∈ s, b < 256) → Sound ok sch m → decodeLoop ok sch fuel s m = some m' → Sound ok sch m' := by
  intro fuel
  induction fuel with
  | zero =>
    intro s m m' _ h hd
    cases s with
    | nil => simp only [decodeLoop, Option.some.injEq] at hd; subst hd; exact h
    | cons b bs => simp [decodeLoop] at hd
  | succ fuel ih =>
    intro s m m' hs h hd
    by_cases hne : s = []
    · subst hne
      simp only [decodeLoop, Option.some.injEq] at hd
      subst hd
      exact h
    · rw [decodeLoop_cons _ _ hne] at hd
      cases h1 : readVarint 10 s with
      | none => simp [h1] at hd
      | some p =>
        obtain ⟨tag, r⟩ := p
        simp only [h1] at hd
        obtain ⟨_, hr⟩ := readVarint_bound 9 s tag r hs h1
        split at hd
        · simp at hd
        · split at hd
          · cases h2 : readVarint 10 r with
            | none => simp [h2] at hd
            | some q =>
              obtain ⟨v, r'⟩ := q
              simp only [h2] at hd
              obtain ⟨hv, hr'⟩ := readVarint_bound 9 r v r' hr h2
              exact ih r' _ m' hr' (sound_takeNum h (by simpa using hv)) hd
          · split at hd
            · cases h2 : readVarint 10 r with
              | none => simp [h2] at hd
              | some q =>
                obtain ⟨n, r'⟩ := q
                simp only [h2] at hd
                obtain ⟨_, hr'⟩ := readVarint_bound 9 r n r' hr h2
                split at hd
                · simp at hd
                · cases h3 : takeBytes ok sch (tag / 8) (r'.take n) m with
                  | none => simp [h3] at hd
                  | some m1 =>
                    simp only [h3] at hd
                    exact ih _ _ m' (fun b hb => hr' b (List.mem_of_mem_drop hb)) (sound_takeBytes h h3) hd
            · split at hd
              · split at hd
                · simp at hd
                · exact ih _ _ m' (fun b hb => hr b (List.mem_of_mem_drop hb)) h hd
              · split at hd
                · split at hd
                  · simp at hd
                  · exact ih _ _ m' (fun b hb => hr b (List.mem_of_mem_drop hb)) h hd
                · simp at hd

/-- The texts of an event that was read, whatever its bytes. -/
theorem takeText_valid {ok : Str → Bool} {sch : Schema} : ∀ (fuel : Nat) (s : Str) (m m' : Msg),
    (∀ f, Valid (m.text f)) → decodeLoop ok sch fuel s m = some m' → ∀ f, Valid (m'.text f) := by
  intro fuel
  induction fuel with
  | zero =>
    intro s m m' h hd
    cases s with
    | nil => simp only [decodeLoop, Option.some.injEq] at hd; subst hd; exact h
    | cons b bs => simp [decodeLoop] at hd
  | succ fuel ih =>
    intro s m m' h hd
    by_cases hne : s = []
    · subst hne
      simp only [decodeLoop, Option.some.injEq] at hd
      subst hd
      exact h
    · rw [decodeLoop_cons _ _ hne] at hd
      cases h1 : readVarint 10 s with
      | none => simp [h1] at hd
      | some p =>
        obtain ⟨tag, r⟩ := p
        simp only [h1] at hd
        split at hd
        · simp at hd
        · split at hd
          · cases h2 : readVarint 10 r with
            | none => simp [h2] at hd
            | some q =>
              obtain ⟨v, r'⟩ := q
              simp only [h2] at hd
              refine ih r' _ m' ?_ hd
              unfold takeNum
              split <;> exact h
          · split at hd
            · cases h2 : readVarint 10 r with
              | none => simp [h2] at hd
              | some q =>
                obtain ⟨n, r'⟩ := q
                simp only [h2] at hd
                split at hd
                · simp at hd
                · cases h3 : takeBytes ok sch (tag / 8) (r'.take n) m with
                  | none => simp [h3] at hd
                  | some m1 =>
                    simp only [h3] at hd
                    refine ih _ _ m' ?_ hd
                    unfold takeBytes at h3
                    intro g
                    split at h3
                    · split at h3
                      · rename_i hv
                        simp only [Option.some.injEq] at h3
                        subst h3
                        by_cases hg : g = tag / 8
                        · simp only [Msg.setText, hg, if_true]; exact hv
                        · simp only [Msg.setText, hg, if_false]; exact h g
                      · simp at h3
                    · split at h3
                      · simp only [Option.some.injEq] at h3; subst h3; exact h g
                      · simp at h3
                    · split at h3
                      · simp only [Option.some.injEq] at h3; subst h3; exact h g
                      · simp at h3
                    · simp only [Option.some.injEq] at h3; subst h3; exact h g
            · split at hd
              · split at hd
                · simp at hd
                · exact ih _ _ m' h hd
              · split at hd
                · split at hd
                  · simp at hd
                  · exact ih _ _ m' h hd
                · simp at hd

theorem decodeEvent_utf8 {s : Str} {e : PbEvent} (h : decodeEvent s = some e) : e.Utf8 := by
  unfold decodeEvent decode at h
  cases hd : decodeLoop (fun _ => true) eventSchema s.length s .empty with
  | none => simp [hd] at h
  | some m =>
    simp only [hd, Option.map_some, Option.some.injEq] at h
    subst h
    have := takeText_valid _ _ _ _ (fun _ => valid_nil) hd
    exact ⟨this 1, this 2, this 3, this 4, this 5⟩

theorem decodeEvents_utf8 : ∀ (bs : List Str) (es : List PbEvent), decodeEvents bs = some es → ∀ e ∈ es, e.Utf8 := by
  intro bs
  induction bs with
  | nil => intro es h; simp only [decodeEvents, Option.some.injEq] at h; subst h; simp
  | cons b bs ih =>
    intro es h
    simp only [decodeEvents] at h
    cases h1 : decodeEvent b with
    | none => simp [h1] at h
    | some e =>
      cases h2 : decodeEvents bs with
      | none => simp [h1, h2] at h
      | some es' =>
        simp only [h1, h2, Option.map_some, Option.some.injEq] at h
        subst h
        intro x hx
        rcases List.mem_cons.mp hx with rfl | hx
        · exact decodeEvent_utf8 h1
        · exact ih es' h2 x hx

theorem unmarshal_sound {t : MType} {s : Str} (hs : ∀ b ∈ s, b < 256) {x : Message} (h : unmarshal t s = some x) :
    x.type = t ∧ x.Utf8 ∧ x.Typed := by
  unfold unmarshal decode at h
  cases hd : decodeLoop (fun b => (decodeEvent b).isSome) t.schema s.length s .empty with
  | none => simp [hd] at h
  | some m =>
    simp only [hd, Option.bind_some] at h
    have hm := sound_decodeLoop _ _ _ _ hs (sound_empty _ _) hd
    cases t <;> simp only [MType.ofMsg, Option.some.injEq, Option.map_eq_some_iff] at h
    case optimisticSaveRequest =>
      obtain ⟨es, h1, rfl⟩ := h
      exact ⟨rfl, ⟨(hm 2).2.2.1, decodeEvents_utf8 _ _ h1⟩, (hm 1).1⟩
    case saveRequest =>
      obtain ⟨es, h1, rfl⟩ := h
      exact ⟨rfl, ⟨(hm 1).2.2.1, decodeEvents_utf8 _ _ h1⟩, trivial⟩
    all_goals
      subst h
      refine ⟨rfl, ?_, ?_⟩
    all_goals first
      | trivial
      | exact (hm 1).1
      | exact (hm 2).1
      | exact (hm 1).2.2.1
      | exact (hm 2).2.2.1
      | exact (hm 1).2.2.2.1 rfl
      | exact (hm 1).2.1 rfl
      | exact ⟨(hm 1).2.1 rfl, (hm 2).1⟩
      | exact ⟨(hm 1).2.2.1, (hm 2).2.2.1, (hm 3).2.2.1, (hm 7).2.2.1, (hm 8).2.2.1, (hm 9).2.2.1, (hm 10).2.2.1⟩
      | exact ⟨(hm 4).1, (hm 5).1, (hm 6).1⟩

/-! ## Sizes -/

/-- The bytes of a text field. -/
def textSize (f : Nat) (s : Str) : Nat := if s = [] then 0 else (lengthField f s).length

/-- The bytes of a number field. -/
def numSize (f v : Nat) : Nat := if v = 0 then 0 else (varint (8 * f)).length + (varint v).length

theorem encodeField_text_length {m : Msg} {f : Nat} {b : Str} (h : encodeField m (f, .text) = some b) :
    b.length = textSize f (m.text f) := by
  simp only [encodeField] at h
  unfold textSize
  by_cases h0 : m.text f = []
  · rw [if_pos h0] at h ⊢
    simp only [Option.some.injEq] at h
    subst h
    rfl
  · rw [if_neg h0] at h ⊢
    split at h
    · simp only [Option.some.injEq] at h
      subst h
      rfl
    · simp at h

theorem encodeField_num_length {m : Msg} {f : Nat} {b : Str} (h : encodeField m (f, .num64) = some b) :
    b.length = numSize f (m.num f) := by
  simp only [encodeField, Option.some.injEq] at h
  unfold numSize
  by_cases h0 : m.num f = 0
  · rw [if_pos h0] at h ⊢
    subst h
    rfl
  · rw [if_neg h0] at h ⊢
    subst h
    simp

theorem encode_cons {m : Msg} {fk : Nat × Kind} {sch : Schema} {b : Str} (h : encode m (fk :: sch) = some b) :
    ∃ b1 b2, encodeField m fk = some b1 ∧ encode m sch = some b2 ∧ b = b1 ++ b2 := by
  simp only [encode] at h
  cases h1 : encodeField m fk with
  | none => simp [h1] at h
  | some b1 =>
    cases h2 : encode m sch with
    | none => simp [h1, h2] at h
    | some b2 =>
      simp only [h1, h2, Option.map_some, Option.some.injEq] at h
      exact ⟨b1, b2, rfl, rfl, h.symm⟩

theorem encodeEvent_length {e : PbEvent} {b : Str} (h : encodeEvent e = some b) :
    b.length = textSize 1 e.aggType + textSize 2 e.aggId + textSize 3 e.evType + textSize 4 e.data +
      textSize 5 e.metadata := by
  unfold encodeEvent eventSchema at h
  obtain ⟨b1, c1, h1, g1, rfl⟩ := encode_cons h
  obtain ⟨b2, c2, h2, g2, rfl⟩ := encode_cons g1
  obtain ⟨b3, c3, h3, g3, rfl⟩ := encode_cons g2
  obtain ⟨b4, c4, h4, g4, rfl⟩ := encode_cons g3
  obtain ⟨b5, c5, h5, g5, rfl⟩ := encode_cons g4
  simp only [encode, Option.some.injEq] at g5
  subst g5
  simp only [List.length_append, encodeField_text_length h1, encodeField_text_length h2, encodeField_text_length h3,
    encodeField_text_length h4, encodeField_text_length h5, PbEvent.msg, List.length_nil]
  omega

theorem record_length {r : Record} {b : Str} (h : marshal (.record r) = some b) :
    b.length = textSize 1 r.streamName + textSize 2 r.aggType + textSize 3 r.aggId + numSize 4 r.gsn +
      numSize 5 r.seq + numSize 6 r.ts + textSize 7 r.eventId + textSize 8 r.evType + textSize 9 r.data +
      textSize 10 r.metadata := by
  unfold marshal at h
  simp only [Message.msg, Option.bind_some, Message.type, MType.schema] at h
  obtain ⟨b1, c1, h1, g1, rfl⟩ := encode_cons h
  obtain ⟨b2, c2, h2, g2, rfl⟩ := encode_cons g1
  obtain ⟨b3, c3, h3, g3, rfl⟩ := encode_cons g2
  obtain ⟨b4, c4, h4, g4, rfl⟩ := encode_cons g3
  obtain ⟨b5, c5, h5, g5, rfl⟩ := encode_cons g4
  obtain ⟨b6, c6, h6, g6, rfl⟩ := encode_cons g5
  obtain ⟨b7, c7, h7, g7, rfl⟩ := encode_cons g6
  obtain ⟨b8, c8, h8, g8, rfl⟩ := encode_cons g7
  obtain ⟨b9, c9, h9, g9, rfl⟩ := encode_cons g8
  obtain ⟨b10, c10, h10, g10, rfl⟩ := encode_cons g9
  simp only [encode, Option.some.injEq] at g10
  subst g10
  simp only [List.length_append, encodeField_text_length h1, encodeField_text_length h2, encodeField_text_length h3,
    encodeField_num_length h4, encodeField_num_length h5, encodeField_num_length h6,
    encodeField_text_length h7, encodeField_text_length h8, encodeField_text_length h9, encodeField_text_length h10,
    List.length_nil]
  omega

theorem varintLoop_le (k n : Nat) : (varintLoop k n).length ≤ k := by
  induction k generalizing n with
  | zero => simp [varintLoop]
  | succ k ih =>
    unfold varintLoop
    split
    · simp
    · have := ih (n / 128)
      simp only [List.length_cons]
      omega

theorem varint_le (n : Nat) : (varint n).length ≤ 10 := varintLoop_le 10 n

theorem varint_small {n : Nat} (h : n < 128) : (varint n).length = 1 := by
  simp [varint, varintLoop, h]

/-- Fields with the numbers 1 to 15 have tags of one byte. -/
theorem textSize_eq {f g : Nat} (hf : f < 16) (hg : g < 16) (hf' : 8 * f + 2 < 128) (hg' : 8 * g + 2 < 128) (s : Str) :
    textSize f s = textSize g s := by
  unfold textSize lengthField
  simp only [List.length_append, varint_small hf', varint_small hg']

theorem textSize_le {f : Nat} (hf : 8 * f + 2 < 128) (s : Str) : textSize f s ≤ s.length + 11 := by
  unfold textSize lengthField
  have := varint_le s.length
  split
  · omega
  · simp only [List.length_append, varint_small hf]
    omega

theorem numSize_le {f : Nat} (hf : 8 * f < 128) (v : Nat) : numSize f v ≤ 11 := by
  unfold numSize
  have := varint_le v
  split
  · omega
  · rw [varint_small hf]
    omega

theorem encodeEvents_mem : ∀ {es : List PbEvent} {bs : List Str}, encodeEvents es = some bs → ∀ e ∈ es,
    ∃ b ∈ bs, encodeEvent e = some b := by
  intro es
  induction es with
  | nil => intro bs _ e he; simp at he
  | cons x es ih =>
    intro bs h e he
    simp only [encodeEvents] at h
    cases h1 : encodeEvent x with
    | none => simp [h1] at h
    | some b =>
      cases h2 : encodeEvents es with
      | none => simp [h1, h2] at h
      | some bs' =>
        simp only [h1, h2, Option.map_some, Option.some.injEq] at h
        subst h
        rcases List.mem_cons.mp he with rfl | he
        · exact ⟨b, by simp, h1⟩
        · obtain ⟨b', hb', h3⟩ := ih h2 e he
          exact ⟨b', by simp [hb'], h3⟩

theorem save_length {stream : Str} {es : List PbEvent} {b : Str} (h : marshal (.saveRequest stream es) = some b)
    {e : PbEvent} (he : e ∈ es) :
    ∃ eb, encodeEvent e = some eb ∧ textSize 1 stream + eb.length ≤ b.length := by
  unfold marshal at h
  simp only [Message.msg, Message.type, MType.schema] at h
  cases h1 : encodeEvents es with
  | none => simp [h1] at h
  | some bs =>
    simp only [h1, Option.map_some, Option.bind_some] at h
    obtain ⟨eb, hmem, h2⟩ := encodeEvents_mem h1 e he
    obtain ⟨b1, c1, h3, h4, rfl⟩ := encode_cons h
    obtain ⟨b2, c2, h5, h6, rfl⟩ := encode_cons h4
    simp only [encodeField, Option.some.injEq] at h5
    subst h5
    have h7 := flatMap_length (f := 2) hmem
    have h8 := encodeField_text_length h3
    simp only [Msg.empty] at h8
    refine ⟨eb, h2, ?_⟩
    simp only [List.length_append]
    omega

end RangeDB.Wire

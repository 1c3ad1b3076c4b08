import Verif.Model.Generators
import Verif.Thm.Constants
import Mathlib.Data.List.Nodup

/-!
# Properties of the generated aggregates and commands: C98 and C99
-/

namespace RangeDB.Agg

/-! ## The texts -/

example : keywords = ["break", "case", "chan", "const", "continue", "default", "defer", "else", "fallthrough",
    "for", "func", "go", "goto", "if", "import", "interface", "map", "package", "range", "return", "select",
    "struct", "switch", "type", "var"].map bytes := by decide
example : [kApply, kRaise, kLoad, kHandle, kCommandTypes, kReset, kPending] =
    ["apply", "raise", "Load", "Handle", "CommandTypes", "resetPendingEvents", "pendingEvents"].map bytes := by
  decide

/-! ## Specification -/

/-- An exported name in ASCII: a capital letter, then letters, digits and underscores. -/
def Exported (n : Str) : Prop :=
  ∃ c cs, n = c :: cs ∧ 65 ≤ c ∧ c ≤ 90 ∧ ∀ d ∈ cs, d < 128 ∧ (isLetter d || isDigit d) = true

/-- The name with a small first letter. -/
def small : Str → Str
  | [] => []
  | c :: cs => (c + 32) :: cs

/-- Names whose small form is a Go keyword or is used by the generated code itself. -/
def Taken (n : Str) : Prop := small n ∈ keywords ++ [kApply, kRaise, kReset, kPending]

instance (n : Str) : Decidable (Taken n) := inferInstanceAs (Decidable (_ ∈ _))

/-- The methods the user is expected to write: one for each type, named after it, taking it. -/
def expected (i : Input) : List Decl := (i.events ++ i.commands).map (fun t => ⟨small t, t⟩)

/-- The full claim of **C98**: for different exported names the aggregate compiles with the methods that the
user is expected to write, and an event is passed to its own method. -/
def C98_full (up : Str → Str) : Prop :=
  ∀ i : Input, (∀ n ∈ i.events ++ i.commands, Exported n) → (i.events ++ i.commands).Nodup →
    compiles up i (expected i) = true ∧
    ∀ (u : User Str) (v : Val) (s : St Str), v.ty ∈ i.events → ∃ depth,
      apply up i u depth v s = some (callUser u (small v.ty) v.deref s)

/-! ## Lemmas -/

theorem lc_exported (up : Str → Str) {n : Str} (h : Exported n) : lcFirst up n = small n := by
  obtain ⟨c, cs, rfl, h1, h2, _⟩ := h
  have hc : c < 128 := by omega
  simp [lcFirst, Gen.lcFirst, firstLen, hc, lowerRune, lowerAscii, h1, h2, small]

theorem sanitize_ascii (s : Str) (h : ∀ c ∈ s, c < 128) : Json.sanitize 0 s = s := by
  induction s with
  | nil => rfl
  | cons c s ih =>
    have hc := h c (by simp)
    simp only [Json.sanitize, hc, if_true]
    rw [ih (fun d hd => h d (by simp [hd]))]

theorem small_ident {n : Str} (h : Exported n) (hk : small n ∉ keywords) : isIdent (small n) = true := by
  obtain ⟨c, cs, rfl, h1, h2, h3⟩ := h
  have hv : Json.Valid (small (c :: cs)) := by
    apply sanitize_ascii
    intro d hd
    simp only [small, List.mem_cons] at hd
    rcases hd with rfl | hd
    · omega
    · exact (h3 d hd).1
  simp only [small] at hk hv ⊢
  simp only [isIdent, Bool.and_eq_true, decide_eq_true_eq, Bool.not_eq_true', List.all_eq_true]
  refine ⟨⟨⟨?_, fun d hd => (h3 d hd).2⟩, hv⟩, by simpa using hk⟩
  simp only [isLetter, Bool.or_eq_true, Bool.and_eq_true, decide_eq_true_eq]
  left; left; right; omega

theorem small_inj {a b : Str} (ha : Exported a) (hb : Exported b) (h : small a = small b) : a = b := by
  obtain ⟨c, cs, rfl, _⟩ := ha
  obtain ⟨d, ds, rfl, _⟩ := hb
  simp only [small, List.cons.injEq] at h
  obtain ⟨h1, h2⟩ := h
  have : c = d := by omega
  rw [this, h2]

theorem small_first {n : Str} (h : Exported n) : ∃ c cs, small n = c :: cs ∧ 97 ≤ c := by
  obtain ⟨c, cs, rfl, h1, _⟩ := h
  exact ⟨c + 32, cs, rfl, by omega⟩

/-! ## C98 -/

/-- **C98 (partial), it compiles.** For different exported names none of which is taken, the generated
aggregate compiles with one method of the user for each type, and different types have different methods.
Missing: the taken names (`C98_false`, `C98_rejected`, `C98_apply`, `C98_raise`). -/
theorem C98_partial (up : Str → Str) (i : Input) (hx : ∀ n ∈ i.events ++ i.commands, Exported n)
    (hnd : (i.events ++ i.commands).Nodup) (ht : ∀ n ∈ i.events ++ i.commands, ¬ Taken n) :
    compiles up i (expected i) = true ∧
    ∀ a ∈ i.events ++ i.commands, ∀ b ∈ i.events ++ i.commands, a ≠ b → lcFirst up a ≠ lcFirst up b := by
  have hnames : ((expected i).map (·.name)) = (i.events ++ i.commands).map small := by
    simp [expected, Function.comp_def]
  have hinj : ((i.events ++ i.commands).map small).Nodup := by
    exact List.Nodup.map_on (fun a ha b hb e => small_inj (hx a ha) (hx b hb) e) hnd
  have hk : ∀ n ∈ i.events ++ i.commands, small n ∉ keywords := by
    intro n hn hmem
    exact ht n hn (List.mem_append_left _ hmem)
  have hne : ∀ n ∈ i.events ++ i.commands, small n ≠ kApply ∧ small n ≠ kRaise ∧ small n ≠ kReset ∧
      small n ≠ kPending := by
    intro n hn
    have := ht n hn
    simp only [Taken, List.mem_append, List.mem_cons, List.not_mem_nil, or_false, not_or] at this
    exact this.2
  have hcall : ∀ (b : Bool) (n : Str), n ∈ i.events ++ i.commands → callOk up i (expected i) b n = true := by
    intro b n hn
    simp only [callOk, lc_exported up (hx n hn), small_ident (hx n hn) (hk n hn), Bool.true_and,
      Bool.or_eq_true]
    right
    simp only [List.contains_iff_mem, expected, List.mem_map]
    exact ⟨n, hn, rfl⟩
  refine ⟨?_, ?_⟩
  · simp only [compiles, Bool.and_eq_true, decide_eq_true_eq, List.all_eq_true, Bool.not_eq_true']
    refine ⟨⟨⟨⟨⟨⟨(List.nodup_append.mp hnd).1, (List.nodup_append.mp hnd).2.1⟩, ?_⟩, ?_⟩, ?_⟩, ?_⟩, ?_⟩
    · exact fun n hn => hcall true n (List.mem_append_left _ hn)
    · exact fun n hn => hcall false n (List.mem_append_right _ hn)
    · intro d hd
      simp only [expected, List.mem_map] at hd
      obtain ⟨n, hn, rfl⟩ := hd
      exact small_ident (hx n hn) (hk n hn)
    · rw [hnames, List.nodup_append]
      refine ⟨?_, hinj, ?_⟩
      · unfold Input.methods
        split <;> decide
      · rintro a ha b hb rfl
        simp only [List.mem_map] at hb
        obtain ⟨n, hn, rfl⟩ := hb
        obtain ⟨h1, h2, h3, h4⟩ := hne n hn
        obtain ⟨c, cs, hs, hc⟩ := small_first (hx n hn)
        have hup : ∀ d ds, d < 97 → small n ≠ d :: ds := by
          intro d ds hd e
          rw [hs] at e
          simp only [List.cons.injEq] at e
          omega
        have ha' : small n ∈ [kLoad, kHandle, kReset, kCommandTypes, kRaise, kApply] := by
          unfold Input.methods at ha
          split at ha
          · simp only [List.append_nil, List.mem_cons, List.not_mem_nil, or_false] at ha ⊢
            rcases ha with h | h | h | h | h <;> simp [h]
          · simpa using ha
        simp only [List.mem_cons, List.not_mem_nil, or_false] at ha'
        rcases ha' with h | h | h | h | h | h
        · exact hup _ _ (by decide) h
        · exact hup _ _ (by decide) h
        · exact h3 h
        · exact hup _ _ (by decide) h
        · exact h2 h
        · exact h1 h
    · rw [hnames]
      rw [← Bool.not_eq_true, List.contains_iff_mem, List.mem_map]
      rintro ⟨n, hn, e⟩
      exact (hne n hn).2.2.2 e
  · intro a ha b hb hab
    rw [lc_exported up (hx a ha), lc_exported up (hx b hb)]
    exact fun e => hab (small_inj (hx a ha) (hx b hb) e)

/-- The chat example's aggregate: the hypotheses are met. -/
example : compiles id ⟨[bytes "RoomWasOnBoarded", bytes "RoomWasJoined"], [bytes "OnBoardRoom", bytes "JoinRoom"]⟩
    [⟨bytes "roomWasOnBoarded", bytes "RoomWasOnBoarded"⟩, ⟨bytes "roomWasJoined", bytes "RoomWasJoined"⟩,
     ⟨bytes "onBoardRoom", bytes "OnBoardRoom"⟩, ⟨bytes "joinRoom", bytes "JoinRoom"⟩] = true := by decide

/-- **C98 (partial), dispatch.** In an aggregate whose event type `v.ty` is exported and not taken, `apply`
calls the user's method for that type once with the event, whether it is a value or a pointer, and no other
method of the user; events of types that are not listed are passed over. -/
theorem C98_apply_own {σ : Type} (up : Str → Str) (i : Input) (u : User σ) (v : Val) (s : St σ) (depth : Nat) :
    (v.ty ∈ i.events → Exported v.ty → ¬ Taken v.ty →
      apply up i u (depth + 1) v s = some (callUser u (small v.ty) v.deref s)) ∧
    (v.ty ∉ i.events → apply up i u (depth + 1) v s = some s) := by
  constructor
  · intro hm hx ht
    simp only [Taken, List.mem_append, List.mem_cons, List.not_mem_nil, or_false, not_or] at ht
    simp only [apply, List.contains_iff_mem, hm, if_true, lc_exported up hx, ht.2.1, ht.2.2.1, if_false]
  · intro hm
    simp [apply, hm]

/-- **C98 (partial), loading.** `Load` calls the user's method for each event of a listed type, in order and
once, and for nothing else. -/
theorem C98_load {σ : Type} (up : Str → Str) (i : Input) (u : User σ) (depth : Nat)
    (hx : ∀ n ∈ i.events, Exported n ∧ ¬ Taken n) (vs : List (Option Val)) : ∀ (s : St σ),
    ∃ s', load up i u (depth + 1) vs s = some s' ∧
      s'.calls = s.calls ++ ((vs.filterMap id).filter (fun v => i.events.contains v.ty)).map
        (fun v => (small v.ty, v.deref)) := by
  induction vs with
  | nil => intro s; exact ⟨s, rfl, by simp⟩
  | cons v vs ih =>
    intro s
    cases v with
    | none =>
      obtain ⟨s', h1, h2⟩ := ih s
      exact ⟨s', h1, by simpa using h2⟩
    | some v =>
      simp only [load]
      by_cases he : i.events = []
      · rw [if_pos he]
        obtain ⟨s', h1, h2⟩ := ih s
        refine ⟨s', h1, ?_⟩
        rw [h2]
        simp [he]
      · rw [if_neg he]
        by_cases hm : v.ty ∈ i.events
        · rw [(C98_apply_own up i u v s depth).1 hm (hx _ hm).1 (hx _ hm).2]
          obtain ⟨s', h1, h2⟩ := ih (callUser u (small v.ty) v.deref s)
          refine ⟨s', h1, ?_⟩
          rw [h2]
          simp [callUser, hm]
        · rw [(C98_apply_own up i u v s depth).2 hm]
          obtain ⟨s', h1, h2⟩ := ih s
          refine ⟨s', h1, ?_⟩
          rw [h2]
          simp [hm]

/-- **C98 (partial), handling.** `Handle` calls the user's method for a command of a listed type once, returns
what was pending and then what that method raised, and leaves nothing pending; a command of another type
calls nothing. -/
theorem C98_handle {σ : Type} (up : Str → Str) (i : Input) (u : User σ) (c : Val) (s : St σ) :
    (handle up i u c s).1.pending = [] ∧
    (c.ty ∈ i.commands → Exported c.ty →
      (handle up i u c s).2 = s.pending ++ (u (small c.ty) c.deref s.user).2 ∧
      (handle up i u c s).1.calls = s.calls ++ [(small c.ty, c.deref)] ∧
      (handle up i u c s).1.user = (u (small c.ty) c.deref s.user).1) ∧
    (c.ty ∉ i.commands → (handle up i u c s).2 = s.pending ∧ (handle up i u c s).1.calls = s.calls) := by
  refine ⟨rfl, ?_, ?_⟩
  · intro hm hx
    simp [handle, hm, lc_exported up hx, callUser]
  · intro hm
    simp [handle, hm]

/-- An event is loaded and a command handled. -/
example : (load id ⟨[bytes "RoomWasJoined"], [bytes "JoinRoom"]⟩
      (fun m v (n : Nat) => (n + 1, if m = bytes "joinRoom" then [⟨bytes "RoomWasJoined", false, v.payload⟩] else []))
      1 [none, some ⟨bytes "RoomWasJoined", true, [1]⟩, some ⟨bytes "Other", true, [2]⟩] ⟨0, [], []⟩).map
    (fun s => (s.user, (handle id ⟨[bytes "RoomWasJoined"], [bytes "JoinRoom"]⟩
      (fun m v (n : Nat) => (n + 1, if m = bytes "joinRoom" then [⟨bytes "RoomWasJoined", false, v.payload⟩] else []))
      ⟨bytes "JoinRoom", true, [7]⟩ s).2)) = some (1, [⟨bytes "RoomWasJoined", false, [7]⟩]) := by decide

/-- **C98, where it fails to compile.** Whatever methods the user writes, the aggregate does not compile if the
small form of a listed name is a keyword, `resetPendingEvents` or `pendingEvents`, or is shared by two
names (unless both are events called `apply` or `raise`). -/
theorem C98_rejected (up : Str → Str) (i : Input) (user : List Decl) (hc : compiles up i user = true) :
    (∀ n ∈ i.events ++ i.commands, isIdent (lcFirst up n) = true ∧ lcFirst up n ∉ keywords ∧
      lcFirst up n ≠ kReset ∧ lcFirst up n ≠ kPending) ∧
    (∀ a ∈ i.events ++ i.commands, ∀ b ∈ i.events ++ i.commands, a ≠ b → lcFirst up a = lcFirst up b →
      lcFirst up a = kApply ∨ lcFirst up a = kRaise) := by
  simp only [compiles, Bool.and_eq_true, decide_eq_true_eq, List.all_eq_true, Bool.not_eq_true'] at hc
  obtain ⟨⟨⟨⟨⟨⟨_, _⟩, h3⟩, h4⟩, _⟩, h6⟩, h7⟩ := hc
  rw [← Bool.not_eq_true, List.contains_iff_mem] at h7
  have hcall : ∀ n ∈ i.events ++ i.commands, isIdent (lcFirst up n) = true ∧
      (lcFirst up n = kApply ∨ lcFirst up n = kRaise ∨ (⟨lcFirst up n, n⟩ : Decl) ∈ user) := by
    intro n hn
    have : ∃ b, callOk up i user b n = true := by
      rcases List.mem_append.mp hn with hn | hn
      · exact ⟨_, h3 n hn⟩
      · exact ⟨_, h4 n hn⟩
    obtain ⟨b, hb⟩ := this
    simp only [callOk, Bool.and_eq_true, Bool.or_eq_true, beq_iff_eq, List.contains_iff_mem] at hb
    refine ⟨hb.1, ?_⟩
    rcases hb.2 with ⟨_, h | h⟩ | h
    · exact Or.inr (Or.inl h)
    · exact Or.inl h.1
    · exact Or.inr (Or.inr h)
  have hcases : ∀ n ∈ i.events ++ i.commands, lcFirst up n ≠ kApply → lcFirst up n ≠ kRaise →
      (⟨lcFirst up n, n⟩ : Decl) ∈ user := by
    intro n hn h1 h2
    rcases (hcall n hn).2 with h | h | h
    · exact absurd h h1
    · exact absurd h h2
    · exact h
  have hne1 : kReset ≠ kApply ∧ kReset ≠ kRaise := by decide
  have hne2 : kPending ≠ kApply ∧ kPending ≠ kRaise := by decide
  refine ⟨?_, ?_⟩
  · intro n hn
    refine ⟨(hcall n hn).1, ?_, ?_, ?_⟩
    · intro hk
      have := (hcall n hn).1
      cases hs : lcFirst up n with
      | nil => rw [hs] at this; simp [isIdent] at this
      | cons c cs =>
        rw [hs] at this hk
        simp only [isIdent, Bool.and_eq_true, Bool.not_eq_true'] at this
        rw [List.contains_iff_mem.mpr hk] at this
        exact absurd this.2 (by simp)
    · intro e
      have hm := hcases n hn (by rw [e]; exact hne1.1) (by rw [e]; exact hne1.2)
      rw [List.nodup_append] at h6
      refine h6.2.2 kReset (by simp [Input.methods]) kReset ?_ rfl
      rw [List.mem_map]
      exact ⟨_, hm, e⟩
    · intro e
      have hm := hcases n hn (by rw [e]; exact hne2.1) (by rw [e]; exact hne2.2)
      exact h7 (List.mem_map.mpr ⟨_, hm, e⟩)
  · intro a ha b hb hab e
    refine Classical.byContradiction fun hcon => ?_
    rw [not_or] at hcon
    have hma := hcases a ha hcon.1 hcon.2
    have hmb := hcases b hb (e ▸ hcon.1) (e ▸ hcon.2)
    rw [List.nodup_append] at h6
    have hinj := List.inj_on_of_nodup_map h6.2.1 hma hmb e
    simp only [Decl.mk.injEq] at hinj
    exact hab hinj.2

/-- A command called `Import` cannot be handled: no method of the user makes the aggregate compile. -/
theorem C98_keyword (up : Str → Str) (user : List Decl) :
    compiles up ⟨[bytes "RoomWasJoined"], [bytes "Import"]⟩ user = false := by
  rw [← Bool.not_eq_true]
  intro hc
  refine ((C98_rejected up _ user hc).1 (bytes "Import") (by simp)).2.1 ?_
  rw [lc_exported up ⟨73, [109, 112, 111, 114, 116], by decide, by decide, by decide, by decide⟩]
  decide

/-- **C98 is false in full**: the names `RoomWasJoined` and `Import` are exported and different. -/
theorem C98_false (up : Str → Str) : ¬ C98_full up := by
  intro h
  have := (h ⟨[bytes "RoomWasJoined"], [bytes "Import"]⟩ (by
    intro n hn
    simp only [List.cons_append, List.nil_append, List.mem_cons, List.not_mem_nil, or_false] at hn
    rcases hn with rfl | rfl
    · exact ⟨82, [111, 111, 109, 87, 97, 115, 74, 111, 105, 110, 101, 100], by decide, by decide, by decide, by decide⟩
    · exact ⟨73, [109, 112, 111, 114, 116], by decide, by decide, by decide, by decide⟩) (by decide)).1
  rw [C98_keyword] at this
  cases this

theorem lc_apply (up : Str → Str) : lcFirst up (bytes "Apply") = kApply := by
  rw [lc_exported up ⟨65, [112, 112, 108, 121], by decide, by decide, by decide, by decide⟩]
  decide

theorem lc_raise (up : Str → Str) : lcFirst up (bytes "Raise") = kRaise := by
  rw [lc_exported up ⟨82, [97, 105, 115, 101], by decide, by decide, by decide, by decide⟩]
  decide

/-- **C98, an event called `Apply`.** The aggregate compiles without a method for it, and loading such an
event never ends: `apply` calls itself, at whatever depth the stack ends. -/
theorem C98_apply {σ : Type} (up : Str → Str) (u : User σ) :
    compiles up ⟨[bytes "Apply"], []⟩ [] = true ∧
    ∀ (depth : Nat) (v : Val) (s : St σ), v.ty = bytes "Apply" →
      apply up ⟨[bytes "Apply"], []⟩ u depth v s = none := by
  refine ⟨?_, ?_⟩
  · simp only [compiles, List.all_cons, List.all_nil, Bool.and_true, callOk, lc_apply]
    decide
  · intro depth
    induction depth with
    | zero => intro v s _; rfl
    | succ d ih =>
      intro v s hv
      simp only [apply, hv, lc_apply]
      simp only [List.contains_cons, BEq.rfl, Bool.true_or, if_true]
      exact ih v.deref s hv

/-- **C98, an event called `Raise`.** The aggregate compiles without a method for it, and loading a stored event
raises it again: the next command of whatever type returns it, before its own events. -/
theorem C98_raise {σ : Type} (up : Str → Str) (u : User σ) :
    compiles up ⟨[bytes "Raise"], []⟩ [] = true ∧
    ∀ (v : Val) (s s' : St σ) (c : Val), v.ty = bytes "Raise" →
      load up ⟨[bytes "Raise"], []⟩ u 1 [some v] s = some s' →
      (handle up ⟨[bytes "Raise"], []⟩ u c s').2 = s.pending ++ [v.deref] := by
  refine ⟨?_, ?_⟩
  · simp only [compiles, List.all_cons, List.all_nil, Bool.and_true, callOk, lc_raise]
    decide
  · intro v s s' c hv hl
    have hne : kRaise ≠ kApply := by decide
    simp only [load, apply, hv, lc_raise, List.contains_cons, BEq.rfl, Bool.true_or, if_true, if_neg hne] at hl
    simp only [List.cons_ne_self, reduceCtorEq, if_false, Option.some.injEq] at hl
    subst hl
    simp [handle]

/-- Two names that differ in the case of their first letter: no method of the user serves both. -/
theorem C98_case (up : Str → Str) (user : List Decl) :
    compiles up ⟨[bytes "Joined", bytes "joined"], []⟩ user = false := by
  rw [← Bool.not_eq_true]
  intro hc
  have h1 : lcFirst up (bytes "Joined") = bytes "joined" := by
    rw [lc_exported up ⟨74, [111, 105, 110, 101, 100], by decide, by decide, by decide, by decide⟩]
    decide
  have h2 : lcFirst up (bytes "joined") = bytes "joined" := by
    have e : bytes "joined" = 106 :: [111, 105, 110, 101, 100] := by decide
    simp [e, lcFirst, Gen.lcFirst, firstLen, lowerRune, lowerAscii]
  have := (C98_rejected up _ user hc).2 (bytes "Joined") (by simp) (bytes "joined") (by simp) (by decide)
    (by rw [h1, h2])
  rw [h1] at this
  revert this
  decide

theorem sanitize_follow (b : Nat) (t : Str) (h1 : 128 ≤ b) (h2 : b ≤ 191) : Json.sanitize 0 (b :: t) ≠ b :: t := by
  have hr : Json.runeLen b t = some 0 := by
    have e1 : Json.btw 0xC2 0xDF b = false := by simp [Json.btw]; omega
    have e2 : Json.btw 0xE0 0xEF b = false := by simp [Json.btw]; omega
    have e3 : Json.btw 0xF0 0xF4 b = false := by simp [Json.btw]; omega
    simp [Json.runeLen, e1, e2, e3]
  have hb : ¬ b < 128 := by omega
  simp only [Json.sanitize, hb, if_false, hr]
  intro h
  simp only [Json.replacement, List.cons_append, List.cons.injEq] at h
  omega

theorem sanitize_copy : ∀ (r t : Str), Json.sanitize r.length (r ++ t) = r ++ Json.sanitize 0 t := by
  intro r
  induction r with
  | nil => intro t; rfl
  | cons b r ih => intro t; simp [Json.sanitize, ih]

/-- **C98, names that start with a longer rune.** If the first rune of a name takes more than one byte, and its
lower case is a rune too, then what the generator writes for the method is not valid UTF-8, so that the
aggregate does not compile, whatever the user writes. -/
theorem C98_unicode (up : Str → Str) (i : Input) (user : List Decl) (b b' : Nat) (t cs : Str) (k : Nat)
    (hn : b :: b' :: t ∈ i.events ++ i.commands) (hb : 128 ≤ b)
    (hlen : Json.runeLen b (b' :: t) = some (k + 2))
    (hup : up ((b :: b' :: t).take (k + 2)) = cs)
    (hcs : cs ≠ [] ∧ ∀ t', Json.sanitize 0 (cs ++ t') = cs ++ Json.sanitize 0 t') :
    compiles up i user = false := by
  rw [← Bool.not_eq_true]
  intro hc
  have hid := ((C98_rejected up i user hc).1 _ hn).1
  have hb8 : ¬ b < 128 := by omega
  have hlc : lcFirst up (b :: b' :: t) = cs ++ b' :: t := by
    simp only [lcFirst, Gen.lcFirst, firstLen, hb8, if_false, hlen]
    rw [show k + 1 + 1 = k + 2 from rfl]
    rw [← hup]
    simp [lowerRune]
  rw [hlc] at hid
  have hcont : 128 ≤ b' ∧ b' ≤ 191 := by
    simp only [Json.runeLen] at hlen
    repeat' split at hlen
    all_goals first
      | (cases hlen; done)
      | (simp_all [Json.btw]; done)
      | (simp only [Json.btw, Bool.and_eq_true, decide_eq_true_eq] at *; omega)
      | (simp only [Json.btw, Bool.and_eq_true, decide_eq_true_eq] at *; repeat' split at *; all_goals omega)
  have hv : Json.Valid (cs ++ b' :: t) := by
    obtain ⟨h1, _⟩ := hcs
    cases hs : cs with
    | nil => exact absurd hs h1
    | cons c cs' =>
      rw [hs] at hid
      simp only [List.cons_append, isIdent, Bool.and_eq_true, decide_eq_true_eq] at hid
      exact hid.1.2
  unfold Json.Valid at hv
  rw [hcs.2] at hv
  exact sanitize_follow b' t hcont.1 hcont.2 (List.append_cancel_left hv)

/-- `Äpfel`, whose lower case is `äpfel`: the hypotheses are met. -/
example (user : List Decl) : compiles (fun r => if r = [195, 132] then [195, 164] else r)
    ⟨[[195, 132, 112, 102, 101, 108]], []⟩ user = false :=
  C98_unicode _ _ user 195 132 [112, 102, 101, 108] [195, 164] 0 (by simp) (by decide) (by decide) (by decide)
    ⟨by simp, fun t' => by
      simp [Json.sanitize, Json.runeLen, Json.btw]⟩

/-! ## C99: the names that generated commands and events report -/

/-- The full claim of **C99**: the generated method returns the text that the generator was given. -/
def C99_full : Prop := ∀ text : Str, returned text = some text

/-- Text that stands for itself in a string literal: no quote, no backslash and no newline. -/
def Verbatim (text : Str) : Prop := ∀ c ∈ text, c ≠ 34 ∧ c ≠ 92 ∧ c ≠ 10

theorem literal_verbatim (text rest : Str) (h : Verbatim text) :
    literal (text ++ 34 :: rest) = some (text, rest) := by
  induction text with
  | nil => simp [literal]
  | cons c text ih =>
    obtain ⟨h1, h2, h3⟩ := h c (by simp)
    have ih' := ih (fun d hd => h d (by simp [hd]))
    simp only [List.cons_append]
    rw [literal.eq_def]
    split <;> simp_all

/-- **C99 (partial).** Text without quotes, backslashes and newlines is returned as it was given; in particular
every Go identifier, so that `CommandType` and `EventType` always return the name of the type. Missing: other
texts for the aggregate type (`C99_false`). -/
theorem C99_partial (text : Str) (h : Verbatim text) : returned text = some text := by
  simp only [returned]
  rw [show (text ++ [34, 32, 125] : Str) = text ++ 34 :: [32, 125] from rfl, literal_verbatim text _ h]
  simp

theorem ident_verbatim (name : Str) (h : isIdent name = true) : Verbatim name := by
  cases name with
  | nil => simp [isIdent] at h
  | cons c cs =>
    simp only [isIdent, Bool.and_eq_true, List.all_eq_true, Bool.or_eq_true] at h
    obtain ⟨⟨⟨h1, h2⟩, _⟩, _⟩ := h
    have hl : ∀ d, (isLetter d = true ∨ isDigit d = true) → d ≠ 34 ∧ d ≠ 92 ∧ d ≠ 10 := by
      intro d hd
      simp only [isLetter, isDigit, Bool.or_eq_true, Bool.and_eq_true, decide_eq_true_eq, beq_iff_eq] at hd
      omega
    intro d hd
    simp only [List.mem_cons] at hd
    rcases hd with rfl | hd
    · exact hl d (Or.inl h1)
    · exact hl d (h2 d hd)

/-- **C99, type names.** A type name is returned as it is. -/
theorem C99_name (name : Str) (h : isIdent name = true) : returned name = some name :=
  C99_partial name (ident_verbatim name h)

example : returned (bytes "chat room") = some (bytes "chat room") := by decide
example : isIdent (bytes "RoomWasOnBoarded") = true := by decide

/-- **C99 is false in full**: a backslash in the aggregate type is read as an escape, so that the events of the
aggregate are saved under another type; a quote ends the literal. -/
theorem C99_false : ¬ C99_full ∧ returned (bytes "a\\tb") = some [97, 9, 98] ∧ returned (bytes "\\x41") = some [65] ∧
    returned (bytes "a\"b") = none ∧ returned (bytes "a\nb") = none := by
  refine ⟨?_, by decide, by decide, by decide, by decide⟩
  intro h
  have := h (bytes "a\"b")
  revert this
  decide

end RangeDB.Agg

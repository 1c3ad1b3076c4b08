import Verif.Proof.Binder
import Verif.Thm.Constants

/-!
# C109: binding the events of a package
-/

namespace RangeDB.Evb

/-- The claim: the package compiles with the generated file, and after `BindEvents` every event declared in the files
is found by its event type. -/
def C109_full : Prop :=
  ∀ (p : Package) (open_ : Str → Source) (filesCSV : Str), p.Valid → Reads p open_ filesCSV →
    ∃ g, generate open_ filesCSV p.name = some g ∧ compiles p g = true ∧
      ∀ m d t, Declared open_ filesCSV d → d.inFunction = false → d.eventType = some t →
        lookup (bindEvents p g m) t = some (.named d.name)

/-- An event `A` and a helper `H`, a struct that is not an event. -/
def helperFile : File :=
  [⟨bytes "A", .struct, false, some (bytes "A")⟩, ⟨bytes "H", .struct, false, none⟩]

/-- The claim is false: with a struct in the file that is no event the generated file does not compile. -/
theorem C109_false : ¬ C109_full := by
  intro h
  obtain ⟨g, h1, h2, _⟩ := h ⟨bytes "p", [(bytes "f", helperFile)]⟩ (fun _ => .file helperFile) (bytes "f")
    (by unfold Package.Valid; decide) (by intro n hn; exact ⟨helperFile, by
      have : n = bytes "f" := by
        have e : Txt.split [44] (bytes "f") = [bytes "f"] := by decide
        rw [e] at hn
        simpa using hn
      simp [this], rfl⟩)
  have h3 : generate (fun _ => .file helperFile) (bytes "f") (bytes "p") =
      some (bytes "p", [bytes "A", bytes "H"]) := by decide
  rw [h3] at h1
  simp only [Option.some.injEq] at h1
  subst h1
  revert h2
  decide

/-- A struct inside a function does the same, -/
theorem C109_false_local :
    let f : File := [⟨bytes "A", .struct, false, some (bytes "A")⟩, ⟨bytes "local", .struct, true, none⟩]
    (generate (fun _ => .file f) (bytes "f") (bytes "p")).map (compiles ⟨bytes "p", [(bytes "f", f)]⟩) =
      some false := by decide

/-- an event declared as `type B A` compiles and is not bound, -/
theorem C109_false_unbound :
    let f : File := [⟨bytes "A", .struct, false, some (bytes "A")⟩, ⟨bytes "B", .literal, false, some (bytes "B")⟩]
    let p : Package := ⟨bytes "p", [(bytes "f", f)]⟩
    (generate (fun _ => .file f) (bytes "f") (bytes "p")).map
      (fun g => (compiles p g, lookup (bindEvents p g []) (bytes "B"))) = some (true, none) := by decide

/-- and of two events with the same event type the first is read back as the second. -/
theorem C109_false_same :
    let f : File := [⟨bytes "A", .struct, false, some (bytes "X")⟩, ⟨bytes "B", .struct, false, some (bytes "X")⟩]
    let p : Package := ⟨bytes "p", [(bytes "f", f)]⟩
    (generate (fun _ => .file f) (bytes "f") (bytes "p")).map
      (fun g => (compiles p g, lookup (bindEvents p g []) (bytes "X"))) = some (true, some (.named (bytes "B"))) := by
  decide

/-- Without the flag the generator fails: there is no file with an empty name. -/
theorem C109_no_files (open_ : Str → Source) (pkg : Str) (h : open_ [] = .missing) :
    generate open_ [] pkg = none := by
  have e : Txt.split [44] [] = [[]] := by decide
  simp [generate, e, collect, h]

/-! ### Binding -/

/-- The last event bound under a type is the one that is found; types that were not bound keep what they had. -/
theorem C109_last (m : Identifier) (es : List Bound) (t : Str) :
    lookup (bind m es) t =
      match es.reverse.find? (fun e => e.eventType = t) with
      | some e => some (getType e.ty)
      | none => lookup m t := by
  induction h : es.reverse generalizing es with
  | nil =>
    have : es = [] := by simpa using h
    subst this
    rfl
  | cons e rs ih =>
    have h1 : es = rs.reverse ++ [e] := by
      have := congrArg List.reverse h
      simpa using this
    subst h1
    rw [bind_append, lookup_bind_one]
    by_cases ht : e.eventType = t
    · simp [ht, List.find?_cons]
    · simp only [ht, if_false, List.find?_cons, decide_false]
      exact ih rs.reverse (by simp)

/-- Binding a value and binding a pointer to it is the same. -/
theorem C109_pointer (m : Identifier) (n t : Str) :
    bind m [⟨.named n, t⟩] = bind m [⟨.ptr (.named n), t⟩] := rfl

/-- When the event types of the bound events differ, each is found, in whatever order they are bound. -/
theorem C109_each (m : Identifier) (es : List Bound) (h : (es.map (·.eventType)).Nodup) (e : Bound) (he : e ∈ es) :
    lookup (bind m es) e.eventType = some (getType e.ty) := by
  rw [C109_last]
  have huniq : ∀ x ∈ es, x.eventType = e.eventType → x = e := by
    clear m
    induction es with
    | nil => simp at he
    | cons a as ih =>
      simp only [List.map_cons, List.nodup_cons, List.mem_map, not_exists, not_and] at h
      intro x hx hxe
      rcases List.mem_cons.mp he with rfl | he'
      · rcases List.mem_cons.mp hx with rfl | hx'
        · rfl
        · exact absurd hxe (h.1 x hx')
      · rcases List.mem_cons.mp hx with rfl | hx'
        · exact absurd hxe.symm (h.1 e he')
        · exact ih h.2 he' x hx' hxe
  cases hf : es.reverse.find? (fun x => decide (x.eventType = e.eventType)) with
  | none =>
    rw [List.find?_eq_none] at hf
    exact absurd (by simp) (hf e (by simpa using he))
  | some x =>
    have h1 := List.mem_of_find?_eq_some hf
    have h2 := List.find?_some hf
    simp only [decide_eq_true_eq] at h2
    rw [huniq x (by simpa using h1) h2]

/-! ### The generated function -/

/-- The generator succeeds exactly when all the files named can be read, and then writes the names of the structs
declared in them, inside functions too. -/
theorem C109_generated (open_ : Str → Source) (filesCSV pkg : Str) :
    ((generate open_ filesCSV pkg).isSome ↔ ∀ n ∈ Txt.split [44] filesCSV, ∃ f, open_ n = .file f) ∧
    ∀ g, generate open_ filesCSV pkg = some g →
      g.1 = pkg ∧ ∀ n, n ∈ g.2 ↔ ∃ d, Declared open_ filesCSV d ∧ d.shape = .struct ∧ d.name = n := by
  unfold generate Declared
  generalize Txt.split [44] filesCSV = ns
  induction ns with
  | nil =>
    refine ⟨by simp [collect], ?_⟩
    intro g hg
    simp only [collect, Option.map_some, Option.some.injEq] at hg
    subst hg
    simp
  | cons k ns ih =>
    obtain ⟨ih1, ih2⟩ := ih
    cases hk : open_ k with
    | missing =>
      refine ⟨by simp [collect, hk], ?_⟩
      intro g hg
      simp [collect, hk] at hg
    | garbled =>
      refine ⟨by simp [collect, hk], ?_⟩
      intro g hg
      simp [collect, hk] at hg
    | file f =>
      refine ⟨?_, ?_⟩
      · simp only [Option.isSome_map] at ih1
        simp [collect, hk, ih1]
      · intro g hg
        simp only [collect, hk] at hg
        cases hc : collect open_ ns with
        | none => simp [hc] at hg
        | some rest =>
          simp only [hc, Option.map_some, Option.some.injEq] at hg ih2
          subst hg
          obtain ⟨_, ih3⟩ := ih2 _ rfl
          refine ⟨rfl, fun n => ?_⟩
          simp only [List.mem_append, ih3]
          constructor
          · rintro (h | ⟨d, ⟨k', hk', f', hf', hd⟩, h1, h2⟩)
            · simp only [structNames, List.mem_map, List.mem_filter, decide_eq_true_eq] at h
              obtain ⟨d, ⟨hd, hs⟩, hn⟩ := h
              exact ⟨d, ⟨k, by simp, f, hk, hd⟩, hs, hn⟩
            · exact ⟨d, ⟨k', by simp [hk'], f', hf', hd⟩, h1, h2⟩
          · rintro ⟨d, ⟨k', hk', f', hf', hd⟩, h1, h2⟩
            rcases List.mem_cons.mp hk' with rfl | hk''
            · rw [hk] at hf'
              simp only [Source.file.injEq] at hf'
              subst hf'
              left
              simp only [structNames, List.mem_map, List.mem_filter, decide_eq_true_eq]
              exact ⟨d, ⟨hd, h1⟩, h2⟩
            · exact Or.inr ⟨d, ⟨k', hk'', f', hf', hd⟩, h1, h2⟩

/-- The package compiles with the generated file exactly when each struct in the files, also one inside a function,
has the name of a type at the top of the package that is an event. -/
theorem C109_compiles (p : Package) (open_ : Str → Source) (filesCSV : Str) (g : Str × List Str)
    (hg : generate open_ filesCSV p.name = some g) :
    compiles p g = true ↔ ∀ d, Declared open_ filesCSV d → d.shape = .struct →
      ∃ e, p.type d.name = some e ∧ e.shape ≠ .other ∧ ∃ t, e.eventType = some t := by
  obtain ⟨h1, h2⟩ := (C109_generated open_ filesCSV p.name).2 g hg
  unfold compiles
  simp only [h1, decide_true, Bool.true_and, List.all_eq_true]
  constructor
  · intro h d hd hs
    have := h d.name ((h2 d.name).mpr ⟨d, hd, hs, rfl⟩)
    cases hp : p.type d.name with
    | none => simp [hp] at this
    | some e =>
      simp only [hp, Bool.and_eq_true, decide_eq_true_eq, Option.isSome_iff_exists] at this
      exact ⟨e, rfl, this.1, this.2⟩
  · intro h n hn
    obtain ⟨d, hd, hs, rfl⟩ := (h2 n).mp hn
    obtain ⟨e, h3, h4, t, h5⟩ := h d hd hs
    simp [h3, h4, h5]

/-- What holds: if each struct in the files is an event at the top of the package, and no two of these events have the
same event type, then the package compiles and each of these events is found after `BindEvents`, while other
event types keep the binding they had. Missing from the full claim: files with other structs, events that are
not written as structs, and events that share an event type. -/
theorem C109_partial (p : Package) (open_ : Str → Source) (filesCSV : Str) (hv : p.Valid)
    (hr : Reads p open_ filesCSV)
    (hev : ∀ d, Declared open_ filesCSV d → d.shape = .struct → d.inFunction = false ∧ ∃ t, d.eventType = some t)
    (hdiff : ∀ d e t, Declared open_ filesCSV d → Declared open_ filesCSV e → d.shape = .struct →
      e.shape = .struct → d.eventType = some t → e.eventType = some t → d.name = e.name) :
    ∃ g, generate open_ filesCSV p.name = some g ∧ compiles p g = true ∧
      (∀ m d t, Declared open_ filesCSV d → d.shape = .struct → d.eventType = some t →
        lookup (bindEvents p g m) t = some (.named d.name)) ∧
      ∀ m t, (∀ d, Declared open_ filesCSV d → d.shape = .struct → d.eventType ≠ some t) →
        lookup (bindEvents p g m) t = lookup m t := by
  have hsome : (generate open_ filesCSV p.name).isSome :=
    (C109_generated open_ filesCSV p.name).1.mpr (fun n hn => (hr n hn).imp fun _ h => h.2)
  obtain ⟨g, hg⟩ := Option.isSome_iff_exists.mp hsome
  obtain ⟨h1, h2⟩ := (C109_generated open_ filesCSV p.name).2 g hg
  have htop : ∀ d, Declared open_ filesCSV d → d.shape = .struct → p.type d.name = some d := by
    intro d hd hs
    apply type_of_top hv
    obtain ⟨n, hn, f, hf, hdf⟩ := hd
    obtain ⟨f', hf', ho⟩ := hr n hn
    rw [hf] at ho
    simp only [Source.file.injEq] at ho
    subst ho
    simp only [Package.top, List.mem_filter, List.mem_flatMap, Bool.not_eq_true']
    exact ⟨⟨_, hf', hdf⟩, (hev d ⟨n, hn, f, hf, hdf⟩ hs).1⟩
  have hargs : ∀ b, b ∈ arguments p g.2 ↔ ∃ d, Declared open_ filesCSV d ∧ d.shape = .struct ∧
      d.eventType = some b.eventType ∧ b.ty = .ptr (.named d.name) := by
    intro b
    rw [arguments_mem]
    constructor
    · rintro ⟨n, hn, d, hp, ht, hb⟩
      obtain ⟨d', hd', hs', rfl⟩ := (h2 n).mp hn
      rw [htop d' hd' hs'] at hp
      simp only [Option.some.injEq] at hp
      subst hp
      exact ⟨d', hd', hs', ht, hb⟩
    · rintro ⟨d, hd, hs, ht, hb⟩
      exact ⟨d.name, (h2 _).mpr ⟨d, hd, hs, rfl⟩, d, htop d hd hs, ht, hb⟩
  refine ⟨g, hg, ?_, ?_, ?_⟩
  · rw [C109_compiles p open_ filesCSV g hg]
    intro d hd hs
    exact ⟨d, htop d hd hs, by simp [hs], (hev d hd hs).2⟩
  · intro m d t hd hs ht
    have hb : (⟨.ptr (.named d.name), t⟩ : Bound) ∈ arguments p g.2 := (hargs _).mpr ⟨d, hd, hs, ht, rfl⟩
    unfold bindEvents
    rw [C109_last]
    cases hf : (arguments p g.2).reverse.find? (fun x => decide (x.eventType = t)) with
    | none =>
      rw [List.find?_eq_none] at hf
      exact absurd (by simp) (hf _ (List.mem_reverse.mpr hb))
    | some b =>
      have h3 := List.mem_of_find?_eq_some hf
      have h4 := List.find?_some hf
      simp only [decide_eq_true_eq] at h4
      obtain ⟨e, he, hs', ht', hty⟩ := (hargs b).mp (by simpa using h3)
      rw [h4] at ht'
      simp [hty, getType, hdiff d e t hd he hs hs' ht ht']
  · intro m t h
    unfold bindEvents
    rw [C109_last]
    cases hf : (arguments p g.2).reverse.find? (fun x => decide (x.eventType = t)) with
    | none => rfl
    | some b =>
      have h3 := List.mem_of_find?_eq_some hf
      have h4 := List.find?_some hf
      simp only [decide_eq_true_eq] at h4
      obtain ⟨d, hd, hs, ht, _⟩ := (hargs b).mp (by simpa using h3)
      exact absurd (by rw [ht, h4]) (h d hd hs)

/-- Two files, as in the chat example; a type between the events that is not a struct does no harm. -/
def roomFile : File :=
  [⟨bytes "RoomWasOnBoarded", .struct, false, some (bytes "RoomWasOnBoarded")⟩,
   ⟨bytes "kind", .other, false, none⟩,
   ⟨bytes "MessageWasSent", .struct, false, some (bytes "MessageWasSent")⟩]

def userFile : File := [⟨bytes "UserWasOnBoarded", .struct, false, some (bytes "UserWasOnBoarded")⟩]

def chatFiles (n : Str) : Source :=
  if n = bytes "room.go" then .file roomFile else if n = bytes "user.go" then .file userFile else .missing

def chatPackage : Package := ⟨bytes "chat", [(bytes "room.go", roomFile), (bytes "user.go", userFile)]⟩

example : generate chatFiles (bytes "room.go,user.go") (bytes "chat") =
    some (bytes "chat", [bytes "RoomWasOnBoarded", bytes "MessageWasSent", bytes "UserWasOnBoarded"]) := by
  decide +kernel

/-- The hypotheses of `C109_partial` hold for it. -/
example : ∃ g, generate chatFiles (bytes "room.go,user.go") chatPackage.name = some g ∧
    compiles chatPackage g = true := by
  have hs : Txt.split [44] (bytes "room.go,user.go") = [bytes "room.go", bytes "user.go"] := by decide +kernel
  have hd : ∀ d, Declared chatFiles (bytes "room.go,user.go") d → d ∈ roomFile ++ userFile := by
    rintro d ⟨n, hn, f, hf, hdf⟩
    rw [hs] at hn
    rcases List.mem_cons.mp hn with rfl | hn
    · have : f = roomFile := by
        have e : chatFiles (bytes "room.go") = .file roomFile := by decide +kernel
        rw [e] at hf
        simpa using hf.symm
      subst this
      exact List.mem_append_left _ hdf
    · have hn : n = bytes "user.go" := by simpa using hn
      subst hn
      have : f = userFile := by
        have e : chatFiles (bytes "user.go") = .file userFile := by decide +kernel
        rw [e] at hf
        simpa using hf.symm
      subst this
      exact List.mem_append_right _ hdf
  have h1 : ∀ d ∈ roomFile ++ userFile, d.shape = .struct → d.inFunction = false ∧ ∃ t, d.eventType = some t := by
    have : ∀ d ∈ roomFile ++ userFile, d.shape = .struct → d.inFunction = false ∧ d.eventType.isSome := by
      decide +kernel
    intro d h h'
    exact ⟨(this d h h').1, Option.isSome_iff_exists.mp (this d h h').2⟩
  have h2 : ∀ d ∈ roomFile ++ userFile, ∀ e ∈ roomFile ++ userFile, d.shape = .struct → e.shape = .struct →
      d.eventType = e.eventType → d.name = e.name := by decide +kernel
  obtain ⟨g, h3, h4, _⟩ := C109_partial chatPackage chatFiles (bytes "room.go,user.go")
    (by unfold Package.Valid; decide +kernel)
    (by
      intro n hn
      rw [hs] at hn
      rcases List.mem_cons.mp hn with rfl | hn
      · exact ⟨roomFile, by decide +kernel, by decide +kernel⟩
      · have hn : n = bytes "user.go" := by simpa using hn
        subst hn
        exact ⟨userFile, by decide +kernel, by decide +kernel⟩)
    (fun d hd' hsh => h1 d (hd d hd') hsh)
    (fun d e t h3 h4 h5 h6 h7 h8 => h2 d (hd d h3) e (hd e h4) h5 h6 (h7.trans h8.symm))
  exact ⟨g, h3, h4⟩

end RangeDB.Evb

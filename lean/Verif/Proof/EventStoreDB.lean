import Verif.Model.EventStoreDB
import Verif.Spec.EventStoreDB

/-! # Helper lemmas for the EventStoreDB adapter -/

namespace RangeDB.EDB

theorem streamName_inj (c : Config) {a b : Str} : c.streamName a = c.streamName b ↔ a = b := by
  simp [Config.streamName]

/-- How often a name occurs. -/
def count (es : List Entry) (name : Str) : Nat := (es.filter (fun e => e.name = name)).length

theorem count_append (a b : List Entry) (n : Str) : count (a ++ b) n = count a n + count b n := by
  simp [count]

theorem count_nil (n : Str) : count [] n = 0 := rfl

theorem count_single (e : Entry) (n : Str) : count [e] n = if e.name = n then 1 else 0 := by
  unfold count
  by_cases h : e.name = n <;> simp [h]

/-- One stored event is the given entry, with the given number. -/
def One (C : Codec) (c : Config) (k : Nat) (e : Entry) (s : Stored) : Prop :=
  s.streamId = c.streamName e.name ∧ s.number = k ∧ s.commit = e.position ∧
    s.eventType = e.event.event.evType ∧ C.enc e.name e.event = some s.payload

/-- The server's log is the list of entries, numbered per stream. -/
def Matches (C : Codec) (c : Config) : List Entry → List Entry → List Stored → Prop
  | _, [], [] => True
  | b, e :: es, s :: ss => One C c (count b e.name) e s ∧ Matches C c (b ++ [e]) es ss
  | _, _, _ => False

theorem Matches.append {C : Codec} {c : Config} : ∀ {b E F L M},
    Matches C c b E L → Matches C c (b ++ E) F M → Matches C c b (E ++ F) (L ++ M)
  | b, [], F, [], M, _, h2 => by simpa using h2
  | b, e :: E, F, l :: L, M, h1, h2 => by
    refine ⟨h1.1, Matches.append h1.2 ?_⟩
    simpa using h2
  | _, [], _, _ :: _, _, h, _ => h.elim
  | _, _ :: _, _, [], _, h, _ => h.elim

/-- The entries of one stream, as the server has them. -/
def Stream (C : Codec) (c : Config) : Nat → List Entry → List Stored → Prop
  | _, [], [] => True
  | k, e :: es, s :: ss => One C c k e s ∧ Stream C c (k + 1) es ss
  | _, _, _ => False

theorem Matches.stream {C : Codec} {c : Config} (name : Str) : ∀ {b E L}, Matches C c b E L →
    Stream C c (count b name) (E.filter (fun e => e.name = name))
      (L.filter (fun s => s.streamId = c.streamName name))
  | _, [], [], _ => trivial
  | b, e :: E, l :: L, h => by
    have ih := Matches.stream name h.2
    rw [count_append, count_single] at ih
    by_cases hn : e.name = name
    · have : l.streamId = c.streamName name := by rw [h.1.1, hn]
      rw [if_pos hn] at ih
      rw [List.filter_cons_of_pos (by simpa using hn), List.filter_cons_of_pos (by simpa using this)]
      exact ⟨hn ▸ h.1, ih⟩
    · have : ¬ l.streamId = c.streamName name := by rw [h.1.1, streamName_inj]; exact hn
      rw [if_neg hn] at ih
      rw [List.filter_cons_of_neg (by simpa using hn), List.filter_cons_of_neg (by simpa using this)]
      exact ih
  | _, [], _ :: _, h => h.elim
  | _, _ :: _, [], h => h.elim

theorem Stream.length {C : Codec} {c : Config} : ∀ {k E L}, Stream C c k E L → E.length = L.length
  | _, [], [], _ => rfl
  | _, _ :: _, _ :: _, h => by simp [Stream.length h.2]
  | _, [], _ :: _, h => h.elim
  | _, _ :: _, [], h => h.elim

/-- The server and the account agree. -/
structure Rel (C : Codec) (c : Config) (A : Account) (s : Server) : Prop where
  log : Matches C c [] A.entries s.log
  dead : s.tombstoned = A.dead.map c.streamName

theorem Rel.init (C : Codec) (c : Config) : Rel C c .empty .init := ⟨trivial, rfl⟩

theorem Rel.stream {C : Codec} {c : Config} {A : Account} {s : Server} (h : Rel C c A s) (name : Str) :
    Stream C c 0 (A.stream name) (s.stream (c.streamName name)) := h.log.stream name

theorem Rel.len {C : Codec} {c : Config} {A : Account} {s : Server} (h : Rel C c A s) (name : Str) :
    (s.stream (c.streamName name)).length = A.len name := (h.stream name).length.symm

theorem Rel.dead_iff {C : Codec} {c : Config} {A : Account} {s : Server} (h : Rel C c A s) (name : Str) :
    c.streamName name ∈ s.tombstoned ↔ name ∈ A.dead := by
  rw [h.dead, List.mem_map]
  constructor
  · rintro ⟨a, ha, hb⟩; exact ((streamName_inj c).mp hb) ▸ ha
  · intro h; exact ⟨name, h, rfl⟩

/-! ## Saving -/

theorem propose_matches {C : Codec} {c : Config} {name : Str} : ∀ {ers t i es} (b : List Entry)
    (pos : Nat → Nat), propose C name t i ers = .ok es →
    Matches C c b (batch name ers pos) (number (c.streamName name) (count b name) es pos)
  | [], t, i, es, b, pos, h => by
    cases h; trivial
  | er :: ers, t, i, es, b, pos, h => by
    simp only [propose] at h
    split at h
    · cases h
    · split at h
      · cases h
      · cases he : C.enc name er with
        | none => rw [he] at h; cases h
        | some p =>
          rw [he] at h
          cases hp : propose C name er.event.aggType er.event.aggId ers with
          | error x => simp only [hp] at h; cases h
          | ok es' =>
            simp only [hp] at h
            cases h
            refine ⟨⟨rfl, rfl, rfl, rfl, he⟩, ?_⟩
            have := propose_matches (b ++ [⟨name, er, pos 0⟩]) (fun i => pos (i + 1)) hp (c := c)
            rw [count_append, count_single, if_pos rfl] at this
            exact this

theorem propose_length {C : Codec} {name : Str} : ∀ {ers t i es}, propose C name t i ers = .ok es →
    es.length = ers.length
  | [], _, _, _, h => by cases h; rfl
  | er :: ers, t, i, es, h => by
    simp only [propose] at h
    split at h
    · cases h
    · split at h
      · cases h
      · cases he : C.enc name er with
        | none => rw [he] at h; cases h
        | some p =>
          rw [he] at h
          cases hp : propose C name er.event.aggType er.event.aggId ers with
          | error x => simp only [hp] at h; cases h
          | ok es' =>
            simp only [hp] at h
            cases h
            simp [propose_length hp]

theorem batch_length (name : Str) : ∀ (ers : List EventRecord) (pos : Nat → Nat),
    (batch name ers pos).length = ers.length
  | [], _ => rfl
  | _ :: ers, pos => by simp [batch, batch_length name ers]

theorem batch_name {name : Str} : ∀ {ers : List EventRecord} {pos : Nat → Nat} {e : Entry},
    e ∈ batch name ers pos → e.name = name ∧ e.event ∈ ers
  | er :: ers, pos, e, h => by
    rcases List.mem_cons.mp h with rfl | h
    · exact ⟨rfl, List.mem_cons_self⟩
    · have := batch_name h
      exact ⟨this.1, List.mem_cons_of_mem _ this.2⟩

/-- What a demanded revision allows. -/
theorem append_cases {C : Codec} {c : Config} {A : Account} {s : Server} (h : Rel C c A s) {name : Str}
    {ers : List EventRecord} {t i : Str} {es : List (Str × Str × Str)} (hp : propose C name t i ers = .ok es)
    (rev : Option Nat) (pos : Nat → Nat) :
    (s.append (c.streamName name) rev es pos = .error .streamDeleted ∧ name ∈ A.dead) ∨
    (s.append (c.streamName name) rev es pos = .error .wrongRevision ∧ name ∉ A.dead ∧
      ∃ r, rev = some r ∧ A.len name ≠ r + 1) ∨
    (∃ s', s.append (c.streamName name) rev es pos = .ok (s', A.len name + ers.length - 1) ∧
      name ∉ A.dead ∧ (∀ r, rev = some r → A.len name = r + 1) ∧ Rel C c (A.add name ers pos) s') := by
  by_cases hd : name ∈ A.dead
  · left
    exact ⟨by unfold Server.append; rw [if_pos ((h.dead_iff name).mpr hd)], hd⟩
  · right
    have hd' : ¬ c.streamName name ∈ s.tombstoned := fun x => hd ((h.dead_iff name).mp x)
    have hm : ∀ k, k = A.len name → Rel C c (A.add name ers pos)
        { s with log := s.log ++ number (c.streamName name) k es pos } := by
      intro k hk
      refine ⟨h.log.append ?_, h.dead⟩
      have := propose_matches (c := c) ([] ++ A.entries) pos hp
      rw [show count ([] ++ A.entries) name = k by rw [hk]; rfl] at this
      exact this
    cases rev with
    | none =>
      right
      refine ⟨{ s with log := s.log ++ number (c.streamName name) (A.len name) es pos }, ?_, hd,
        by simp, hm _ rfl⟩
      unfold Server.append
      rw [if_neg hd', h.len, propose_length hp]
    | some r =>
      by_cases hr : A.len name = r + 1
      · right
        refine ⟨{ s with log := s.log ++ number (c.streamName name) (r + 1) es pos }, ?_, hd, ?_,
          hm _ hr.symm⟩
        · unfold Server.append
          rw [if_neg hd']
          simp only [h.len, if_pos hr, propose_length hp, hr]
          rw [if_pos trivial, show r + 1 + ers.length - 1 = r + ers.length by omega]
        · intro r' hr'; cases hr'; exact hr
      · left
        refine ⟨?_, hd, r, rfl, hr⟩
        unfold Server.append
        rw [if_neg hd']
        simp only [h.len, if_neg hr]

/-! ## Deleting -/

theorem tombstone_cases {C : Codec} {c : Config} {A : Account} {s : Server} (h : Rel C c A s) (name : Str)
    (r : Nat) :
    (s.tombstone (c.streamName name) r = .error .streamDeleted ∧ name ∈ A.dead) ∨
    (s.tombstone (c.streamName name) r = .error .wrongRevision ∧ name ∉ A.dead ∧ A.len name ≠ r + 1) ∨
    (∃ s', s.tombstone (c.streamName name) r = .ok s' ∧ name ∉ A.dead ∧ A.len name = r + 1 ∧
      Rel C c (A.kill name) s') := by
  unfold Server.tombstone
  by_cases hd : name ∈ A.dead
  · left; exact ⟨by rw [if_pos ((h.dead_iff name).mpr hd)], hd⟩
  · right
    rw [if_neg (fun x => hd ((h.dead_iff name).mp x)), h.len]
    by_cases hr : A.len name = r + 1
    · right
      rw [if_pos hr]
      exact ⟨_, rfl, hd, hr, h.log, by simp [Account.kill, h.dead]⟩
    · left
      rw [if_neg hr]
      exact ⟨rfl, hd, hr⟩

/-! ## Reading -/

theorem internal_plain {s : Stored} : internal s = false ↔ s.eventType.head? ≠ some 36 := by
  unfold internal
  cases s.eventType with
  | nil => simp
  | cons a l =>
    rw [List.isPrefixOf]
    by_cases h : a = 36
    · subst h; simp
    · have : (36 == a) = false := by simpa using fun x : 36 = a => h x.symm
      rw [this]
      simp [h]

theorem One.internal {C : Codec} {c : Config} {k : Nat} {e : Entry} {s : Stored} (h : One C c k e s)
    (hp : e.event.event.evType.head? ≠ some 36) : internal s = false := by
  rw [internal_plain, h.2.2.2.1]; exact hp

theorem One.current {C : Codec} {c : Config} {k : Nat} {e : Entry} {s : Stored} (h : One C c k e s) :
    c.current s = true := by
  unfold Config.current
  rw [h.1]
  simp [Config.streamName]

theorem One.fromLinked {C : Codec} (hC : C.Lawful) {c : Config} {k : Nat} {e : Entry} {s : Stored}
    (h : One C c k e s) (b : Bool) : fromLinked C b s =
      some (mkRecord e.name (if b then e.position else 0) (k + 1) (C.view e.event)) := by
  unfold EDB.fromLinked
  rw [hC.roundTrip _ _ _ h.2.2.2.2, h.2.1, h.2.2.1]
  rfl

/-- The global sequence number that reads of one stream show. -/
def Config.gsn (c : Config) (position : Nat) : Nat := if c.streamCommits then position else 0

theorem recordsFrom_seq_ge (view : EventRecord → EventRecord) (g : Nat → Nat) : ∀ (k : Nat) (es : List Entry),
    ∀ r ∈ recordsFrom view g k es, k ≤ r.seq
  | _, [], r, h => by cases h
  | k, e :: es, r, h => by
    rcases List.mem_cons.mp h with rfl | h
    · exact Nat.le_refl k
    · exact Nat.le_trans (Nat.le_succ k) (recordsFrom_seq_ge view g (k + 1) es r h)

theorem streamLoop_stream {C : Codec} (hC : C.Lawful) {c : Config} {name : Str} (n : Nat) :
    ∀ {k E L}, Stream C c k E L → (∀ e ∈ E, e.name = name ∧ e.event.event.evType.head? ≠ some 36) →
    streamLoop C c n name (L.filter (fun s => s.number ≥ zeroBased n)) =
      ⟨(recordsFrom C.view c.gsn (k + 1) E).filter (fun r => r.seq ≥ n), none⟩
  | _, [], [], _, _ => rfl
  | k, e :: E, l :: L, h, hE => by
    have ih := streamLoop_stream hC n h.2 (fun x hx => hE x (List.mem_cons_of_mem _ hx))
    have he := hE e List.mem_cons_self
    by_cases hk : l.number ≥ zeroBased n
    · rw [List.filter_cons_of_pos (by simpa using hk)]
      rw [streamLoop, if_neg (by rw [h.1.internal he.2]; exact Bool.false_ne_true),
        if_neg (by simp [h.1.current]), h.1.fromLinked hC]
      simp only
      have hseq : ¬ ((k + 1) < n) := by
        rw [h.1.2.1] at hk
        unfold zeroBased at hk
        split at hk <;> omega
      rw [if_neg (by simp [mkRecord, he.1]), if_neg (by simpa [mkRecord] using hseq), ih, recordsFrom,
        List.filter_cons_of_pos (by simp [mkRecord]; omega)]
      rfl
    · rw [List.filter_cons_of_neg (by simpa using hk), ih, recordsFrom, List.filter_cons_of_neg]
      rw [h.1.2.1] at hk
      unfold zeroBased at hk
      simp only [mkRecord]
      split at hk <;> simp <;> omega
  | _, [], _ :: _, h, _ => h.elim
  | _, _ :: _, [], h, _ => h.elim

/-- An account whose event types are plain. -/
def Account.Plain (A : Account) : Prop := ∀ e ∈ A.entries, e.event.event.evType.head? ≠ some 36

/-- How `EventsByStream` answers: nothing to return means not found. -/
def answer (rs : List Record) : Iter := if rs = [] then ⟨[], some .notFound⟩ else ⟨rs, none⟩

theorem filter_recs_of_stream {A : Account} (hA : A.Plain) (name : Str) :
    ∀ e ∈ A.stream name, e.name = name ∧ e.event.event.evType.head? ≠ some 36 := by
  intro e he
  have := List.mem_filter.mp he
  exact ⟨by simpa using this.2, hA e this.1⟩

theorem eventsByStream_account {C : Codec} (hC : C.Lawful) {c : Config} {A : Account} {s : Server}
    (h : Rel C c A s) (hA : A.Plain) (n : Nat) (name : Str) :
    eventsByStream C c s n name =
      answer ((A.records C.view c.gsn name).filter (fun r => r.seq ≥ n)) := by
  unfold eventsByStream Server.readStream Account.records
  by_cases hd : name ∈ A.dead
  · rw [if_pos ((h.dead_iff name).mpr hd), if_pos hd]
    rfl
  · rw [if_neg (fun x => hd ((h.dead_iff name).mp x)), if_neg hd]
    have hs := h.stream name
    by_cases he : s.stream (c.streamName name) = []
    · rw [if_pos he]
      have : A.stream name = [] := List.length_eq_zero_iff.mp (by rw [hs.length, he]; rfl)
      rw [this]
      rfl
    · rw [if_neg he]
      simp only
      rw [streamLoop_stream hC n hs (filter_recs_of_stream hA name)]
      unfold answer
      simp only [and_true, Nat.zero_add]

theorem records_seq (view : EventRecord → EventRecord) (g : Nat → Nat) : ∀ (k : Nat) (es : List Entry),
    (recordsFrom view g k es).map (·.seq) = List.range' k es.length
  | _, [] => rfl
  | k, e :: es => by
    rw [List.length_cons, List.range'_succ, ← records_seq view g (k + 1) es]
    rfl

theorem recordsFrom_length (view : EventRecord → EventRecord) (g : Nat → Nat) : ∀ (k : Nat) (es : List Entry),
    (recordsFrom view g k es).length = es.length
  | _, [] => rfl
  | k, e :: es => by simp [recordsFrom, recordsFrom_length view g (k + 1) es]

theorem recordsFrom_append (view : EventRecord → EventRecord) (g : Nat → Nat) : ∀ (k : Nat)
    (es fs : List Entry), recordsFrom view g k (es ++ fs) =
      recordsFrom view g k es ++ recordsFrom view g (k + es.length) fs
  | _, [], _ => rfl
  | k, e :: es, fs => by
    simp only [List.cons_append, recordsFrom, recordsFrom_append view g (k + 1) es fs, List.length_cons]
    rw [Nat.add_assoc, Nat.add_comm 1]

theorem getSeq_account {C : Codec} (hC : C.Lawful) {c : Config} {A : Account} {s : Server}
    (h : Rel C c A s) (hA : A.Plain) (name : Str) :
    getStreamSequenceNumber C c s name =
      if name ∈ A.dead ∨ A.len name = 0 then .error .notFound else .ok (A.len name) := by
  unfold getStreamSequenceNumber
  rw [eventsByStream_account hC h hA]
  have hf : ∀ l : List Record, l.filter (fun r => decide (r.seq ≥ 0)) = l := by
    intro l; simp
  rw [hf]
  unfold Account.records answer
  by_cases hd : name ∈ A.dead
  · simp [hd]
  · rw [if_neg hd]
    cases hs : A.stream name with
    | nil => simp [recordsFrom, Account.len, hs]
    | cons e es =>
      have hl : A.len name = es.length + 1 := by simp [Account.len, hs]
      rw [if_neg (by simp [recordsFrom]), if_neg (by simp [hd, hl])]
      simp only
      congr 1
      rw [← List.getLast?_map, records_seq, hl, List.length_cons, List.range'_concat]
      simp; omega

/-! ## Histories -/

/-- The events an operation mentions. -/
def EOp.events : EOp → List EventRecord
  | .save _ _ _ _ ers _ => ers
  | .append _ _ _ er ers _ => er :: ers
  | .delete .. => []
  | .restart _ => []

theorem Account.Plain.add {A : Account} (hA : A.Plain) {name : Str} {ers : List EventRecord}
    (h : EDB.Plain ers) (pos : Nat → Nat) : (A.add name ers pos).Plain := by
  intro e he
  rcases List.mem_append.mp he with he | he
  · exact hA e he
  · exact h _ (batch_name he).2

theorem appendEvents_cases {C : Codec} {c : Config} {A : Account} {s : Server} (h : Rel C c A s) {name : Str}
    {ers : List EventRecord} {t i : Str} {es : List (Str × Str × Str)} (hp : propose C name t i ers = .ok es)
    (net : Net) (expected : Option Nat) (pos : Nat → Nat) :
    ((appendEvents c s net expected name es pos).1 = s ∧
      ∃ e, (appendEvents c s net expected name es pos).2 = .err e) ∨
    (name ∉ A.dead ∧ (∀ k, expected = some k → k ≥ 1 → A.len name = k) ∧
      Rel C c (A.add name ers pos) (appendEvents c s net expected name es pos).1 ∧
      ((net = .ok ∧ (appendEvents c s net expected name es pos).2 = .ok (A.len name + ers.length - 1 + 1)) ∨
        (net = .lostReply ∧ (appendEvents c s net expected name es pos).2 = .err .db))) := by
  have hrev : ∀ r k, revision expected = some r → expected = some k → k = r + 1 := by
    intro r k hr hk
    subst hk
    simp only [revision] at hr
    split at hr
    · simp only [Option.some.injEq] at hr
      unfold zeroBased at hr
      split at hr <;> omega
    · cases hr
  have hrev' : (∀ r, revision expected = some r → A.len name = r + 1) →
      ∀ k, expected = some k → k ≥ 1 → A.len name = k := by
    intro hall k hk hk1
    subst hk
    have := hall (zeroBased k) (by simp only [revision]; rw [if_pos (by omega)])
    rw [this]
    unfold zeroBased
    split <;> omega
  rcases append_cases h hp (revision expected) pos with ⟨he, hd⟩ | ⟨he, hd, r, hr, hl⟩ | ⟨s', he, hd, hl, hR⟩
  · left
    unfold appendEvents
    rw [he]
    cases net <;> exact ⟨rfl, _, rfl⟩
  · left
    unfold appendEvents
    rw [he]
    cases expected with
    | none => cases hr
    | some k => cases net <;> exact ⟨rfl, _, rfl⟩
  · unfold appendEvents
    rw [he]
    cases net with
    | lostRequest => left; exact ⟨rfl, _, rfl⟩
    | lostReply => right; exact ⟨hd, hrev' hl, hR, .inr ⟨rfl, rfl⟩⟩
    | ok => right; exact ⟨hd, hrev' hl, hR, .inl ⟨rfl, rfl⟩⟩

/-- What a save does to the server: nothing, or the batch is added to a live stream. -/
theorem saveEvents_cases {C : Codec} {c : Config} {A : Account} (s : Server) (readFails : Bool)
    {between : Server → Server} (h : Rel C c A (between s)) (net : Net) (expected : Option Nat) (name : Str)
    (ers : List EventRecord) (pos : Nat → Nat) :
    ((saveEvents C c s readFails between net expected name ers pos).1 = between s ∧
      ∃ e, (saveEvents C c s readFails between net expected name ers pos).2 = .err e) ∨
    (name ∉ A.dead ∧ ers ≠ [] ∧ checkExpected C c s readFails expected name = none ∧
      (∀ k, expected = some k → k ≥ 1 → A.len name = k) ∧
      Rel C c (A.add name ers pos) (saveEvents C c s readFails between net expected name ers pos).1 ∧
      ((net = .ok ∧ (saveEvents C c s readFails between net expected name ers pos).2 =
          .ok (A.len name + ers.length)) ∨
        (net = .lostReply ∧ (saveEvents C c s readFails between net expected name ers pos).2 =
          .err .db))) := by
  cases ers with
  | nil => left; exact ⟨rfl, _, rfl⟩
  | cons er ers =>
    simp only [saveEvents]
    cases hc : checkExpected C c s readFails expected name with
    | some e => left; exact ⟨rfl, _, rfl⟩
    | none =>
      cases hp : propose C name er.event.aggType er.event.aggId (er :: ers) with
      | error e => left; exact ⟨rfl, _, rfl⟩
      | ok es =>
        simp only
        rcases appendEvents_cases h hp net expected pos with h1 | ⟨h1, h2, h3, h4⟩
        · exact .inl h1
        · right
          refine ⟨h1, by simp, trivial, h2, h3, ?_⟩
          rwa [show A.len name + (er :: ers).length - 1 + 1 = A.len name + (er :: ers).length by
            simp only [List.length_cons]; omega] at h4

theorem step_rel {C : Codec} {c : Config} {A : Account} {w : World} (h : Rel C c A w.server)
    (hA : A.Plain) (op : EOp) (hp : EDB.Plain op.events) :
    ∃ A', Rel C c A' (w.step C c op).server ∧ A'.Plain ∧ (∀ n ∈ A.dead, n ∈ A'.dead) := by
  cases op with
  | save expected rf net name ers pos =>
    rcases saveEvents_cases (between := id) w.server rf h net expected name ers pos with
      ⟨h1, _⟩ | ⟨_, _, _, _, h1, _⟩
    · exact ⟨A, by simp only [World.step]; rw [h1]; exact h, hA, fun _ h => h⟩
    · exact ⟨_, h1, hA.add hp pos, fun _ h => h⟩
  | append expected net name er ers pos =>
    simp only [World.step]
    cases hpr : propose C name er.event.aggType er.event.aggId (er :: ers) with
    | error e => exact ⟨A, h, hA, fun _ h => h⟩
    | ok es =>
      rcases appendEvents_cases h hpr net expected pos with ⟨h1, _⟩ | ⟨_, _, h1, _⟩
      · exact ⟨A, by simp only [h1]; exact h, hA, fun _ h => h⟩
      · exact ⟨_, h1, hA.add hp pos, fun _ h => h⟩
  | delete a k name =>
    simp only [World.step, deleteStream]
    rcases tombstone_cases h name (zeroBased k) with ⟨h1, _⟩ | ⟨h1, _⟩ | ⟨s', h1, _, _, h2⟩
    · rw [h1]; exact ⟨A, h, hA, fun _ h => h⟩
    · rw [h1]
      simp only
      cases getStreamSequenceNumber C c w.server name <;> exact ⟨A, h, hA, fun _ h => h⟩
    · rw [h1]; exact ⟨_, h2, hA, fun _ h => List.mem_cons_of_mem _ h⟩
  | restart a => exact ⟨A, h, hA, fun _ h => h⟩

theorem foldl_rel {C : Codec} {c : Config} : ∀ (ops : List EOp) {A : Account} {w : World},
    Rel C c A w.server → A.Plain → (∀ op ∈ ops, EDB.Plain op.events) →
    ∃ A', Rel C c A' (ops.foldl (World.step C c) w).server ∧ A'.Plain ∧ (∀ n ∈ A.dead, n ∈ A'.dead)
  | [], A, w, h, hA, _ => ⟨A, h, hA, fun _ h => h⟩
  | op :: ops, A, w, h, hA, hp => by
    obtain ⟨A', h', hA', hd⟩ := step_rel h hA op (hp op List.mem_cons_self)
    obtain ⟨A'', h'', hA'', hd'⟩ := foldl_rel ops h' hA' (fun o ho => hp o (List.mem_cons_of_mem _ ho))
    exact ⟨A'', h'', hA'', fun n hn => hd' n (hd n hn)⟩

theorem run_rel {C : Codec} {c : Config} (ops : List EOp) (hp : ∀ op ∈ ops, EDB.Plain op.events) :
    ∃ A, Rel C c A (World.run C c ops).server ∧ A.Plain := by
  obtain ⟨A, h, hA, _⟩ := foldl_rel (C := C) (c := c) ops (w := World.init) (Rel.init C c)
    (fun _ h => by cases h) hp
  exact ⟨A, h, hA⟩

end RangeDB.EDB

import Verif.Proof.EventStoreDB
import Verif.Base.Demo

/-!
# The EventStoreDB adapter: C43, C74, C75, C76, C112
-/

namespace RangeDB.EDB

open RangeDB.Demo

/-! ## Concrete runs -/

/-- An example codec: length-prefixed fields. -/
def demoCodec : Codec where
  enc n er := (ser (mkRecord n 0 0 er)).map (fun b => (b, []))
  dec b := (deser b.1).map (fun r => (r.streamName, ⟨⟨r.aggType, r.aggId, r.evType, r.data⟩, r.metadata,
    r.eventId, r.ts⟩))
  view := id

theorem demoCodec_lawful : demoCodec.Lawful where
  roundTrip n er b h := by
    obtain ⟨b', h', rfl⟩ := Option.map_eq_some_iff.mp h
    have := demo_lawful.roundTrip (mkRecord n 0 0 er) b' h'
    simp only [demoCodec]
    rw [show deser b' = some (mkRecord n 0 0 er) from this]
    rfl
  aggType _ := rfl

/-- The configuration of the shipped server (cmd/rangedb/main.go:176-178): no options. -/
def shipped : Config := ⟨[], false, true⟩

/-- With a prefix "p-" and `RecordDeletedStreams`. -/
def recording : Config := ⟨[112, 45], true, true⟩

/-- A plain save of one event. -/
def save1 (name : Str) (er : EventRecord) (p : Nat) : EOp := .save none false .ok name [er] (fun i => p + i)

/-- A history with two streams, an optimistic save and a delete. -/
def demoOps : List EOp :=
  [save1 sA (evA [1]) 10, save1 sB (evB [2]) 20,
   .save (some 1) false .ok sA [evA [3], evA [4]] (fun i => 30 + i), .save none false .lostReply sB [evB [5]] (fun _ => 40),
   .delete 0 2 sB, save1 sB (evB [6]) 50]

theorem demoOps_plain : ∀ op ∈ demoOps, Plain op.events := by
  simp only [demoOps, save1, Plain]
  decide

/-! ## C43: stream sequence numbers -/

/-- What `EventsByStream(0, name)` returns. -/
def readAllOf (C : Codec) (c : Config) (s : Server) (name : Str) : List Record :=
  (eventsByStream C c s 0 name).recs

theorem filter_ge_zero (l : List Record) : l.filter (fun r => decide (r.seq ≥ 0)) = l := by simp

theorem readAllOf_account {C : Codec} (hC : C.Lawful) {c : Config} {A : Account} {s : Server}
    (h : Rel C c A s) (hA : A.Plain) (name : Str) :
    readAllOf C c s name = A.records C.view c.gsn name := by
  unfold readAllOf
  rw [eventsByStream_account hC h hA, filter_ge_zero]
  unfold answer
  split
  · rename_i h; rw [h]
  · rfl

/-- **C43**, reads: after every history of saves (checked and appended at any time, with failing reads, lost
requests and lost replies), deletes and restarts of event types not starting with `$`, the events of a stream
are numbered 1, 2, 3, …, and `EventsByStream(n, name)` returns exactly those with number `n` or more — with
`ErrStreamNotFound` if there are none. -/
theorem C43_reads (C : Codec) (hC : C.Lawful) (c : Config) (ops : List EOp)
    (hp : ∀ op ∈ ops, Plain op.events) (name : Str) :
    (readAllOf C c (World.run C c ops).server name).map (·.seq) =
        List.range' 1 (readAllOf C c (World.run C c ops).server name).length ∧
      ∀ n, eventsByStream C c (World.run C c ops).server n name =
        answer ((readAllOf C c (World.run C c ops).server name).filter (fun r => r.seq ≥ n)) := by
  obtain ⟨A, h, hA⟩ := run_rel (C := C) (c := c) ops hp
  rw [readAllOf_account hC h hA]
  constructor
  · unfold Account.records
    split
    · rfl
    · rw [records_seq, recordsFrom_length]
  · intro n
    exact eventsByStream_account hC h hA n name

example : (readAllOf demoCodec recording (World.run demoCodec recording demoOps).server sA).map (·.seq) = [1, 2, 3] ∧
    (eventsByStream demoCodec recording (World.run demoCodec recording demoOps).server 3 sA).recs.length = 1 := by
  decide +kernel

theorem stream_add_same (A : Account) (name : Str) (ers : List EventRecord) (pos : Nat → Nat) :
    (A.add name ers pos).stream name = A.stream name ++ batch name ers pos := by
  unfold Account.stream Account.add
  simp only [List.filter_append]
  congr 1
  rw [List.filter_eq_self]
  intro e he
  simpa using (batch_name he).1

theorem stream_add_other (A : Account) {name other : Str} (h : other ≠ name) (ers : List EventRecord)
    (pos : Nat → Nat) : (A.add name ers pos).stream other = A.stream other := by
  unfold Account.stream Account.add
  simp only [List.filter_append]
  have : (batch name ers pos).filter (fun e => decide (e.name = other)) = [] := by
    rw [List.filter_eq_nil_iff]
    intro e he
    have := (batch_name he).1
    simp [this, Ne.symm h]
  rw [this, List.append_nil]

theorem records_length {A : Account} {name : Str} (h : name ∉ A.dead) (view : EventRecord → EventRecord)
    (g : Nat → Nat) : (A.records view g name).length = A.len name := by
  unfold Account.records
  rw [if_neg h, recordsFrom_length]
  rfl

/-- **C43**, saves: the check of a save sees the server after `ops₁`, its append arrives after `ops₁ ++ ops₂`. If the
save is acknowledged with `m`, then at the moment of the append the stream held exactly the expected number of
events (for an expected number of 1 or more), afterwards it holds these events followed by the batch, numbered on,
`m` is the number of its last event, and no other stream changed. -/
theorem C43_save (C : Codec) (hC : C.Lawful) (c : Config) (ops₁ ops₂ : List EOp)
    (hp : ∀ op ∈ ops₁ ++ ops₂, Plain op.events) (readFails : Bool) (net : Net) (expected : Option Nat)
    (name : Str) (ers : List EventRecord) (hers : Plain ers) (positions : Nat → Nat)
    (s₁ s₂ s₃ : Server) (_ : s₁ = (World.run C c ops₁).server) (hs₂ : s₂ = (World.run C c (ops₁ ++ ops₂)).server)
    (m : Nat) (hsave : saveEvents C c s₁ readFails (fun _ => s₂) net expected name ers positions = (s₃, .ok m)) :
    (∀ k, expected = some k → k ≥ 1 → (readAllOf C c s₂ name).length = k) ∧
      readAllOf C c s₃ name = readAllOf C c s₂ name ++
        recordsFrom C.view c.gsn ((readAllOf C c s₂ name).length + 1) (batch name ers positions) ∧
      m = (readAllOf C c s₂ name).length + ers.length ∧
      m = (readAllOf C c s₃ name).length ∧
      ∀ other, other ≠ name → readAllOf C c s₃ other = readAllOf C c s₂ other := by
  obtain ⟨A, h, hA⟩ := run_rel (C := C) (c := c) (ops₁ ++ ops₂) hp
  rw [← hs₂] at h
  rcases saveEvents_cases (between := fun _ => s₂) s₁ readFails h net expected name ers positions with
    ⟨_, e, he⟩ | ⟨hd, _, _, hk, h3, h4⟩
  · rw [hsave] at he; cases he
  · rw [hsave] at h3 h4
    have hm : m = A.len name + ers.length := by
      rcases h4 with ⟨_, h4⟩ | ⟨_, h4⟩ <;> cases h4
      rfl
    have hA' : (A.add name ers positions).Plain := hA.add hers positions
    have hd' : name ∉ (A.add name ers positions).dead := hd
    have e2 : ∀ x, readAllOf C c s₂ x = A.records C.view c.gsn x := fun x => readAllOf_account hC h hA x
    have e3 : ∀ x, readAllOf C c s₃ x = (A.add name ers positions).records C.view c.gsn x :=
      fun x => readAllOf_account hC h3 hA' x
    rw [e2, e3, records_length hd, records_length hd']
    have hl : (A.add name ers positions).len name = A.len name + ers.length := by
      unfold Account.len
      rw [stream_add_same, List.length_append, batch_length]
    refine ⟨hk, ?_, hm, hm.trans hl.symm, ?_⟩
    · unfold Account.records
      rw [if_neg hd, if_neg hd', stream_add_same, recordsFrom_append, Nat.add_comm 1]
      rfl
    · intro other ho
      rw [e2, e3]
      unfold Account.records
      rw [stream_add_other A ho]
      rfl

example : ∃ s₃, saveEvents demoCodec recording (World.run demoCodec recording demoOps).server false
    (fun _ => (World.run demoCodec recording (demoOps ++ [save1 (sA ++ sA) (evA [9]) 60])).server) .ok (some 3) sA
    [evA [7]] (fun _ => 70) = (s₃, .ok 4) := ⟨_, rfl⟩

/-- **C43**, a save that returns an error persists nothing, unless the reply of the server was lost; then it persisted
the whole batch or nothing. -/
theorem C43_save_error (C : Codec) (hC : C.Lawful) (c : Config) (ops₁ ops₂ : List EOp)
    (hp : ∀ op ∈ ops₁ ++ ops₂, Plain op.events) (readFails : Bool) (net : Net) (expected : Option Nat)
    (name : Str) (ers : List EventRecord) (hers : Plain ers) (positions : Nat → Nat)
    (s₁ s₂ s₃ : Server) (_ : s₁ = (World.run C c ops₁).server) (hs₂ : s₂ = (World.run C c (ops₁ ++ ops₂)).server)
    (hsave : (saveEvents C c s₁ readFails (fun _ => s₂) net expected name ers positions).1 = s₃)
    (herr : ∀ m, (saveEvents C c s₁ readFails (fun _ => s₂) net expected name ers positions).2 ≠ .ok m) :
    s₃ = s₂ ∨ (net = .lostReply ∧ readAllOf C c s₃ name = readAllOf C c s₂ name ++
        recordsFrom C.view c.gsn ((readAllOf C c s₂ name).length + 1) (batch name ers positions) ∧
      ∀ other, other ≠ name → readAllOf C c s₃ other = readAllOf C c s₂ other) := by
  obtain ⟨A, h, hA⟩ := run_rel (C := C) (c := c) (ops₁ ++ ops₂) hp
  rw [← hs₂] at h
  rcases saveEvents_cases (between := fun _ => s₂) s₁ readFails h net expected name ers positions with
    ⟨h1, _⟩ | ⟨hd, _, _, hk, h3, h4⟩
  · left; rw [← hsave, h1]
  · right
    rw [hsave] at h3
    have hA' : (A.add name ers positions).Plain := hA.add hers positions
    have hd' : name ∉ (A.add name ers positions).dead := hd
    have e2 : ∀ x, readAllOf C c s₂ x = A.records C.view c.gsn x := fun x => readAllOf_account hC h hA x
    have e3 : ∀ x, readAllOf C c s₃ x = (A.add name ers positions).records C.view c.gsn x :=
      fun x => readAllOf_account hC h3 hA' x
    refine ⟨?_, ?_, ?_⟩
    · rcases h4 with ⟨_, h4⟩ | ⟨h4, _⟩
      · exact absurd h4 (herr _)
      · exact h4
    · rw [e2, e3, records_length hd]
      unfold Account.records
      rw [if_neg hd, if_neg hd', stream_add_same, recordsFrom_append, Nat.add_comm 1]
      rfl
    · intro other ho
      rw [e2, e3]
      unfold Account.records
      rw [stream_add_other A ho]
      rfl

/-- A lost reply: the error is returned although the event is stored. -/
example : (saveEvents demoCodec shipped .init false (fun s => s) .lostReply none sA [evA [1]] (fun _ => 1)).2 =
      .err .db ∧
    (readAllOf demoCodec shipped (saveEvents demoCodec shipped .init false (fun s => s) .lostReply none sA [evA [1]]
      (fun _ => 1)).1 sA).length = 1 := by decide +kernel

theorem propose_ok {C : Codec} {name t i : Str} : ∀ {ers : List EventRecord},
    (∀ er ∈ ers, er.event.aggType = t ∧ er.event.aggId = i ∧ ∃ b, C.enc name er = some b) →
    ∃ es, propose C name t i ers = .ok es
  | [], _ => ⟨_, rfl⟩
  | er :: ers, h => by
    obtain ⟨h1, h2, b, h3⟩ := h er List.mem_cons_self
    obtain ⟨es, he⟩ := propose_ok (C := C) (name := name) (fun x hx => h x (List.mem_cons_of_mem _ hx))
    refine ⟨(er.event.evType, b) :: es, ?_⟩
    rw [propose, if_neg (by simp [h1]), if_neg (by simp [h2]), h3]
    simp only [h1, h2, he]

/-- **C43**, a save succeeds when it should: the stream holds the expected number `k ≥ 1` of events at the check and
at the append, nothing fails on the way, and the batch is a non-empty list of encodable events of one aggregate. -/
theorem C43_save_succeeds (C : Codec) (hC : C.Lawful) (c : Config) (ops₁ ops₂ : List EOp)
    (hp : ∀ op ∈ ops₁ ++ ops₂, Plain op.events) (k : Nat) (hk : k ≥ 1) (name t i : Str) (ers : List EventRecord)
    (hne : ers ≠ []) (hers : ∀ er ∈ ers, er.event.aggType = t ∧ er.event.aggId = i ∧ ∃ b, C.enc name er = some b)
    (positions : Nat → Nat) (s₁ s₂ : Server) (hs₁ : s₁ = (World.run C c ops₁).server)
    (hs₂ : s₂ = (World.run C c (ops₁ ++ ops₂)).server) (h₁ : (readAllOf C c s₁ name).length = k)
    (h₂ : (readAllOf C c s₂ name).length = k) :
    (saveEvents C c s₁ false (fun _ => s₂) .ok (some k) name ers positions).2 = .ok (k + ers.length) := by
  obtain ⟨A, h, hA⟩ := run_rel (C := C) (c := c) ops₁ (fun op ho => hp op (List.mem_append_left _ ho))
  obtain ⟨B, h', hB⟩ := run_rel (C := C) (c := c) (ops₁ ++ ops₂) hp
  rw [← hs₁] at h
  rw [← hs₂] at h'
  have live : ∀ {A : Account} {s : Server}, Rel C c A s → A.Plain → (readAllOf C c s name).length = k →
      name ∉ A.dead ∧ A.len name = k := by
    intro A s h hA hl
    rw [readAllOf_account hC h hA] at hl
    by_cases hd : name ∈ A.dead
    · simp [Account.records, hd] at hl; omega
    · exact ⟨hd, by rw [records_length hd] at hl; exact hl⟩
  obtain ⟨hd, hl⟩ := live h hA h₁
  obtain ⟨hd', hl'⟩ := live h' hB h₂
  cases ers with
  | nil => exact absurd rfl hne
  | cons er ers =>
    have hcheck : checkExpected C c s₁ false (some k) name = none := by
      have hg : getStreamSequenceNumber C c s₁ name = .ok k := by
        rw [getSeq_account hC h hA name, hl, if_neg]
        rintro (x | x)
        · exact hd x
        · omega
      unfold checkExpected
      simp [hg]
    obtain ⟨es, hes⟩ := propose_ok hers
    have h1 := hers er List.mem_cons_self
    have hz : zeroBased k + 1 = k := by unfold zeroBased; split <;> omega
    simp only [saveEvents, hcheck, h1.1, h1.2.1, hes]
    unfold appendEvents
    rw [show revision (some k) = some (zeroBased k) from if_pos (by omega)]
    rcases append_cases h' hes (some (zeroBased k)) positions with ⟨_, x⟩ | ⟨_, _, r, hr, x⟩ | ⟨s', x, _⟩
    · exact absurd x hd'
    · cases hr; omega
    · rw [x, hl']
      simp only [deliver, oneBased, List.length_cons]
      congr 1

example : (saveEvents demoCodec recording (World.run demoCodec recording demoOps).server false
    (fun _ => (World.run demoCodec recording (demoOps ++ [save1 (sA ++ sA) (evA [9]) 60])).server) .ok (some 3) sA
    [evA [7], evA [8]] (fun i => 70 + i)).2 = .ok 5 := by decide +kernel

/-- **C43**, deletes: `OptimisticDeleteStream(k, name)` with `k ≥ 1` succeeds exactly when the stream holds `k` events.
Otherwise nothing changes, and the error is `ErrStreamNotFound` for a stream without events and else names the actual
number. -/
theorem C43_delete (C : Codec) (hC : C.Lawful) (c : Config) (ops : List EOp)
    (hp : ∀ op ∈ ops, Plain op.events) (deleted : List Str) (k : Nat) (hk : k ≥ 1) (name : Str) (s : Server)
    (hs : s = (World.run C c ops).server) :
    let r := deleteStream C c s deleted k name
    ((readAllOf C c s name).length = k → r.2.2 = none ∧ eventsByStream C c r.1 0 name = ⟨[], some .notFound⟩ ∧
      ∀ other, other ≠ name → readAllOf C c r.1 other = readAllOf C c s other) ∧
    ((readAllOf C c s name).length ≠ k → r.1 = s ∧ r.2.1 = deleted ∧
      r.2.2 = some (if (readAllOf C c s name).length = 0 then .notFound
        else .unexpected k (readAllOf C c s name).length)) := by
  obtain ⟨A, h, hA⟩ := run_rel (C := C) (c := c) ops hp
  rw [← hs] at h
  have e : ∀ x, readAllOf C c s x = A.records C.view c.gsn x := fun x => readAllOf_account hC h hA x
  have hz : zeroBased k + 1 = k := by unfold zeroBased; split <;> omega
  have hg := getSeq_account hC h hA name
  simp only
  rcases tombstone_cases h name (zeroBased k) with ⟨h1, hd⟩ | ⟨h1, hd, hl⟩ | ⟨s', h1, hd, hl, h2⟩
  · have h0 : (readAllOf C c s name).length = 0 := by rw [e]; simp [Account.records, hd]
    constructor
    · intro hx; omega
    · intro _
      unfold deleteStream
      rw [h1, if_pos h0]
      exact ⟨rfl, rfl, rfl⟩
  · rw [hz] at hl
    have hx : (readAllOf C c s name).length = A.len name := by rw [e, records_length hd]
    rw [hx]
    refine ⟨fun x => absurd x hl, fun _ => ?_⟩
    unfold deleteStream
    rw [h1]
    simp only [hg, hd, false_or]
    by_cases h0 : A.len name = 0
    · simp only [if_pos h0, and_self]
    · simp only [if_neg h0, and_self]
  · rw [hz] at hl
    have hx : (readAllOf C c s name).length = k := by rw [e, records_length hd, hl]
    refine ⟨fun _ => ?_, fun x => absurd hx x⟩
    have hr : (deleteStream C c s deleted k name).1 = s' ∧ (deleteStream C c s deleted k name).2.2 = none := by
      unfold deleteStream; rw [h1]; exact ⟨rfl, rfl⟩
    have hA' : (A.kill name).Plain := hA
    refine ⟨hr.2, ?_, ?_⟩
    · rw [hr.1, eventsByStream_account hC h2 hA']
      simp [Account.records, Account.kill, answer]
    · intro other ho
      rw [hr.1, e, readAllOf_account hC h2 hA']
      simp [Account.records, Account.kill, Account.stream, ho]

example : (deleteStream demoCodec recording (World.run demoCodec recording demoOps).server [] 3 sA).2.2 = none ∧
    (deleteStream demoCodec recording (World.run demoCodec recording demoOps).server [] 2 sA).2.2 =
      some (.unexpected 2 3) ∧
    (deleteStream demoCodec recording (World.run demoCodec recording demoOps).server [] 2 sB).2.2 =
      some .notFound := by decide +kernel

/-- The property as one expects it, without the restriction to numbers from 1: an acknowledged optimistic save found
the stream at the expected number, and a delete succeeds only at the expected number. -/
def C43_full : Prop :=
  ∀ (C : Codec), C.Lawful → ∀ (c : Config) (ops₁ ops₂ : List EOp), (∀ op ∈ ops₁ ++ ops₂, Plain op.events) →
    ∀ (readFails : Bool) (k : Nat) (name : Str),
    (∀ ers positions m,
      (saveEvents C c (World.run C c ops₁).server readFails (fun _ => (World.run C c (ops₁ ++ ops₂)).server) .ok
        (some k) name ers positions).2 = .ok m →
      (readAllOf C c (World.run C c (ops₁ ++ ops₂)).server name).length = k) ∧
    (∀ deleted, (deleteStream C c (World.run C c ops₁).server deleted k name).2.2 = none →
      (readAllOf C c (World.run C c ops₁).server name).length = k)

/-- **C43**, all that is true of it: the restriction to `k ≥ 1`. -/
theorem C43_numbers_partial (C : Codec) (hC : C.Lawful) (c : Config) (ops₁ ops₂ : List EOp)
    (hp : ∀ op ∈ ops₁ ++ ops₂, Plain op.events) (readFails : Bool) (k : Nat) (hk : k ≥ 1) (name : Str) :
    (∀ ers positions m, Plain ers →
      (saveEvents C c (World.run C c ops₁).server readFails (fun _ => (World.run C c (ops₁ ++ ops₂)).server) .ok
        (some k) name ers positions).2 = .ok m →
      (readAllOf C c (World.run C c (ops₁ ++ ops₂)).server name).length = k) ∧
    (∀ deleted, (deleteStream C c (World.run C c ops₁).server deleted k name).2.2 = none →
      (readAllOf C c (World.run C c ops₁).server name).length = k) := by
  constructor
  · intro ers pos m hers hm
    exact (C43_save C hC c ops₁ ops₂ hp readFails .ok (some k) name ers hers pos _ _ _ rfl rfl m
      (Prod.ext rfl hm)).1 k rfl hk
  · intro deleted hd
    have := C43_delete C hC c ops₁ (fun op ho => hp op (List.mem_append_left _ ho)) deleted k hk name _ rfl
    by_cases hl : (readAllOf C c (World.run C c ops₁).server name).length = k
    · exact hl
    · have := (this.2 hl).2.2
      rw [this] at hd
      cases hd

/-- **C43** is false at 0: `OptimisticDeleteStream(0)` deletes a stream that holds one event. -/
theorem C43_false_delete_zero : ¬ C43_full := by
  intro h
  have := (h demoCodec demoCodec_lawful shipped [save1 sA (evA [1]) 10] []
    (by simp only [save1, Plain]; decide) false 0 sA).2 [] (by decide +kernel)
  revert this
  decide +kernel

/-- **C43** is false at 0: two clients that both find the stream empty both succeed with `OptimisticSave(0)`. -/
theorem C43_false_save_zero : ¬ C43_full := by
  intro h
  have := (h demoCodec demoCodec_lawful shipped [] [.save (some 0) false .ok sA [evA [1]] (fun _ => 10)]
    (by simp only [Plain]; decide) false 0 sA).1 [evA [2]] (fun _ => 20) 2 (by decide +kernel)
  revert this
  decide +kernel

/-- **C43** is false at 0: if the read that determines the current number fails, `OptimisticSave(0)` appends to a
stream that holds events. -/
theorem C43_false_read_fails : ¬ C43_full := by
  intro h
  have := (h demoCodec demoCodec_lawful shipped [save1 sA (evA [1]) 10] []
    (by simp only [save1, Plain]; decide) true 0 sA).1 [evA [2]] (fun _ => 20) 2 (by decide +kernel)
  revert this
  decide +kernel

/-- Every event has the aggregate type and the aggregate ID of the events before it. An event without one says nothing. -/
def OneAggregate (ers : List EventRecord) : Prop :=
  ers.Pairwise (fun x y => (x.event.aggType = [] ∨ y.event.aggType = x.event.aggType) ∧
    (x.event.aggId = [] ∨ y.event.aggId = x.event.aggId))

theorem propose_pairwise {C : Codec} {name : Str} : ∀ {ers : List EventRecord} {t i : Str},
    (∃ es, propose C name t i ers = .ok es) ↔
      ((∀ er ∈ ers, (t = [] ∨ er.event.aggType = t) ∧ (i = [] ∨ er.event.aggId = i)) ∧ OneAggregate ers ∧
        ∀ er ∈ ers, C.enc name er ≠ none)
  | [], t, i => by simp [propose, OneAggregate]
  | er :: ers, t, i => by
    have ih := propose_pairwise (C := C) (name := name) (ers := ers) (t := er.event.aggType) (i := er.event.aggId)
    constructor
    · rintro ⟨es, h⟩
      rw [propose] at h
      split at h
      · cases h
      rename_i ht
      split at h
      · cases h
      rename_i hi
      split at h
      · cases h
      rename_i b hb
      split at h
      · cases h
      rename_i es' hes'
      obtain ⟨h1, h2, h3⟩ := ih.mp ⟨_, hes'⟩
      have ht' : t = [] ∨ er.event.aggType = t := by
        by_cases x : t = []
        · exact Or.inl x
        · by_cases y : t = er.event.aggType
          · exact Or.inr y.symm
          · exact absurd ⟨x, y⟩ ht
      have hi' : i = [] ∨ er.event.aggId = i := by
        by_cases x : i = []
        · exact Or.inl x
        · by_cases y : i = er.event.aggId
          · exact Or.inr y.symm
          · exact absurd ⟨x, y⟩ hi
      refine ⟨?_, List.pairwise_cons.mpr ⟨fun y hy => h1 y hy, h2⟩, ?_⟩
      · intro x hx
        rcases List.mem_cons.mp hx with rfl | hx
        · exact ⟨ht', hi'⟩
        · obtain ⟨g1, g2⟩ := h1 x hx
          constructor
          · rcases ht' with e | e
            · exact Or.inl e
            · rcases g1 with g | g
              · exact Or.inl (e.symm.trans g)
              · exact Or.inr (g.trans e)
          · rcases hi' with e | e
            · exact Or.inl e
            · rcases g2 with g | g
              · exact Or.inl (e.symm.trans g)
              · exact Or.inr (g.trans e)
      · intro x hx
        rcases List.mem_cons.mp hx with rfl | hx
        · simp [hb]
        · exact h3 x hx
    · rintro ⟨h1, h2, h3⟩
      obtain ⟨g1, g2⟩ := h1 er List.mem_cons_self
      obtain ⟨p1, p2⟩ := List.pairwise_cons.mp h2
      obtain ⟨es, hes⟩ := ih.mpr ⟨p1, p2, fun x hx => h3 x (List.mem_cons_of_mem _ hx)⟩
      obtain ⟨b, hb⟩ := Option.ne_none_iff_exists'.mp (h3 er List.mem_cons_self)
      refine ⟨(er.event.evType, b) :: es, ?_⟩
      rw [propose, if_neg (fun x => g1.elim x.1 (fun y => x.2 y.symm)),
        if_neg (fun x => g2.elim x.1 (fun y => x.2 y.symm)), hb]
      simp only [hes]

/-- **C43**, batches: a save without an expected number, to a stream that was not deleted and over a working
connection, is acknowledged exactly when the batch is not empty, belongs to one aggregate and can be encoded. -/
theorem C43_batch (C : Codec) (c : Config) (ops : List EOp) (hp : ∀ op ∈ ops, Plain op.events) (name : Str)
    (ers : List EventRecord) (positions : Nat → Nat) (s : Server) (hs : s = (World.run C c ops).server)
    (hd : c.streamName name ∉ s.tombstoned) :
    (∃ m, (saveEvents C c s false (fun s => s) .ok none name ers positions).2 = .ok m) ↔
      ers ≠ [] ∧ OneAggregate ers ∧ ∀ er ∈ ers, C.enc name er ≠ none := by
  obtain ⟨A, h, hA⟩ := run_rel (C := C) (c := c) ops hp
  rw [← hs] at h
  cases ers with
  | nil => simp [saveEvents]
  | cons er rest =>
    have hpp := propose_pairwise (C := C) (name := name) (ers := er :: rest) (t := er.event.aggType)
      (i := er.event.aggId)
    simp only [saveEvents, checkExpected]
    constructor
    · rintro ⟨m, hm⟩
      split at hm
      · cases hm
      · rename_i es hes
        exact ⟨by simp, (hpp.mp ⟨_, hes⟩).2⟩
    · rintro ⟨_, h2, h3⟩
      have hx : ∃ es, propose C name er.event.aggType er.event.aggId (er :: rest) = .ok es := by
        refine hpp.mpr ⟨?_, h2, h3⟩
        intro x hx
        rcases List.mem_cons.mp hx with rfl | hx
        · exact ⟨Or.inr rfl, Or.inr rfl⟩
        · exact (List.pairwise_cons.mp h2).1 x hx
      obtain ⟨es, hes⟩ := hx
      simp only [hes]
      unfold appendEvents
      rcases append_cases h hes (revision none) positions with ⟨_, x⟩ | ⟨_, _, r, hr', _⟩ | ⟨s', x, _⟩
      · exact absurd ((h.dead_iff name).mpr x) hd
      · simp [revision] at hr'
      · rw [x]; exact ⟨_, rfl⟩

/-- Two events of two aggregates are refused together. -/
example : OneAggregate [evA [1], evA [2]] ∧
    (saveEvents demoCodec shipped .init false (fun s => s) .ok none sA [evA [1], evA [2]] (fun i => i + 1)).2 = .ok 2 ∧
    (saveEvents demoCodec shipped .init false (fun s => s) .ok none sA
      [evA [1], { evA [2] with event := { (evA [2]).event with aggId := [66] } }] (fun i => i + 1)).2
        = .err .unmatchedId := by
  refine ⟨?_, by decide +kernel, by decide +kernel⟩
  simp [OneAggregate, evA, ev]

/-! ## C112: the numbers in the error of a refused save -/

/-- A refusal names what the caller expected, and a number of events the stream had during the call. -/
def C112_full : Prop :=
  ∀ (C : Codec), C.Lawful → ∀ (c : Config) (ops₁ ops₂ : List EOp), (∀ op ∈ ops₁ ++ ops₂, Plain op.events) →
    ∀ (expected : Option Nat) (name : Str) (ers : List EventRecord) (positions : Nat → Nat) (k actual : Nat),
    (saveEvents C c (World.run C c ops₁).server false (fun _ => (World.run C c (ops₁ ++ ops₂)).server) .ok expected
        name ers positions).2 = .err (.unexpected k actual) →
      expected = some k ∧ (actual = (readAllOf C c (World.run C c ops₁).server name).length ∨
        actual = (readAllOf C c (World.run C c (ops₁ ++ ops₂)).server name).length)

theorem check_length {C : Codec} (hC : C.Lawful) {c : Config} {ops : List EOp} (hp : ∀ op ∈ ops, Plain op.events)
    (k : Nat) (name : Str) {s : Server} (hs : s = (World.run C c ops).server) :
    checkExpected C c s false (some k) name =
      if k ≠ (readAllOf C c s name).length then some (.unexpected k (readAllOf C c s name).length) else none := by
  obtain ⟨A, h, hA⟩ := run_rel (C := C) (c := c) ops hp
  rw [← hs] at h
  unfold checkExpected
  rw [getSeq_account hC h hA, readAllOf_account hC h hA]
  by_cases hd : name ∈ A.dead
  · simp [hd, Account.records]
  · rw [records_length hd]
    by_cases h0 : A.len name = 0
    · simp [h0]
    · simp [hd, h0]

theorem propose_unexpected {C : Codec} {name t i : Str} : ∀ {ers : List EventRecord} {e : Err},
    propose C name t i ers = .error e → ∀ k a, e ≠ .unexpected k a
  | [], e, h => by simp [propose] at h
  | er :: ers, e, h => by
    rw [propose] at h
    split at h
    · cases h; simp
    · split at h
      · cases h; simp
      · split at h
        · cases h; simp
        · split at h
          · rename_i e' he
            cases h
            exact propose_unexpected he
          · cases h

/-- **C112**, all that is true of it: the error names what the caller expected. If the stream had another number at the
check, the error names that number; if it was overtaken after the check, the error names 0 whatever it holds. -/
theorem C112_partial (C : Codec) (hC : C.Lawful) (c : Config) (ops₁ ops₂ : List EOp)
    (hp : ∀ op ∈ ops₁ ++ ops₂, Plain op.events) (expected : Option Nat) (name : Str) (ers : List EventRecord)
    (hers : Plain ers) (positions : Nat → Nat) (s₁ s₂ : Server) (hs₁ : s₁ = (World.run C c ops₁).server)
    (hs₂ : s₂ = (World.run C c (ops₁ ++ ops₂)).server) (k actual : Nat)
    (hr : (saveEvents C c s₁ false (fun _ => s₂) .ok expected name ers positions).2 = .err (.unexpected k actual)) :
    expected = some k ∧
      ((actual = (readAllOf C c s₁ name).length ∧ actual ≠ k) ∨
       ((readAllOf C c s₁ name).length = k ∧ (readAllOf C c s₂ name).length ≠ k ∧ actual = 0)) := by
  have hp₁ : ∀ op ∈ ops₁, Plain op.events := fun op ho => hp op (List.mem_append_left _ ho)
  have hlen := fun k => check_length hC (c := c) hp₁ k name hs₁
  obtain ⟨A, h, hA⟩ := run_rel (C := C) (c := c) (ops₁ ++ ops₂) hp
  rw [← hs₂] at h
  cases ers with
  | nil => simp [saveEvents] at hr
  | cons er rest =>
    simp only [saveEvents] at hr
    cases expected with
    | none =>
      simp only [checkExpected] at hr
      split at hr
      · rename_i e he
        cases hr
        exact absurd rfl (propose_unexpected he _ _)
      · rename_i es hes
        unfold appendEvents at hr
        rcases append_cases h hes (revision none) positions with ⟨x, _⟩ | ⟨_, _, r, hr', _⟩ | ⟨s', x, _⟩
        · rw [x] at hr; simp [deliver] at hr
        · simp [revision] at hr'
        · rw [x] at hr; simp [deliver] at hr
    | some k' =>
      simp only [hlen] at hr
      by_cases hk : k' = (readAllOf C c s₁ name).length
      · rw [if_neg (by simpa using hk)] at hr
        simp only at hr
        split at hr
        · rename_i e he
          cases hr
          exact absurd rfl (propose_unexpected he _ _)
        · rename_i es hes
          unfold appendEvents at hr
          rcases append_cases h hes (revision (some k')) positions with ⟨x, _⟩ | ⟨x, hd, r, hr', hl⟩ | ⟨s', x, _⟩
          · rw [x] at hr; simp [deliver] at hr
          · rw [x] at hr
            simp only [deliver, Outcome.err.injEq, Err.unexpected.injEq] at hr
            obtain ⟨rfl, rfl⟩ := hr
            refine ⟨rfl, Or.inr ⟨hk.symm, ?_, rfl⟩⟩
            rw [readAllOf_account hC h hA, records_length hd]
            unfold revision at hr'
            simp only at hr'
            split at hr'
            · obtain rfl := Option.some.inj hr'
              have hz : zeroBased k' + 1 = k' := by unfold zeroBased; split <;> omega
              omega
            · cases hr'
          · rw [x] at hr; simp [deliver] at hr
      · rw [if_pos (by simpa using hk)] at hr
        simp only [Outcome.err.injEq, Err.unexpected.injEq] at hr
        obtain ⟨rfl, rfl⟩ := hr
        exact ⟨rfl, Or.inl ⟨rfl, fun x => hk x.symm⟩⟩

/-- The refusal does come: at another number than the expected one the save is refused with that number. -/
theorem C112_refused (C : Codec) (hC : C.Lawful) (c : Config) (ops₁ : List EOp)
    (hp : ∀ op ∈ ops₁, Plain op.events) (between : Server → Server) (net : Net) (k : Nat) (name : Str)
    (ers : List EventRecord) (hne : ers ≠ []) (positions : Nat → Nat) (s₁ : Server)
    (hs₁ : s₁ = (World.run C c ops₁).server) (hk : (readAllOf C c s₁ name).length ≠ k) :
    saveEvents C c s₁ false between net (some k) name ers positions =
      (between s₁, .err (.unexpected k (readAllOf C c s₁ name).length)) := by
  have hlen := fun k => check_length hC (c := c) hp k name hs₁
  cases ers with
  | nil => exact absurd rfl hne
  | cons er rest =>
    simp only [saveEvents, hlen]
    rw [if_pos (fun x => hk x.symm)]

example : (saveEvents demoCodec recording (World.run demoCodec recording demoOps).server false
    (fun s => s) .ok (some 7) sA [evA [7]] (fun i => 70 + i)).2 = .err (.unexpected 7 3) := by decide +kernel

/-- **C112** is false: a client that is overtaken between its check and its append is told that the stream holds 0
events. It held 1 at the check and holds 2 at the append. -/
theorem C112_false : ¬ C112_full := by
  intro h
  have := (h demoCodec demoCodec_lawful shipped [save1 sA (evA [1]) 10] [save1 sA (evA [2]) 20]
    (by simp only [save1, Plain]; decide) (some 1) sA [evA [3]] (fun _ => 30) 1 0 (by decide +kernel)).2
  revert this
  decide +kernel

/-! ## C74: deleted streams -/

theorem deleteStream_dead {C : Codec} {c : Config} {A : Account} {s : Server} (h : Rel C c A s)
    {deleted : List Str} {k : Nat} {name : Str} (hd : (deleteStream C c s deleted k name).2.2 = none) :
    Rel C c (A.kill name) (deleteStream C c s deleted k name).1 ∧
      (deleteStream C c s deleted k name).2.1 =
        (if c.recordDeletedStreams then c.streamName name :: deleted else deleted) := by
  unfold deleteStream at hd ⊢
  rcases tombstone_cases h name (zeroBased k) with ⟨h1, _⟩ | ⟨h1, _⟩ | ⟨s', h1, _, _, h2⟩
  · rw [h1] at hd; cases hd
  · rw [h1] at hd
    simp only at hd
    cases hg : getStreamSequenceNumber C c s name <;> rw [hg] at hd <;> cases hd
  · rw [h1]; exact ⟨h2, rfl⟩

/-- After a delete that succeeded and any later operations, there is an account in which the stream is dead. -/
theorem dead_later {C : Codec} {c : Config} {ops₁ ops₂ : List EOp}
    (hp : ∀ op ∈ ops₁ ++ ops₂, Plain op.events) {a k : Nat} {name : Str}
    (hd : (deleteStream C c (World.run C c ops₁).server ((World.run C c ops₁).deleted a) k name).2.2 = none) :
    ∃ A, Rel C c A (World.run C c (ops₁ ++ .delete a k name :: ops₂)).server ∧ A.Plain ∧ name ∈ A.dead := by
  obtain ⟨A, h, hA⟩ := run_rel (C := C) (c := c) ops₁ (fun op ho => hp op (List.mem_append_left _ ho))
  have h1 := (deleteStream_dead h hd).1
  obtain ⟨A', h', hA', hdead⟩ := foldl_rel (C := C) (c := c) ops₂
    (w := (World.run C c ops₁).step C c (.delete a k name)) h1 hA
    (fun op ho => hp op (List.mem_append_right _ ho))
  refine ⟨A', ?_, hA', hdead name List.mem_cons_self⟩
  unfold World.run at h' ⊢
  rw [List.foldl_append, List.foldl_cons]
  exact h'

/-- **C74**, reads of the stream: after a delete that succeeded, whatever happens later, `EventsByStream` reports
`ErrStreamNotFound`. -/
theorem C74_stream_gone (C : Codec) (hC : C.Lawful) (c : Config) (ops₁ ops₂ : List EOp)
    (hp : ∀ op ∈ ops₁ ++ ops₂, Plain op.events) (a k : Nat) (name : Str)
    (hd : (deleteStream C c (World.run C c ops₁).server ((World.run C c ops₁).deleted a) k name).2.2 = none)
    (n : Nat) :
    eventsByStream C c (World.run C c (ops₁ ++ .delete a k name :: ops₂)).server n name =
      ⟨[], some .notFound⟩ := by
  obtain ⟨A, h, hA, hdead⟩ := dead_later hp hd
  rw [eventsByStream_account hC h hA]
  simp [Account.records, hdead, answer]

/-- **C74**, the name is lost: after a delete that succeeded, whatever happens later, no save to the stream is ever
acknowledged again (the other stores let the stream begin anew). -/
theorem C74_name_lost (C : Codec) (c : Config) (ops₁ ops₂ : List EOp)
    (hp : ∀ op ∈ ops₁ ++ ops₂, Plain op.events) (a k : Nat) (name : Str)
    (hd : (deleteStream C c (World.run C c ops₁).server ((World.run C c ops₁).deleted a) k name).2.2 = none)
    (readFails : Bool) (net : Net) (expected : Option Nat) (ers : List EventRecord) (positions : Nat → Nat) :
    ∃ e, saveEvents C c (World.run C c (ops₁ ++ .delete a k name :: ops₂)).server readFails (fun s => s) net
        expected name ers positions =
      ((World.run C c (ops₁ ++ .delete a k name :: ops₂)).server, .err e) := by
  obtain ⟨A, h, hA, hdead⟩ := dead_later hp hd
  rcases saveEvents_cases (between := fun s => s) _ readFails h net expected name ers positions with
    ⟨h1, e, h2⟩ | ⟨h1, _⟩
  · exact ⟨e, Prod.ext h1 h2⟩
  · exact absurd hdead h1

example : (deleteStream demoCodec shipped (World.run demoCodec shipped [save1 sA (evA [1]) 10]).server [] 1 sA).2.2 =
    none := by decide +kernel

theorem eventsLoop_mem {C : Codec} {c : Config} {deleted : List Str} {r : Record} : ∀ {L : List Stored},
    r ∈ (eventsLoop C c deleted L).recs → ∃ s ∈ L, fromLinked C true s = some r ∧
      ¬ (c.recordDeletedStreams = true ∧ s.streamId ∈ deleted)
  | [], h => by cases h
  | s :: L, h => by
    have back : r ∈ (eventsLoop C c deleted L).recs → ∃ x ∈ s :: L, fromLinked C true x = some r ∧
        ¬ (c.recordDeletedStreams = true ∧ x.streamId ∈ deleted) := by
      intro h
      obtain ⟨x, hx, h⟩ := eventsLoop_mem h
      exact ⟨x, List.mem_cons_of_mem _ hx, h⟩
    rw [eventsLoop] at h
    split at h
    · exact back h
    · split at h
      · exact back h
      · split at h
        · exact back h
        · rename_i hdel
          cases hf : fromLinked C true s with
          | none => rw [hf] at h; cases h
          | some q =>
            rw [hf] at h
            rcases List.mem_cons.mp h with rfl | h
            · exact ⟨s, List.mem_cons_self, hf, by simpa using hdel⟩
            · exact back h

theorem typesLoop_mem {C : Codec} {c : Config} {deleted : List Str} {g : Nat} {types : List Str} {r : Record} :
    ∀ {L : List Stored}, r ∈ (typesLoop C c deleted g types L).recs → r ∈ (eventsLoop C c deleted L).recs
  | [], h => by cases h
  | s :: L, h => by
    have ih := @typesLoop_mem C c deleted g types r L
    rw [typesLoop] at h
    rw [eventsLoop]
    split at h
    · rw [if_pos (by assumption)]; exact ih h
    · rw [if_neg (by assumption)]
      split at h
      · rw [if_pos (by assumption)]; exact ih h
      · rw [if_neg (by assumption)]
        split at h
        · rw [if_pos (by assumption)]; exact ih h
        · rw [if_neg (by assumption)]
          cases hf : fromLinked C true s with
          | none => rw [hf] at h; cases h
          | some q =>
            rw [hf] at h
            simp only at h ⊢
            split at h
            · exact List.mem_cons_of_mem _ (ih h)
            · split at h
              · exact List.mem_cons_of_mem _ (ih h)
              · rcases List.mem_cons.mp h with rfl | h
                · exact List.mem_cons_self
                · exact List.mem_cons_of_mem _ (ih h)

theorem Matches.mem {C : Codec} {c : Config} : ∀ {b E L}, Matches C c b E L → ∀ s ∈ L,
    ∃ k e, e ∈ E ∧ One C c k e s
  | _, [], [], _, s, hs => by cases hs
  | b, e :: E, l :: L, h, s, hs => by
    rcases List.mem_cons.mp hs with rfl | hs
    · exact ⟨_, e, List.mem_cons_self, h.1⟩
    · obtain ⟨k, x, hx, h⟩ := Matches.mem h.2 s hs
      exact ⟨k, x, List.mem_cons_of_mem _ hx, h⟩
  | _, [], _ :: _, h, _, _ => h.elim
  | _, _ :: _, [], h, _, _ => h.elim

/-- What an adapter remembers is not forgotten before its restart. -/
theorem deleted_stays {C : Codec} {c : Config} (hr : c.recordDeletedStreams = true) {a : Nat} {n : Str} :
    ∀ (ops : List EOp) (w : World), n ∈ w.deleted a → (∀ op ∈ ops, op ≠ .restart a) →
    n ∈ (ops.foldl (World.step C c) w).deleted a
  | [], _, h, _ => h
  | op :: ops, w, h, hops => by
    refine deleted_stays hr ops _ ?_ (fun o ho => hops o (List.mem_cons_of_mem _ ho))
    cases op with
    | save => exact h
    | append expected net name er ers pos =>
      simp only [World.step]
      cases propose C name er.event.aggType er.event.aggId (er :: ers) <;> exact h
    | delete b k name =>
      simp only [World.step]
      by_cases hb : a = b
      · subst hb
        rw [if_pos rfl]
        unfold deleteStream
        cases w.server.tombstone (c.streamName name) (zeroBased k) with
        | ok s => simp only [hr, if_true]; exact List.mem_cons_of_mem _ h
        | error e =>
          cases e with
          | wrongRevision =>
            simp only
            cases getStreamSequenceNumber C c w.server name <;> exact h
          | streamDeleted => exact h
          | streamNotFound => exact h
      · rw [if_neg hb]; exact h
    | restart b =>
      have hb : a ≠ b := fun x => hops (.restart b) List.mem_cons_self (x ▸ rfl)
      simp only [World.step]
      rw [if_neg hb]
      exact h

/-- The property as one expects it: after a delete that succeeded, no read of any adapter ever returns an event of
the stream. -/
def C74_full : Prop :=
  ∀ (C : Codec), C.Lawful → ∀ (c : Config) (ops₁ ops₂ : List EOp), (∀ op ∈ ops₁ ++ ops₂, Plain op.events) →
    ∀ (a k : Nat) (name : Str),
    (deleteStream C c (World.run C c ops₁).server ((World.run C c ops₁).deleted a) k name).2.2 = none →
    ∀ (b g : Nat),
    let w := World.run C c (ops₁ ++ .delete a k name :: ops₂)
    (∀ r ∈ (events C c (w.deleted b) w.server g).recs, r.streamName ≠ name) ∧
    ∀ types, ∀ r ∈ (eventsByTypes C c (w.deleted b) w.server g types).recs, r.streamName ≠ name

/-- **C74**, reads of all events: it holds for the adapter that made the delete, if it has `RecordDeletedStreams` and
was not restarted since. -/
theorem C74_events_partial (C : Codec) (hC : C.Lawful) (c : Config) (hrec : c.recordDeletedStreams = true)
    (ops₁ ops₂ : List EOp) (hp : ∀ op ∈ ops₁ ++ ops₂, Plain op.events) (a k : Nat) (name : Str)
    (hd : (deleteStream C c (World.run C c ops₁).server ((World.run C c ops₁).deleted a) k name).2.2 = none)
    (hnr : ∀ op ∈ ops₂, op ≠ .restart a) (g : Nat) :
    let w := World.run C c (ops₁ ++ .delete a k name :: ops₂)
    (∀ r ∈ (events C c (w.deleted a) w.server g).recs, r.streamName ≠ name) ∧
    ∀ types, ∀ r ∈ (eventsByTypes C c (w.deleted a) w.server g types).recs, r.streamName ≠ name := by
  intro w
  have hall : ∀ r ∈ (eventsLoop C c (w.deleted a) (w.server.readAll g)).recs, r.streamName ≠ name := by
    intro r hr hname
    obtain ⟨s, hs, hf, hn⟩ := eventsLoop_mem hr
    obtain ⟨A, h, _, _⟩ := dead_later hp hd
    obtain ⟨kk, e, _, ho⟩ := h.log.mem s (List.mem_filter.mp hs).1
    rw [ho.fromLinked hC true] at hf
    cases hf
    have hname : e.name = name := hname
    apply hn
    refine ⟨hrec, ?_⟩
    rw [ho.1, hname]
    show c.streamName name ∈ (World.run C c (ops₁ ++ .delete a k name :: ops₂)).deleted a
    unfold World.run
    rw [List.foldl_append, List.foldl_cons]
    apply deleted_stays hrec ops₂ _ _ hnr
    obtain ⟨B, hB, _⟩ := run_rel (C := C) (c := c) ops₁ (fun op ho => hp op (List.mem_append_left _ ho))
    have := (deleteStream_dead hB hd).2
    simp only [World.step, if_true]
    unfold World.run at this
    rw [this, hrec]
    simp
  exact ⟨hall, fun types r hr => hall r (typesLoop_mem hr)⟩

example : (deleteStream demoCodec recording (World.run demoCodec recording [save1 sA (evA [1]) 10]).server [] 1 sA).2.2 =
    none := by decide +kernel

theorem plain_one : ∀ op ∈ [save1 sA (evA [1]) 10] ++ [], Plain op.events := by
  simp only [save1, Plain]; decide

/-- **C74** is false of the shipped server: without `RecordDeletedStreams`, `Events` goes on returning the events of
the deleted stream. -/
theorem C74_false_shipped : ¬ C74_full := by
  intro h
  have := (h demoCodec demoCodec_lawful shipped [save1 sA (evA [1]) 10] [] plain_one 0 1 sA (by decide +kernel) 0 0).1
    (mkRecord sA 10 1 (evA [1])) (by decide +kernel)
  exact this rfl

/-- **C74** is false with `RecordDeletedStreams`: after a restart the deleted events come back. -/
theorem C74_false_restart : ¬ C74_full := by
  intro h
  have := (h demoCodec demoCodec_lawful recording [save1 sA (evA [1]) 10] [.restart 0]
    (by simp only [save1, Plain]; decide) 0 1 sA (by decide +kernel) 0 0).1
    (mkRecord sA 10 1 (evA [1])) (by decide +kernel)
  exact this rfl

/-- **C74** is false with `RecordDeletedStreams`: another adapter on the same server still returns the events. -/
theorem C74_false_other : ¬ C74_full := by
  intro h
  have := (h demoCodec demoCodec_lawful recording [save1 sA (evA [1]) 10] [] plain_one 0 1 sA (by decide +kernel) 1 0).2
    [[65]] (mkRecord sA 10 1 (evA [1])) (by decide +kernel)
  exact this rfl

/-! ## C75: event types that start with `$` -/

/-- The property as one expects it: an acknowledged save of one event is returned by a read of its stream at the
number it was acknowledged with. -/
def C75_full : Prop :=
  ∀ (C : Codec), C.Lawful → ∀ (c : Config) (ops : List EOp) (name : Str) (er : EventRecord) (position m : Nat),
    (saveEvents C c (World.run C c ops).server false (fun s => s) .ok none name [er] (fun _ => position)).2 = .ok m →
    ∃ r ∈ readAllOf C c
        (saveEvents C c (World.run C c ops).server false (fun s => s) .ok none name [er] (fun _ => position)).1 name,
      r.seq = m ∧ r = mkRecord name (c.gsn position) m (C.view er)

/-- **C75** holds while no event type starts with `$`. -/
theorem C75_returned_partial (C : Codec) (hC : C.Lawful) (c : Config) (ops : List EOp)
    (hp : ∀ op ∈ ops, Plain op.events) (name : Str) (er : EventRecord) (her : Plain [er]) (position m : Nat)
    (h : (saveEvents C c (World.run C c ops).server false (fun s => s) .ok none name [er] (fun _ => position)).2 =
      .ok m) :
    ∃ r ∈ readAllOf C c
        (saveEvents C c (World.run C c ops).server false (fun s => s) .ok none name [er] (fun _ => position)).1 name,
      r.seq = m ∧ r = mkRecord name (c.gsn position) m (C.view er) := by
  have h' : saveEvents C c (World.run C c ops).server false
      (fun _ => (World.run C c (ops ++ [])).server) .ok none name [er] (fun _ => position) =
      ((saveEvents C c (World.run C c ops).server false (fun s => s) .ok none name [er] (fun _ => position)).1,
        .ok m) := by
    rw [List.append_nil]
    have e : saveEvents C c (World.run C c ops).server false (fun _ => (World.run C c ops).server) .ok none name [er]
        (fun _ => position) = saveEvents C c (World.run C c ops).server false (fun s => s) .ok none name [er]
        (fun _ => position) := rfl
    rw [e]
    exact Prod.ext rfl h
  have := C43_save C hC c ops [] (by simpa using hp) false .ok none name [er] her (fun _ => position) _ _ _ rfl rfl m h'
  obtain ⟨_, h2, h3, _, _⟩ := this
  rw [List.append_nil] at h2 h3
  refine ⟨_, ?_, ?_, rfl⟩
  · rw [h2]
    apply List.mem_append_right
    rw [h3]
    exact List.mem_singleton.mpr rfl
  · rfl

/-- **C75**: no read returns an event whose type starts with `$`: every read is the same as if such events did not
exist. -/
theorem C75_hidden (C : Codec) (c : Config) (deleted : List Str) (L : List Stored) :
    (∀ n name, streamLoop C c n name L = streamLoop C c n name (L.filter (fun e => !internal e))) ∧
    eventsLoop C c deleted L = eventsLoop C c deleted (L.filter (fun e => !internal e)) ∧
    (∀ g types, typesLoop C c deleted g types L = typesLoop C c deleted g types (L.filter (fun e => !internal e))) ∧
    broadcasts C c L = broadcasts C c (L.filter (fun e => !internal e)) := by
  induction L with
  | nil => exact ⟨fun _ _ => rfl, rfl, fun _ _ => rfl, rfl⟩
  | cons e L ih =>
    obtain ⟨h1, h2, h3, h4⟩ := ih
    by_cases hi : internal e = true
    · rw [List.filter_cons_of_neg (by simp [hi])]
      refine ⟨fun n name => ?_, ?_, fun g types => ?_, ?_⟩
      · rw [streamLoop, if_pos hi, h1]
      · rw [eventsLoop, if_pos hi, h2]
      · rw [typesLoop, if_pos hi, h3]
      · rw [broadcasts, if_pos hi, h4]
    · rw [List.filter_cons_of_pos (by simp [hi])]
      refine ⟨fun n name => ?_, ?_, fun g types => ?_, ?_⟩
      · rw [streamLoop, streamLoop, h1]
      · rw [eventsLoop, eventsLoop, h2]
      · rw [typesLoop, typesLoop, h3]
      · rw [broadcasts, broadcasts, h4]

/-- An event of type "$E". -/
def dollar : EventRecord := ⟨⟨[65], [49], [36, 69], [1]⟩, [], [85], 7⟩

/-- **C75** is false: an event of type "$E" is acknowledged with number 1 and never returned. -/
theorem C75_false : ¬ C75_full := by
  intro h
  obtain ⟨r, hr, _⟩ := h demoCodec demoCodec_lawful shipped [] sA dollar 10 1 (by decide +kernel)
  have e : readAllOf demoCodec shipped (saveEvents demoCodec shipped (World.run demoCodec shipped []).server false
    (fun s => s) .ok none sA [dollar] (fun _ => 10)).1 sA = [] := by decide +kernel
  rw [e] at hr
  cases hr

/-- The consequence for optimistic saves: the number that `Save` returned is refused, the number 0 is accepted. -/
theorem C75_numbers_false :
    let s := (saveEvents demoCodec shipped .init false (fun s => s) .ok none sA [dollar] (fun _ => 10)).1
    (saveEvents demoCodec shipped .init false (fun s => s) .ok none sA [dollar] (fun _ => 10)).2 = .ok 1 ∧
    (saveEvents demoCodec shipped s false (fun s => s) .ok (some 1) sA [evA [2]] (fun _ => 20)).2 =
      .err (.unexpected 1 0) ∧
    (saveEvents demoCodec shipped s false (fun s => s) .ok (some 0) sA [evA [2]] (fun _ => 20)).2 = .ok 2 := by
  decide +kernel

/-! ## C76: the live listener -/

/-- The property as one expects it: when an adapter is created while the log is `old` and `new` is appended later, its
listener broadcasts the records of the new events, in order, and nothing else. -/
def C76_full : Prop :=
  ∀ (C : Codec), C.Lawful → ∀ (c : Config) (old new : List Stored),
    broadcasts C c (old ++ new) = new.filterMap (fun e => if internal e || !c.current e then none else fromLinked C true e)

/-- **C76**, what is broadcast: if every event in the log can be decoded, all events are broadcast in order, each once
(the new ones among them). -/
theorem C76_all_partial (C : Codec) (c : Config) (log : List Stored)
    (h : ∀ e ∈ log, internal e = true ∨ c.current e = false ∨ ∃ r, fromLinked C true e = some r) :
    broadcasts C c log = log.filterMap (fun e => if internal e || !c.current e then none else fromLinked C true e) := by
  induction log with
  | nil => rfl
  | cons e log ih =>
    have ih := ih (fun x hx => h x (List.mem_cons_of_mem _ hx))
    rw [broadcasts, List.filterMap_cons]
    by_cases hi : internal e = true
    · simp [hi, ih]
    · by_cases hc : c.current e = true
      · rcases h e List.mem_cons_self with h1 | h1 | ⟨r, h1⟩
        · exact absurd h1 hi
        · rw [hc] at h1; cases h1
        · simp [hi, hc, h1, ih]
      · simp [hi, hc, ih]

/-- Events that were written by adapters with a prefix or without can be decoded: the hypothesis holds after every
history. -/
theorem C76_reachable (C : Codec) (hC : C.Lawful) (c : Config) (ops : List EOp)
    (hp : ∀ op ∈ ops, Plain op.events) : ∀ e ∈ (World.run C c ops).server.log,
    internal e = true ∨ c.current e = false ∨ ∃ r, fromLinked C true e = some r := by
  obtain ⟨A, h, _⟩ := run_rel (C := C) (c := c) ops hp
  intro e he
  obtain ⟨k, x, _, ho⟩ := h.log.mem e he
  exact .inr (.inr ⟨_, ho.fromLinked hC true⟩)

/-- **C76**, the poison pill: one event in the log that cannot be decoded (written by another program; there is no
prefix to tell it apart) silences the listener: nothing after it is ever broadcast, whatever is saved. The same event ends
every read of all events with an error. -/
theorem C76_poison (C : Codec) (c : Config) (before after : List Stored) (e : Stored) (hi : internal e = false)
    (hc : c.current e = true) (hd : C.dec e.payload = none) :
    broadcasts C c (before ++ e :: after) = broadcasts C c before ∧
    ∀ deleted, ¬ (c.recordDeletedStreams = true ∧ e.streamId ∈ deleted) →
      (eventsLoop C c deleted (before ++ e :: after)).recs = (eventsLoop C c deleted before).recs ∧
      (eventsLoop C c deleted (before ++ e :: after)).err = some .deserialize := by
  have hf : fromLinked C true e = none := by unfold fromLinked; rw [hd]
  refine ⟨?_, fun deleted hdel => ?_⟩
  · induction before with
    | nil => simp [broadcasts, hi, hc, hf]
    | cons x before ih =>
      simp only [List.cons_append]
      rw [broadcasts, broadcasts]
      split
      · exact ih
      · split
        · exact ih
        · cases fromLinked C true x with
          | none => rfl
          | some r => simp only [ih]
  · induction before with
    | nil =>
      have : (c.recordDeletedStreams && decide (e.streamId ∈ deleted)) = false := by
        simpa using hdel
      simp [eventsLoop, hi, hc, hf, this]
    | cons x before ih =>
      simp only [List.cons_append]
      rw [eventsLoop, eventsLoop]
      split
      · exact ih
      · split
        · exact ih
        · split
          · exact ih
          · cases fromLinked C true x with
            | none => exact ⟨rfl, rfl⟩
            | some r => simp only [ih, and_self]

/-- An event of another program. -/
def foreign : Stored := ⟨[120], 0, 5, [69], ([123], [])⟩

example : internal foreign = false ∧ shipped.current foreign = true ∧ demoCodec.dec foreign.payload = none := by
  decide +kernel

/-- **C76** is false: an adapter that is created when the store holds one event broadcasts that old event, so that a
subscription started with `Start` receives it as if it were new. -/
theorem C76_false_history : ¬ C76_full := by
  intro h
  have := h demoCodec demoCodec_lawful shipped (World.run demoCodec shipped [save1 sA (evA [1]) 10]).server.log []
  revert this
  decide +kernel

/-- **C76** is false: after an event of another program nothing is broadcast any more. -/
theorem C76_false_poison : ¬ C76_full := by
  intro h
  have := h demoCodec demoCodec_lawful shipped [foreign]
    (World.run demoCodec shipped [save1 sA (evA [1]) 10]).server.log
  revert this
  decide +kernel

end RangeDB.EDB

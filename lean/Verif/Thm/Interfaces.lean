import Verif.Proof.Interfaces
import Verif.Thm.Remote
import Verif.Proof.Restarts

/-!
# C160: HTTP and gRPC show the same events

One server, one store, requests over HTTP and gRPC in any order. `fl` is what `float64` makes of a number literal; it is
assumed that a number that was printed once is printed the same again (`hi`).
-/

namespace RangeDB.Srv

open RangeDB.Json RangeDB.Http RangeDB.Rem

variable {fl : Str → Option Str} {N : Names}

theorem fine_readable {r : Record} (h : Fine fl r) : Readable unbound fl r := by
  obtain ⟨⟨a, b, c, d, e, _, ⟨dj, dw, _, dt, dd⟩, _⟩, m⟩ := h
  exact ⟨a, b, c, d, e, ⟨dj, dw, dt, dd⟩, m⟩

theorem agree_of_fine (other : Err → Str) {it : Iter} (he : it.err = none) (h : ∀ r ∈ it.recs, Fine fl r) :
    Agree other fl it := by
  obtain ⟨recs, err⟩ := it
  simp only at he h
  subst he
  refine ⟨(C44_json_partial unbound recs (fun r hr => (h r hr).1)).2,
    (C44_ndjson_partial unbound recs (fun r hr => (h r hr).1)).2,
    C42_events_partial other unbound fl ⟨recs, none⟩ (fun r hr => fine_readable (h r hr)), ?_⟩
  unfold Rem.eventsByStream Rem.read
  simp only [RecordIterator.new]
  rw [serve_ok other true none recs (fun r hr => good_servable (h r hr).1) .zero rfl]
  exact receive_ok _ _ (fun r hr => fine_readable (h r hr))

theorem im_stored (hl : ∀ t u, fl t = some u → scanNum u = some (u, []))
    (hi : ∀ t u, fl t = some u → fl u = some u) (other : Err → Str) (rs : List Request) (hr : ∀ r ∈ rs, r.Given fl)
    (hb : (rs.map (fun r => (r.events fl).length)).sum < 2 ^ 64) :
    Stored (keptZ fl) (imServe other fl rs) ∧
      imServe other fl rs = IM.run (goodZ unbound) (rs.filterMap (Request.op fl)) := by
  have hsz := ops_size hl hi rs hr
  have hops : ∀ op ∈ rs.filterMap (Request.op fl), GoodOp unbound op ∧ ∀ er ∈ evs op, Same fl er.metadata := by
    intro op hop
    obtain ⟨r, hr1, hr2⟩ := List.mem_filterMap.mp hop
    have := op_facts hl hi (hr r hr1) hr2
    exact ⟨this.1, this.2.1⟩
  have h1 := (im_run_congr _ (fun op hop => (hops op hop).1) (by omega)).1
  refine ⟨?_, by rw [im_serve, h1]⟩
  rw [im_serve, h1, im_run_kept _ (fun op hop => (hops op hop).2)]
  exact stored_run _ _

/-- **C160**, in-memory store: after any requests over HTTP and gRPC, accepted or not, a read of all events from any
number on has no error and gives the same records by every way of reading; and so does a read of one stream or of some
aggregate types that the store answers without an error. -/
theorem C160_inmemory (hl : ∀ t u, fl t = some u → scanNum u = some (u, []))
    (hi : ∀ t u, fl t = some u → fl u = some u) (other : Err → Str) (rs : List Request) (hr : ∀ r ∈ rs, r.Given fl)
    (hb : (rs.map (fun r => (r.events fl).length)).sum < 2 ^ 64) :
    (∀ g, (IM.events (serializer unbound) (imServe other fl rs) none g).err = none ∧
      Agree other fl (IM.events (serializer unbound) (imServe other fl rs) none g)) ∧
    (∀ n st, (IM.eventsByStream (serializer unbound) (imServe other fl rs) none n st).err = none →
      Agree other fl (IM.eventsByStream (serializer unbound) (imServe other fl rs) none n st)) ∧
    (∀ g types, (IM.eventsByAggregateTypes (serializer unbound) (imServe other fl rs) (fun _ => none) g types).err = none →
      Agree other fl (IM.eventsByAggregateTypes (serializer unbound) (imServe other fl rs) (fun _ => none) g types)) := by
  obtain ⟨hs, hrun⟩ := im_stored hl hi other rs hr hb
  refine ⟨?_, ?_, ?_⟩
  · intro g
    have he : (IM.events (serializer unbound) (imServe other fl rs) none g).err = none := by
      obtain ⟨L, hL⟩ := IM.run_E (goodZ_lawful unbound) (rs.filterMap (Request.op fl))
      rw [im_events_deser, hrun, IM.events_E hL]
      rfl
    exact ⟨he, agree_of_fine other he (kept_recordsByIDs hs _ _ _ 0)⟩
  · intro n st he
    refine agree_of_fine other he ?_
    unfold IM.eventsByStream
    split
    · simp
    · exact kept_recordsByIDs hs _ _ _ 0
  · intro g types he
    refine agree_of_fine other he ?_
    have hone : ∀ t, ∀ r ∈ (IM.eventsByType (serializer unbound) (imServe other fl rs) none g t).recs, Fine fl r :=
      fun t => kept_recordsByIDs hs _ _ _ 0
    unfold IM.eventsByAggregateTypes
    split
    · exact hone _
    · intro r hmem
      have := (mergeIters_perm _).mem_iff.mp hmem
      obtain ⟨it, hit, hr'⟩ := List.mem_flatMap.mp this
      obtain ⟨t, _, rfl⟩ := List.mem_map.mp hit
      exact hone t r hr'

/-- **C160**, LevelDB store: the same, for stream names and aggregate types that do not run into each other (C12), and for
reads that return (C14). -/
theorem C160_leveldb (hl : ∀ t u, fl t = some u → scanNum u = some (u, []))
    (hi : ∀ t u, fl t = some u → fl u = some u) (other : Err → Str) (rs : List Request) (hr : ∀ r ∈ rs, r.Given fl)
    (hn : ∀ r ∈ rs, N.streams r.stream ∧ ∀ er ∈ r.events fl, N.types er.event.aggType)
    (hb : (rs.map (fun r => (r.events fl).length)).sum < 2 ^ 64) :
    (∀ g it, g < 2 ^ 64 → LD.events (serializer unbound) (ldServe other fl rs) none g = .ok it →
      it.err = none ∧ Agree other fl it) ∧
    (∀ n st it, N.streams st → LD.eventsByStream (serializer unbound) (ldServe other fl rs) none n st = .ok it →
      it.err = none → Agree other fl it) ∧
    (∀ g t it, g < 2 ^ 64 → N.types t →
      LD.eventsByAggregateTypes (serializer unbound) (ldServe other fl rs) (fun _ => none) g [t] = .ok it →
      it.err = none ∧ Agree other fl it) := by
  have hsz := ops_size hl hi rs hr
  have hops : ∀ op ∈ rs.filterMap (Request.op fl),
      GoodOp unbound op ∧ (∀ er ∈ evs op, Same fl er.metadata) ∧ op.NamesIn N := by
    intro op hop
    obtain ⟨r, hr1, hr2⟩ := List.mem_filterMap.mp hop
    have := op_facts hl hi (hr r hr1) hr2
    exact ⟨this.1, this.2.1, this.2.2.2 N (hn r hr1)⟩
  have hrun : ldServe other fl rs = LD.run (goodZ unbound) (rs.filterMap (Request.op fl)) := by
    rw [ld_serve, ld_run_congr _ (fun op hop => (hops op hop).1) (fun op hop => (hops op hop).2.2) (by omega)]
  have hsim := (LD.run_simA (N := N) (goodZ_lawful unbound) (rs.filterMap (Request.op fl))
    (fun op hop => (hops op hop).2.2) (by omega)).1
  have hfine : ∀ r ∈ (aRun (goodZ unbound) (rs.filterMap (Request.op fl))).log.recs, Fine fl r := fun r hr' =>
    ⟨aRun_good unbound _ r hr', aRun_same _ (fun op hop => (hops op hop).2.1) r hr'⟩
  refine ⟨?_, ?_, ?_⟩
  · intro g it hg h
    rw [ld_events_deser, hrun, LD.simA_events hsim none g hg] at h
    split at h
    · simp at h
    · have h := (Outcome.ok.inj h).symm
      subst h
      exact ⟨rfl, agree_of_fine other rfl (fun r hr' => hfine r (List.mem_filter.mp hr').1)⟩
  · intro n st it hst h he
    have hd : ∀ (db : KV.DB) (k : Str), LD.getEventsByPrefix (serializer unbound) db none k n =
        LD.getEventsByPrefix (goodZ unbound) db none k n := by
      have hloop : ∀ (l : KV.DB) (m : Nat), LD.prefixLoop (serializer unbound) none n m l =
          LD.prefixLoop (goodZ unbound) none n m l := by
        intro l
        induction l with
        | nil => intro m; rfl
        | cons x l ih =>
          intro m
          have e : (serializer unbound).deser = (goodZ unbound).deser := rfl
          simp only [LD.prefixLoop, e, ih]
      intro db k
      simp only [LD.getEventsByPrefix, hloop]
    unfold LD.eventsByStream at h
    split at h
    · simp at h
    · have h := (Outcome.ok.inj h).symm
      rw [hrun, hd, LD.prefix_stream hsim.sim hsim.wf none n hst] at h
      refine agree_of_fine other he ?_
      rw [h]
      split
      · simp
      · intro r hr'
        exact hfine r (List.mem_filter.mp (List.mem_filter.mp hr').1).1
  · intro g t it hg ht h
    unfold LD.eventsByAggregateTypes at h
    split at h
    · simp at h
    · have h := (Outcome.ok.inj h).symm
      simp only [LD.getEventsByLookup, ld_lookupLoop_deser] at h
      have e := LD.lookup_type hsim.sim hsim.wf none g hg ht
      unfold LD.getEventsByLookup at e
      rw [hrun, e] at h
      subst h
      exact ⟨rfl, agree_of_fine other rfl
        (fun r hr' => hfine r (List.mem_filter.mp (List.mem_filter.mp hr').1).1)⟩

/-- **C160**, from HTTP to gRPC: the events of a posted body that is answered with 201 are what a gRPC client reads behind
the earlier events. -/
theorem C160_posted (hl : ∀ t u, fl t = some u → scanNum u = some (u, []))
    (hi : ∀ t u, fl t = some u → fl u = some u) (other : Err → Str) (rs : List Request) (hr : ∀ r ∈ rs, r.Given fl)
    (q : SaveRequest) (env : Nat → Str × Nat) (hq : (Request.post q env).Given fl)
    (hb : (rs.map (fun r => (r.events fl).length)).sum + ((Request.post q env).events fl).length < 2 ^ 64)
    (s' : IM.State) (resp : Response)
    (h : handleSave (imSave (serializer unbound)) fl env (imServe other fl rs) q = (s', some resp))
    (h201 : resp.status = 201) :
    ∃ n g es, decodeBody fl q.body = some es ∧
      Rem.events other unbound fl (IM.events (serializer unbound) s' none 0) =
        ⟨(Rem.events other unbound fl (IM.events (serializer unbound) (imServe other fl rs) none 0)).recs ++
          numbered q.stream g n (toEventRecords env 0 es), none⟩ := by
  have hall : ∀ r ∈ rs ++ [Request.post q env], r.Given fl := by
    intro r h
    rcases List.mem_append.mp h with h | h
    · exact hr r h
    · rw [List.mem_singleton] at h; subst h; exact hq
  have hs' : imServe other fl (rs ++ [Request.post q env]) = s' := by
    unfold imServe at h ⊢
    rw [List.foldl_append]
    simp only [List.foldl_cons, List.foldl_nil, Request.handle, h]
  obtain ⟨_, hnew⟩ := (C160_inmemory hl hi other _ hall (by simpa using hb)).1 0
  obtain ⟨_, hold⟩ := (C160_inmemory hl hi other rs hr (by omega)).1 0
  obtain ⟨e, ers, k, ha, hs⟩ := handleSave_201 h h201
  obtain ⟨_, es, he1, he2⟩ := ha
  have hev : (Request.post q env).events fl = toEventRecords env 0 es := by simp only [Request.events, he1]
  have hk := post_kept hl hi he1 (hev ▸ hq.data) (hev ▸ hq.ids)
  have hsz := ops_size hl hi rs hr
  simp only [imSave, Prod.mk.injEq] at hs
  rw [im_serve] at hs
  obtain ⟨n, g, h1, h2⟩ := C61_inmemory_partial unbound (rs.filterMap (Request.op fl))
    (fun op hop => by
      obtain ⟨r, hr1, hr2⟩ := List.mem_filterMap.mp hop
      exact (op_facts hl hi (hr r hr1) hr2).1)
    q.stream e none ers ⟨hq.path q env rfl, fun er her => (hk er (he2 ▸ her)).good⟩
    (by rw [he2, ← hev]; omega) k hs.2
  rw [hs.1, ← im_serve other] at h2
  refine ⟨n, g, es, he1, ?_⟩
  rw [hs', h2] at hnew
  rw [h2, hold.grpc, ← he2]
  exact hnew.grpc

/-- **C160**, from gRPC to HTTP: the events of a message that is answered without an error are what `/all-events.json`
shows behind the earlier events. -/
theorem C160_sent (hl : ∀ t u, fl t = some u → scanNum u = some (u, []))
    (hi : ∀ t u, fl t = some u → fl u = some u) (other : Err → Str) (rs : List Request) (hr : ∀ r ∈ rs, r.Given fl)
    (st : Str) (expected : Option Nat) (es : List PbEvent) (hq : (Request.message st expected es).Given fl)
    (hv : Valid st) (hse : es.all PbEvent.sendable = true)
    (hb : (rs.map (fun r => (r.events fl).length)).sum + ((Request.message st expected es).events fl).length < 2 ^ 64)
    (s' : IM.State) (k : Nat)
    (h : serverSave other (imSave (serializer unbound)) fl (imServe other fl rs) st expected es = (s', some (.ok k))) :
    ∃ n g ers, serverEvents fl es = .ok ers ∧
      readJson unbound (writeEvents .json (IM.events (serializer unbound) s' none 0)).body =
        ⟨(readJson unbound (writeEvents .json (IM.events (serializer unbound) (imServe other fl rs) none 0)).body).recs ++
          numbered st g n ers, none⟩ := by
  have hall : ∀ r ∈ rs ++ [Request.message st expected es], r.Given fl := by
    intro r h
    rcases List.mem_append.mp h with h | h
    · exact hr r h
    · rw [List.mem_singleton] at h; subst h; exact hq
  have hs' : imServe other fl (rs ++ [Request.message st expected es]) = s' := by
    unfold imServe at h ⊢
    rw [List.foldl_append]
    simp only [List.foldl_cons, List.foldl_nil, Request.handle, h, hv, hse, decide_true, Bool.and_self, if_true]
  obtain ⟨_, hnew⟩ := (C160_inmemory hl hi other _ hall (by simpa using hb)).1 0
  obtain ⟨_, hold⟩ := (C160_inmemory hl hi other rs hr (by omega)).1 0
  unfold serverSave at h
  cases hp : serverEvents fl es with
  | error t => simp [hp] at h
  | ok ers =>
    have hev : (Request.message st expected es).events fl = ers := by simp only [Request.events, hp]
    have hk := message_kept hl hi es hse hp (hev ▸ hq.data) (hev ▸ hq.ids)
    have hsz := ops_size hl hi rs hr
    simp only [hp, imSave, Prod.mk.injEq] at h
    rw [im_serve] at h
    have hout : (IM.saveEvents (serializer unbound) (IM.run (serializer unbound) (rs.filterMap (Request.op fl))) st expected
        none ers).out = .ok k := by
      have h2 := h.2
      split at h2 <;> simp_all
    obtain ⟨n, g, h1, h2⟩ := C61_inmemory_partial unbound (rs.filterMap (Request.op fl))
      (fun op hop => by
        obtain ⟨r, hr1, hr2⟩ := List.mem_filterMap.mp hop
        exact (op_facts hl hi (hr r hr1) hr2).1)
      st expected none ers ⟨hv, fun er her => (hk er her).good⟩ (by rw [← hev]; omega) k hout
    rw [h.1, ← im_serve other] at h2
    refine ⟨n, g, ers, rfl, ?_⟩
    rw [hs', h2] at hnew
    rw [h2, hold.json]
    exact hnew.json

/-! The premises can be met: a body with a number that `float64` does not hold, and a message. -/

theorem demoFl_twice : ∀ t u, demoFl t = some u → demoFl u = some u := by
  intro t u h
  unfold demoFl at h
  split at h
  · rw [← Option.some.inj h]; decide +kernel
  · rename_i hn
    split at h
    · rw [← Option.some.inj h]
      rename_i hs
      unfold demoFl
      rw [if_neg hn, if_pos hs]
    · simp at h

/-- `[{"aggregateType":"A","aggregateID":"1","eventType":"E","data":{"k":9007199254740993},"metadata":9007199254740993}]` -/
def demoBody : Str :=
  (Json.arr [.obj [(kAggregateType, .str [65]), (kAggregateID, .str [49]), (kEventType, .str [69]),
    (kData, .obj [([107], .num (Dec.natText (2 ^ 53 + 1)))]), (kMetadata, .num (Dec.natText (2 ^ 53 + 1)))]]).text

def demoPost : Request := .post ⟨tContentType, [], [65, 33, 49], demoBody⟩ (fun _ => ([117], 7))

def demoMessage : Request := .message [65, 33, 49] (some 1) [⟨[65], [49], [69], [123, 125], [], [118], 8⟩]

theorem demoPost_given : demoPost.Given demoFl where
  data := by decide +kernel
  ids := by decide +kernel
  path := by
    intro q env h
    injection h with h1 h2
    rw [← h1]
    decide

theorem demoMessage_given : demoMessage.Given demoFl where
  data := by decide +kernel
  ids := by decide +kernel
  path := by intro q env h; simp [demoMessage] at h

/-- Both are accepted, and both readers see two events, the first with the rounded number. -/
example :
    (readJson unbound (writeEvents .json (IM.events (serializer unbound)
      (imServe demoOther demoFl [demoPost, demoMessage]) none 0)).body).recs.map (fun r => (r.evType, r.seq)) =
        [([69], 1), ([69], 2)] ∧
    (Rem.events demoOther unbound demoFl (IM.events (serializer unbound)
      (imServe demoOther demoFl [demoPost, demoMessage]) none 0)).recs.map (fun r => r.metadata) =
        [Dec.natText (2 ^ 53), nullText] := by decide +kernel

/-- A record that did not come through an interface may read differently over gRPC: the Go program that holds the store
saves metadata with a number that `float64` does not hold. -/
theorem C160_direct :
    let er : EventRecord := { demoEr goodData with metadata := Dec.natText (2 ^ 53 + 1) }
    let it := IM.events (serializer unbound) (IM.run (serializer unbound) [.save [65, 33, 49] none none [er]]) none 0
    it.err = none ∧ it.recs.length = 1 ∧ readJson unbound (writeEvents .json it).body = ⟨it.recs, none⟩ ∧
      Rem.events demoOther unbound demoFl it ≠ ⟨it.recs, none⟩ := by
  decide +kernel

end RangeDB.Srv

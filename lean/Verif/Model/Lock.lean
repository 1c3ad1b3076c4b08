/-!
# Model of the stores' `sync.RWMutex` with iterators that hold the read lock

inmemory_store.go and leveldb_store.go use their `mux` in the same way. A read call takes the read lock
once per iterator it opens (inmemory_store.go:94, 103, 109, 123; leveldb_store.go:368, 410), starts a
goroutine and returns; the goroutine releases the lock when its records have been received or its context
is done (inmemory_store.go:139, leveldb_store.go:371, 413). A write call takes the write lock for its
whole body (inmemory_store.go:176-177, 237-286; leveldb_store.go:141-142, 212-213).

`sync.RWMutex` is Go's: writers exclude each other; a writer that has the turn first announces itself,
from then on new readers wait; it becomes active when the present readers have left; `Unlock` lets all
waiting readers in before the next writer can announce itself.

The content of the store is any type `σ`, what a read returns any function of it, and a write call any
sequence of changes of it: the theorems hold for whatever the stores do under the lock.
-/

namespace RangeDB.Lock

variable {σ ρ : Type}

/-- A write call: the changes it still has to make. -/
abbrev Writes (σ : Type) := List (σ → σ)

/-- The write side of the mutex. -/
inductive Phase (σ : Type) where
  | free
  | announced (ops : Writes σ)
  | active (ops : Writes σ)

/-- An iterator and its goroutine. -/
structure It (σ ρ : Type) where
  /-- which records the goroutine would send, for each content of the store, and whether it then sends
  an error (leveldb_store.go:384, 398, 432; inmemory_store.go:145, 153) -/
  query : σ → List ρ × Bool
  /-- how many it has sent -/
  pos : Nat
  /-- what the consumer has received -/
  out : List ρ
  /-- the goroutine is running and holds the read lock -/
  isOpen : Bool
  /-- it has run to its end (and not been cancelled) -/
  complete : Bool
  /-- history: the content when the lock was taken -/
  start : σ

/-- A read call. -/
structure Call (σ ρ : Type) where
  /-- the iterators it still has to open; when there are none the call has returned -/
  todo : List (σ → List ρ × Bool)
  /-- it waits in `RLock` -/
  waiting : Bool
  /-- the iterators it has opened -/
  its : List (It σ ρ)

/-- The store and all calls. -/
structure State (σ ρ : Type) where
  content : σ
  phase : Phase σ
  /-- write calls that wait for their turn -/
  queue : List (Writes σ)
  calls : List (Call σ ρ)

/-- Atomic actions. -/
inductive Label (σ ρ : Type) where
  /-- somebody calls a write method -/
  | newWriter (ops : Writes σ)
  /-- somebody calls a read method that opens these iterators -/
  | newCall (queries : List (σ → List ρ × Bool))
  /-- write call `i` of the queue gets the turn -/
  | announce (i : Nat)
  /-- the announced writer finds no reader -/
  | activate
  /-- the active writer makes its next change -/
  | write
  /-- the active writer unlocks; all waiting readers get in -/
  | unlock
  /-- read call `c` calls `RLock` for its next iterator -/
  | rlock (c : Nat)
  /-- iterator `i` of call `c` hands a record to the consumer -/
  | emit (c i : Nat)
  /-- iterator `i` of call `c` has no more records: its goroutine ends, after its error, if any, has been
  received -/
  | close (c i : Nat)
  /-- the context of call `c` is cancelled -/
  | cancel (c : Nat)

/-- The initial state. -/
def init (x : σ) : State σ ρ := ⟨x, .free, [], []⟩

/-- A read call gets the read lock for its next iterator. -/
def Call.acquire (x : σ) (c : Call σ ρ) : Call σ ρ :=
  match c.todo with
  | [] => c
  | q :: rest => ⟨rest, false, c.its ++ [⟨q, 0, [], true, false, x⟩]⟩

/-- A waiting call gets the lock when the writer unlocks. -/
def Call.wake (x : σ) (c : Call σ ρ) : Call σ ρ := if c.waiting then c.acquire x else c

/-- Does some goroutine hold the read lock? -/
def State.held (s : State σ ρ) : Bool := s.calls.any (fun c => c.its.any (fun it => it.isOpen))

/-- Replace call `c`. -/
def State.setCall (s : State σ ρ) (c : Nat) (x : Call σ ρ) : State σ ρ :=
  { s with calls := s.calls.set c x }

/-- Replace iterator `i` of a call. -/
def Call.setIt (call : Call σ ρ) (i : Nat) (it : It σ ρ) : Call σ ρ :=
  { call with its := call.its.set i it }

/-- The goroutine's context is done. It ends if it is waiting in `PublishRecordOrCancel`; the sends of an
error are plain channel sends (inmemory_store.go:145, 153; leveldb_store.go:384, 398, 432), which do not
look at the context. -/
def It.stop (x : σ) (it : It σ ρ) : It σ ρ :=
  if it.pos < (it.query x).1.length then { it with isOpen := false } else it

/-- One action; `none` if it is not possible. -/
def step (s : State σ ρ) : Label σ ρ → Option (State σ ρ)
  | .newWriter ops => some { s with queue := s.queue ++ [ops] }
  | .newCall qs => some { s with calls := s.calls ++ [⟨qs, false, []⟩] }
  | .announce i =>
    match s.phase, s.queue[i]? with
    | .free, some ops => some { s with phase := .announced ops, queue := s.queue.eraseIdx i }
    | _, _ => none
  | .activate =>
    match s.phase with
    | .announced ops => if s.held then none else some { s with phase := .active ops }
    | _ => none
  | .write =>
    match s.phase with
    | .active (f :: ops) => some { s with content := f s.content, phase := .active ops }
    | _ => none
  | .unlock =>
    match s.phase with
    | .active [] => some { s with phase := .free, calls := s.calls.map (Call.wake s.content) }
    | _ => none
  | .rlock c =>
    match s.calls[c]? with
    | none => none
    | some call =>
      if call.todo.isEmpty ∨ call.waiting then none
      else
        match s.phase with
        | .free => some (s.setCall c (call.acquire s.content))
        | _ => some (s.setCall c { call with waiting := true })
  | .emit c i =>
    match s.calls[c]? with
    | none => none
    | some call =>
      match call.its[i]? with
      | none => none
      | some it =>
        -- the channel is unbuffered: the consumer receives only once the call has returned
        if it.isOpen ∧ call.todo.isEmpty then
          match (it.query s.content).1[it.pos]? with
          | none => none
          | some r =>
            some (s.setCall c (call.setIt i { it with pos := it.pos + 1, out := it.out ++ [r] }))
        else none
  | .close c i =>
    match s.calls[c]? with
    | none => none
    | some call =>
      match call.its[i]? with
      | none => none
      | some it =>
        if it.isOpen ∧ (it.query s.content).1.length ≤ it.pos ∧
            ((it.query s.content).2 = true → call.todo.isEmpty) then
          some (s.setCall c (call.setIt i { it with isOpen := false, complete := true }))
        else none
  | .cancel c =>
    match s.calls[c]? with
    | none => none
    | some call =>
      some (s.setCall c { call with its := call.its.map (It.stop s.content) })

/-- An execution; `none` if some action is not possible. -/
def exec : State σ ρ → List (Label σ ρ) → Option (State σ ρ)
  | s, [] => some s
  | s, l :: ls =>
    match step s l with
    | none => none
    | some s' => exec s' ls

end RangeDB.Lock

import Verif.Model.LevelDB

/-!
# Model: the life of a LevelDB directory, with restarts and crashes

Several processes, one after the other, open the same directory (provider/leveldbstore/leveldb_store.go:80-100). A process may be
killed at any moment, also within a call. Trusted: what LevelDB has committed (leveldb_store.go:187, 258) is on the disk, and what
it has not is gone when the directory is opened again; LevelDB is not in /repo.
-/

namespace RangeDB.LD

/-- A part of the life of the directory. -/
inductive Part where
  /-- a call that returns, or hangs (C14) -/
  | call (op : Op)
  /-- the process ends while no call is at work, and another one opens the directory -/
  | restart
  /-- the process is killed when the call has taken `n` steps (`Proc.step`, `DelProc.step`), and another one opens the
  directory -/
  | crash (op : Op) (n : Nat)

/-- The store after a process was killed `n` steps into a call and the directory was opened again (leveldb_store.go:80-100). A
call that waits, for the lock or for the transaction of a failed delete (C14), has not begun. -/
def crashed (z : Serializer) (s : State) (op : Op) (n : Nat) : State :=
  if s.muxHeld || s.txOpen then reopen s.db
  else
    match op with
    | .save st expected cancelAt ers => reopen (saveSteps z st expected cancelAt ers s.db n).disk
    | .delete st expected cancelled =>
      if cancelled then reopen s.db else reopen (deleteSteps z st expected s.db n).disk

/-- (leveldb_store.go:80-100, 133-193, 203-274) -/
def Part.step (z : Serializer) (s : State) : Part → State
  | .call op => LD.step z s op
  | .restart => reopen s.db
  | .crash op n => crashed z s op n

/-- The store after its life so far. -/
def live (z : Serializer) (parts : List Part) : State := parts.foldl (Part.step z) init

end RangeDB.LD

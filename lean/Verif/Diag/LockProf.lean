/-
Model of `MutexProfilerWrapper` (stingraykit/thread/LockProfiler.h 17-64) around a recursive mutex (`PosixMutex`,
thread/posix/PosixThreadEngine.cpp 255-330), and of a wait of its owner on a condition variable (PosixConditionVariable.cpp 102-118, which unlocks and
locks the mutex underneath, not through the wrapper).

Times are microseconds of the monotonic clock, below 2^63.  A step is a call that returns; a `Lock` that has to wait is not possible until it returns.
`acquired` and `clock` are ghosts: since when the owner has had the mutex, and the time of the last step.
-/
namespace Verif.Diag.LockProf

/-- The mutex and the profiler, LockProfiler.h 22-23. -/
structure St where
  owner : Option Nat
  depth : Nat
  /-- `_elapsed` -/
  started : Int
  enabled : Bool
  acquired : Int
  clock : Int
  deriving DecidableEq

/-- A new mutex at time `now`, LockProfiler.h 26. -/
def init (now : Int) : St := ⟨none, 0, now, true, now, now⟩

/-- The calls by thread `t` at time `now`, LockProfiler.h 28-63. -/
inductive Act where
  | lock (t : Nat) (now : Int)
  | tryLock (t : Nat) (now : Int)
  | unlock (t : Nat) (now : Int)
  | shutUp (t : Nat) (now : Int)
  /-- the owner goes to wait on a condition variable -/
  | wait (t : Nat) (now : Int)
  /-- and comes back with the mutex -/
  | back (t : Nat) (now : Int)
  deriving DecidableEq

/-- What a step shows: the return value of `TryLock`, or the line printed.  LockProfiler.h 46-59. -/
inductive Out where
  | none
  | tried (r : Bool)
  | printed (ms : Int)
  deriving DecidableEq

/-- Can thread `t` lock the mutex now?  PosixThreadEngine.cpp 259. -/
def St.free (s : St) (t : Nat) : Bool := s.owner = none || s.owner = some t

/-- `LockType::Lock` with `Restart`, LockProfiler.h 35-39. -/
def St.take (s : St) (t : Nat) (now : Int) : St :=
  { s with owner := some t, depth := s.depth + 1, started := now, acquired := if s.owner = none then now else s.acquired, clock := now }

/-- `ElapsedMilliseconds`, ElapsedTime.cpp 30-35. -/
def elapsed (s : St) (now : Int) : Int := (now - s.started).tdiv 1000

/-- `LockType::Unlock`, LockProfiler.h 62. -/
def St.drop (s : St) (now : Int) : St :=
  { s with owner := if s.depth = 1 then none else s.owner, depth := s.depth - 1, clock := now }

/-- What `Unlock` prints, LockProfiler.h 53-61. -/
def report (threshold : Int) (s : St) (now : Int) : Out :=
  if s.enabled then if elapsed s now ≥ threshold then .printed (elapsed s now) else .none else .none

/-- One step, LockProfiler.h 28-63; `none`: not possible (now). -/
def step (threshold : Int) (s : St) : Act → Option (Out × St)
  | .lock t now => if s.clock ≤ now ∧ s.free t = true then some (.none, s.take t now) else none
  | .tryLock t now =>
    if s.clock ≤ now then if s.free t then some (.tried true, s.take t now) else some (.tried false, { s with clock := now }) else none
  | .unlock t now => if s.clock ≤ now ∧ s.owner = some t then some (report threshold s now, s.drop now) else none
  | .shutUp t now => if s.clock ≤ now ∧ s.free t = true then some (.none, { s with enabled := false, clock := now }) else none
  | .wait t now => if s.clock ≤ now ∧ s.owner = some t ∧ s.depth = 1 then some (.none, { s with owner := none, depth := 0, clock := now }) else none
  | .back t now => if s.clock ≤ now ∧ s.owner = none then some (.none, { s with owner := some t, depth := 1, acquired := now, clock := now }) else none

/-- Steps one after another, LockProfiler.h 28-63. -/
def run (threshold : Int) (s : St) : List Act → Option St
  | [] => some s
  | a :: as => match step threshold s a with | none => none | some (_, s') => run threshold s' as

end Verif.Diag.LockProf

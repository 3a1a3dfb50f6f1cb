import Verif.Common
/-
Model of thread/posix/PosixSemaphore.cpp (18-62) and thread/GenericSemaphoreLock.h (22-42): a semaphore, the threads that wait for it or hold a lock of it, and signals.
`sem_wait`, `sem_timedwait` and `sem_post` are those of POSIX.
-/
namespace Verif.Thread.Sem

/-- `SEM_VALUE_MAX`, for PosixSemaphore.cpp 20, 60. -/
def maxValue : Nat := 2147483647

/-- What a thread is doing with the semaphore, PosixSemaphore.cpp 27-56, GenericSemaphoreLock.h 31-41. -/
inductive Pc where
  | idle
  /-- in `Wait` -/
  | waiting
  /-- in `TimedWait` -/
  | timed
  /-- in the constructor of a lock -/
  | locking
  /-- between the constructor and the destructor of a lock -/
  | holding
deriving DecidableEq, Repr

/-- How a call ended, PosixSemaphore.cpp 27-62, GenericSemaphoreLock.h 31-41. -/
inductive Ev where
  /-- `Wait` returned, or `TimedWait` returned true -/
  | got (i : Nat)
  /-- `TimedWait` returned false -/
  | timedOut (i : Nat)
  /-- a wait threw a `SystemException` -/
  | threw (i : Nat)
  | locked (i : Nat)
  | unlocked (i : Nat)
  | signalled
  /-- `Signal` threw -/
  | signalFailed
  /-- the destructor of a lock could not signal: `STINGRAYKIT_FATAL` -/
  | fatal
deriving DecidableEq, Repr

/-- The semaphore, its threads and what has happened.  For PosixSemaphore.cpp 18-62. -/
structure State where
  count : Nat
  pcs : List Pc
  log : List Ev
deriving DecidableEq, Repr

/-- `PosixSemaphore(count)`, PosixSemaphore.cpp 18-22. -/
def init (count threads : Nat) : State := ⟨count, List.replicate threads .idle, []⟩

/-- A step, PosixSemaphore.cpp 27-62, GenericSemaphoreLock.h 31-41. -/
inductive Act where
  | wait (i : Nat)
  | timedWait (i : Nat)
  | lock (i : Nat)
  /-- the wait of a thread takes the semaphore -/
  | take (i : Nat)
  /-- a signal handler has interrupted the wait: `EINTR` -/
  | interrupt (i : Nat)
  | timeout (i : Nat)
  | signal
  | unlock (i : Nat)
deriving DecidableEq, Repr

/-- The step; `none` if it cannot be made.  For PosixSemaphore.cpp 27-62, GenericSemaphoreLock.h 31-41. -/
def step (s : State) : Act → Option State
  | .wait i => if s.pcs[i]? = some .idle then some { s with pcs := s.pcs.set i .waiting } else none
  | .timedWait i => if s.pcs[i]? = some .idle then some { s with pcs := s.pcs.set i .timed } else none
  | .lock i => if s.pcs[i]? = some .idle then some { s with pcs := s.pcs.set i .locking } else none
  | .take i =>
    if s.count = 0 then none
    else if s.pcs[i]? = some .locking then some ⟨s.count - 1, s.pcs.set i .holding, s.log ++ [.locked i]⟩
    else if s.pcs[i]? = some .waiting ∨ s.pcs[i]? = some .timed then some ⟨s.count - 1, s.pcs.set i .idle, s.log ++ [.got i]⟩
    else none
  | .interrupt i =>
    if s.pcs[i]? = some .waiting ∨ s.pcs[i]? = some .timed ∨ s.pcs[i]? = some .locking then some { s with pcs := s.pcs.set i .idle, log := s.log ++ [.threw i] } else none
  | .timeout i => if s.pcs[i]? = some .timed then some { s with pcs := s.pcs.set i .idle, log := s.log ++ [.timedOut i] } else none
  | .signal => if s.count < maxValue then some { s with count := s.count + 1, log := s.log ++ [.signalled] } else some { s with log := s.log ++ [.signalFailed] }
  | .unlock i =>
    if s.pcs[i]? = some .holding then
      (if s.count < maxValue then some ⟨s.count + 1, s.pcs.set i .idle, s.log ++ [.unlocked i]⟩ else some ⟨s.count, s.pcs.set i .idle, s.log ++ [.fatal]⟩)
    else none

/-- A schedule, PosixSemaphore.cpp 27-62. -/
def run (s : State) : List Act → Option State
  | [] => some s
  | a :: as =>
    match step s a with
    | none => none
    | some s' => run s' as

end Verif.Thread.Sem

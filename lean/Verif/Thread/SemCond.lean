/-
Model of `BasicConditionVariable` (/repo/stingraykit/thread/BasicConditionVariable.h), the condition variable made of a counter of waiters and a
semaphore (used where the system has none, ConditionVariable.h 14-23), together with the mutex of its user.

A step is the code between two points at which another thread may come in between: counting oneself (under `_waitersMutex`), unlocking the
user's mutex, getting through the semaphore or its timeout, locking the user's mutex again, `Signal`, `Broadcast` (under `_waitersMutex`).
`timeouts` is a ghost: how many waits have ended by a timeout.

Simplifications: the counter does not wrap; the semaphore is a counter (posix/PosixSemaphore.cpp 27-62, system failures not modelled); a wait
without timeout never ends by one.
-/
namespace Verif.Thread.SemCond

/-- Where a thread is: outside, owns the user's mutex, has counted itself (and still owns the mutex), waits for the semaphore (may it time
out?), has its answer and wants the mutex back, has returned from the wait with the answer (and owns the mutex).
BasicConditionVariable.h 43-63. -/
inductive Phase
  | out
  | inside
  | counted (timed : Bool)
  | blocked (timed : Bool)
  | woken (res : Bool)
  | returned (res : Bool)
  deriving DecidableEq

/-- The counter, the semaphore, the user's mutex, the threads.  BasicConditionVariable.h 32-34. -/
structure St where
  count : Nat
  sem : Nat
  locked : Bool
  threads : List Phase
  timeouts : Nat
  deriving DecidableEq

/-- After construction, with `n` threads outside.  BasicConditionVariable.h 37. -/
def init (n : Nat) : St := ⟨0, 0, false, List.replicate n .out, 0⟩

/-- The steps, BasicConditionVariable.h 43-87. -/
inductive Act
  | lock (t : Nat)
  | unlock (t : Nat)
  /-- `Wait` (`timed`: `TimedWait`) begins: the thread counts itself -/
  | wait (t : Nat) (timed : Bool)
  /-- `MutexUnlock` -/
  | letGo (t : Nat)
  /-- the semaphore lets it through -/
  | wake (t : Nat)
  | timeout (t : Nat)
  /-- `~MutexUnlock` -/
  | relock (t : Nat)
  /-- any thread, with or without the mutex -/
  | signal
  | broadcast
  deriving DecidableEq

/-- Thread `t` is in phase `p`, BasicConditionVariable.h 43-63. -/
def St.at (s : St) (t : Nat) (p : Phase) : St := { s with threads := s.threads.set t p }

/-- One step, BasicConditionVariable.h 43-87; `none`: not possible. -/
def step (s : St) : Act → Option St
  | .lock t =>
    match s.threads[t]? with
    | some .out => if s.locked then none else some ({ s with locked := true }.at t .inside)
    | _ => none
  | .unlock t =>
    match s.threads[t]? with
    | some .inside => some ({ s with locked := false }.at t .out)
    | some (.returned _) => some ({ s with locked := false }.at t .out)
    | _ => none
  | .wait t timed =>
    match s.threads[t]? with
    | some .inside => some ({ s with count := s.count + 1 }.at t (.counted timed))
    | some (.returned _) => some ({ s with count := s.count + 1 }.at t (.counted timed))
    | _ => none
  | .letGo t =>
    match s.threads[t]? with
    | some (.counted timed) => some ({ s with locked := false }.at t (.blocked timed))
    | _ => none
  | .wake t =>
    match s.threads[t]? with
    | some (.blocked _) => if s.sem = 0 then none else some ({ s with sem := s.sem - 1 }.at t (.woken true))
    | _ => none
  | .timeout t =>
    match s.threads[t]? with
    | some (.blocked true) => some ({ s with timeouts := s.timeouts + 1 }.at t (.woken false))
    | _ => none
  | .relock t =>
    match s.threads[t]? with
    | some (.woken res) => if s.locked then none else some ({ s with locked := true }.at t (.returned res))
    | _ => none
  | .signal => some (if s.count = 0 then s else { s with sem := s.sem + 1, count := s.count - 1 })
  | .broadcast => some { s with sem := s.sem + s.count, count := 0 }

/-- Steps one after another, BasicConditionVariable.h 43-87. -/
def run (s : St) : List Act → Option St
  | [] => some s
  | a :: as => match step s a with | none => none | some s' => run s' as

end Verif.Thread.SemCond

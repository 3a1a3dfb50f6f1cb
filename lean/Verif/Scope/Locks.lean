/-
Model of `GenericMutexLock` and `GenericMutexUnlock` (thread/GenericMutexLock.h) with the recursive mutex of thread/posix/PosixThreadEngine.h 40-53 and PosixThreadEngine.cpp 255-262,
281-346: any number of threads, each in nested scopes that hold guards.  `Lock` waits as long as it takes: the waits of three seconds in its loop and the messages are not modelled, nor is
a recursion deeper than the mutex can count.
-/
namespace Verif.Scope.Locks

/-- A guard in a scope: `MutexLock` or `MutexUnlock`.  For GenericMutexLock.h 22-71. -/
inductive Guard where
  | lock
  | unlock
deriving DecidableEq, Repr

/-- What happens: a thread gets the mutex, gives it back, does something in a scope where it has locked.  For GenericMutexLock.h 34-70. -/
inductive Ev where
  | got (t : Nat)
  | gave (t : Nat)
  | used (t : Nat)
deriving DecidableEq, Repr

/-- The owner of the recursive mutex and its depth (PosixThreadEngine.cpp 259), the guards of every thread, the innermost first, and what has happened.  For GenericMutexLock.h 31, 53. -/
structure State where
  owner : Option Nat
  depth : Nat
  guards : List (List Guard)
  log : List Ev
deriving DecidableEq, Repr

/-- How a step ends: it cannot be made (yet); it is made; with an exception; with the end of the program.  For GenericMutexLock.h 39-44, 65-70. -/
inductive Res where
  | no
  | ok (s : State)
  | error (s : State)
  | fatal
deriving DecidableEq, Repr

/-- `pthread_mutex_lock` of thread `t`, PosixThreadEngine.h 40-46: `none` while another thread has the mutex. -/
def lock (s : State) (t : Nat) : Option State :=
  match s.owner with
  | none => some { s with owner := some t, depth := 1, log := s.log ++ [.got t] }
  | some o => if o = t then some { s with depth := s.depth + 1 } else none

/-- `pthread_mutex_unlock` of thread `t`, PosixThreadEngine.h 48-53: `none` is the error of a thread that has not locked it. -/
def unlock (s : State) (t : Nat) : Option State :=
  match s.owner with
  | none => none
  | some o =>
    if o = t then
      (if s.depth = 1 then some { s with owner := none, depth := 0, log := s.log ++ [.gave t] } else some { s with depth := s.depth - 1 })
    else none

/-- A step of thread `t`: a guard is constructed; the innermost scope is left, whatever way; a statement.  For GenericMutexLock.h 34-70. -/
inductive Act where
  | lock (t : Nat)
  | unlock (t : Nat)
  | leave (t : Nat)
  | use (t : Nat)
deriving DecidableEq, Repr

/-- The scopes of `t` say that it has locked: more locks than unlocks.  For GenericMutexLock.h 22-71. -/
def protected_ (guards : List Guard) : Bool := decide (guards.count .unlock < guards.count .lock)

/-- The guards of thread `t` are now `gs`.  For GenericMutexLock.h 22-71. -/
def setGuards (s : State) (t : Nat) (gs : List Guard) : State := { s with guards := s.guards.set t gs }

/-- A step, GenericMutexLock.h 34-70. -/
def step (s : State) : Act → Res
  | .lock t =>
    match s.guards[t]? with
    | none => .no
    | some gs =>
      (match lock s t with
      | none => .no
      | some s' => .ok (setGuards s' t (.lock :: gs)))
  | .unlock t =>
    match s.guards[t]? with
    | none => .no
    | some gs =>
      (match unlock s t with
      | none => .error s
      | some s' => .ok (setGuards s' t (.unlock :: gs)))
  | .leave t =>
    match s.guards[t]? with
    | some (.lock :: gs) =>
      (match unlock s t with
      | none => .fatal
      | some s' => .ok (setGuards s' t gs))
    | some (.unlock :: gs) =>
      (match lock s t with
      | none => .no
      | some s' => .ok (setGuards s' t gs))
    | _ => .no
  | .use t =>
    match s.guards[t]? with
    | none => .no
    | some gs => if protected_ gs then .ok { s with log := s.log ++ [.used t] } else .ok s

/-- A history: an exception leaves the state as it is, and the history goes on.  For GenericMutexLock.h 22-71. -/
def run (s : State) : List Act → Res
  | [] => .ok s
  | a :: as =>
    match step s a with
    | .ok s' => run s' as
    | .error s' => run s' as
    | r => r

/-- `n` threads, no guards.  For GenericMutexLock.h 22-71. -/
def init (n : Nat) : State := ⟨none, 0, List.replicate n [], []⟩

end Verif.Scope.Locks

/-
Model of interruption points: `EnableInterruptionPoints` (Thread.cpp 21-33, PosixThreadEngine.cpp 661-674), `DisableInterruptionPoints` (DisableInterruptionPoints.h 21-52) and the handlers of
signals, which run with `DisableThreadCancellationToken` (IThreadEngine.h 92-107, SignalHandler.h 66-70).  Signals which arrive while `TLSData` is being
made are not modelled.  The code of a thread is a tree of scopes, run by the one thread; requests to interrupt
it (PosixThreadEngine.cpp 482-498) are part of the tree: each point says whether one is pending there.  A point which interrupts unwinds like an exception.
-/
namespace Verif.Thread.Interrupt

/-- What there is of a thread: the cancel state of the system, and the counter in its `TLSData`, which is made when asked for first (PosixThreadEngine.cpp 703-708).  For IThreadEngine.h 72-95. -/
structure Thread where
  cancel : Bool
  disabled : Int
deriving DecidableEq, Repr

/-- `ThreadEngine::EnableInterruptionPoints`, PosixThreadEngine.cpp 667-674: the new state of the thread and the old value. -/
def setState (t : Thread) (v : Bool) : Thread × Bool := ({ t with cancel := v }, t.cancel)

/-- The members of `EnableInterruptionPoints`, Thread.h 54-55. -/
structure Scope where
  enabled : Bool
  prev : Bool

/-- `IsThreadCancellationEnabled`, IThreadEngine.h 92. -/
def changeable (t : Thread) : Bool := decide (t.disabled ≤ 0)

/-- The constructor, Thread.cpp 21-27. -/
def enter (t : Thread) (v : Bool) : Thread × Scope :=
  if changeable t then ((setState t v).1, ⟨true, (setState t v).2⟩) else (t, ⟨false, false⟩)

/-- The destructor, Thread.cpp 29-33. -/
def leave (t : Thread) (s : Scope) : Thread := if s.enabled then (setState t s.prev).1 else t

/-- `DisableThreadCancellation` and `EnableThreadCancellation` by the token, IThreadEngine.h 93-106. -/
def count (t : Thread) (d : Int) : Thread := { t with disabled := t.disabled + d }

/-- Code of a thread: nothing; an interruption point, and whether a request is pending; throwing; one after the other; a scope of `EnableInterruptionPoints`; the handler of a signal which arrives.
For Thread.cpp 21-56. -/
inductive Code where
  | nop
  | point (pending : Bool)
  | throw
  | seq (a b : Code)
  | scope (v : Bool) (body : Code)
  | signal (handler : Code)
deriving DecidableEq, Repr

/-- What was seen: for each interruption point passed, whether it could interrupt; whether the code was left by an exception; whether the thread is being interrupted.  For Thread.cpp 21-56. -/
structure Seen where
  points : List Bool
  threw : Bool
  interrupted : Bool
deriving DecidableEq, Repr

/-- Runs code: Thread.cpp 21-56, SignalHandler.h 66-70. -/
def run (t : Thread) : Code → Thread × Seen
  | .nop => (t, ⟨[], false, false⟩)
  | .point p => (t, ⟨[t.cancel], false, t.cancel && p⟩)
  | .throw => (t, ⟨[], true, false⟩)
  | .seq a b =>
    if (run t a).2.threw || (run t a).2.interrupted then run t a
    else ((run (run t a).1 b).1, ⟨(run t a).2.points ++ (run (run t a).1 b).2.points, (run (run t a).1 b).2.threw, (run (run t a).1 b).2.interrupted⟩)
  | .scope v b => (leave (run (enter t v).1 b).1 (enter t v).2, (run (enter t v).1 b).2)
  | .signal b => (count (run (count t 1) b).1 (-1), (run (count t 1) b).2)

end Verif.Thread.Interrupt

/-
Model of `PhoenixSingleton` (/repo/stingraykit/PhoenixSingleton.h): the object is made by the first call of `Instance`, deleted by a
handler given to `atexit`, and made again by a later call.

A step is the code between two points at which another thread may come in between: the unprotected load (line 36), and the two bodies under
the spinlock (lines 39-46 and 56-60), which are one step each.  Objects get the numbers 0, 1, ... and numbers are not reused.  `live` is a
ghost: is object `o` still there; `pending` is the number of handlers given to `atexit` that have not yet run.

Simplification: sequentially consistent atomics; the constructor of `T` does not call `Instance` (that would be a deadlock).
-/
namespace Verif.Single.Phoenix

/-- Where a call is: line 36, line 39, returned with a reference to object `o`, left by an exception of the constructor.
PhoenixSingleton.h 34-48. -/
inductive Phase
  | start
  | slow
  | returned (o : Nat)
  | failed
  deriving DecidableEq

/-- The static variables, the calls ever made.  PhoenixSingleton.h 51-52. -/
structure St where
  inst : Option Nat
  calls : List Phase
  live : List Bool
  pending : Nat
  aborted : Bool
  deriving DecidableEq

/-- At the start of the program, PhoenixSingleton.h 64-65. -/
def init : St := ⟨none, [], [], 0, false⟩

/-- The steps, PhoenixSingleton.h 34-61. -/
inductive Act
  /-- a thread calls `Instance` -/
  | call
  /-- call `c` goes one step further; if it has to make an object, does the constructor throw? -/
  | go (c : Nat) (throws : Bool)
  /-- the program, while it exits, runs a handler -/
  | atexit
  deriving DecidableEq

/-- One step of a call, PhoenixSingleton.h 36-47. -/
def go (s : St) (c : Nat) (throws : Bool) : Phase → Option St
  | .start =>
    match s.inst with
    | some o => some { s with calls := s.calls.set c (.returned o) }
    | none => some { s with calls := s.calls.set c .slow }
  | .slow =>
    match s.inst with
    | some o => some { s with calls := s.calls.set c (.returned o) }
    | none =>
      if throws then some { s with calls := s.calls.set c .failed }
      else some { s with inst := some s.live.length, calls := s.calls.set c (.returned s.live.length), live := s.live ++ [true], pending := s.pending + 1 }
  | .returned _ => none
  | .failed => none

/-- One step, PhoenixSingleton.h 34-61; `none`: not possible. -/
def step (s : St) : Act → Option St
  | .call => some { s with calls := s.calls ++ [.start] }
  | .go c throws =>
    match s.calls[c]? with
    | some p => go s c throws p
    | none => none
  | .atexit =>
    if s.pending = 0 then none
    else match s.inst with
      | some o => some { s with inst := none, live := s.live.set o false, pending := s.pending - 1 }
      | none => some { s with aborted := true, pending := s.pending - 1 }

/-- Steps one after another, PhoenixSingleton.h 34-61. -/
def run (s : St) : List Act → Option St
  | [] => some s
  | a :: as => match step s a with | none => none | some s' => run s' as

end Verif.Single.Phoenix

/-
Model of `Thread::Sleep` and `Thread::SleepMicroseconds` (PosixThreadEngine.h 69-71, PosixThreadEngine.cpp 643-658).  What `nanosleep` does each time is a list of events; the kernel reports the
time not slept exactly.  Interruption of the thread while it sleeps is not modelled.
-/
namespace Verif.Thread.Sleep

/-- `timespec`, PosixThreadEngine.cpp 645-646. -/
structure Timespec where
  sec : Nat
  nsec : Nat
deriving DecidableEq, Repr

/-- The time in nanoseconds.  For PosixThreadEngine.cpp 645-646. -/
def Timespec.nanos (t : Timespec) : Nat := t.sec * 1000000000 + t.nsec

/-- How a `nanosleep` ends: the time is over, a little late; with an error, after some time.  For PosixThreadEngine.cpp 651-657. -/
inductive Event where
  | over (late : Nat)
  | error (errno : Nat) (slept : Nat)
deriving DecidableEq, Repr

/-- `EINTR`, PosixThreadEngine.cpp 653. -/
def eintr : Nat := 4

/-- How the call ends: returns or throws an error number, after so many nanoseconds; sleeps still.  For PosixThreadEngine.cpp 643-658. -/
inductive Out where
  | ok (slept : Nat)
  | threw (errno : Nat) (slept : Nat)
  | asleep (slept : Nat)
deriving DecidableEq, Repr

/-- `req`, PosixThreadEngine.cpp 648-649. -/
def request (us : Nat) : Timespec := ⟨us / 1000000, us % 1000000 * 1000⟩

/-- `rem` after `slept` nanoseconds of `req`: PosixThreadEngine.cpp 651. -/
def remaining (req : Timespec) (slept : Nat) : Timespec := ⟨(req.nanos - slept) / 1000000000, (req.nanos - slept) % 1000000000⟩

/-- The loop, PosixThreadEngine.cpp 651-657; `total` was slept before. -/
def loop (req : Timespec) (total : Nat) : List Event → Out
  | [] => .asleep total
  | .over late :: _ => .ok (total + req.nanos + late)
  | .error e slept :: es => if e ≠ eintr then .threw e (total + slept) else loop (remaining req slept) (total + slept) es

/-- `SleepMicroseconds`, PosixThreadEngine.cpp 643-658. -/
def sleepMicroseconds (us : Nat) (es : List Event) : Out := loop (request us) 0 es

/-- `Sleep`, PosixThreadEngine.h 69-70: 64 bits. -/
def sleep (ms : Nat) (es : List Event) : Out := sleepMicroseconds (1000 * ms % 2 ^ 64) es

end Verif.Thread.Sleep

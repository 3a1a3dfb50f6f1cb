/-
Model of time/posix/utils.h 21-63 (sums and differences of `timespec`), of sleeping (thread/posix/PosixThreadEngine.cpp 643-658,
thread/Thread.h 132-134) and of the deadlines of timed waits (thread/posix/PosixConditionVariable.cpp 128-133, PosixSemaphore.cpp 33-37).
`time_t` and `long` are 64 bits wide.  A signed overflow is `none`.
-/
namespace Verif.Time.Timespec

/-- `timespec`, time/posix/utils.h 21-63. -/
structure Timespec where
  sec : Int
  nsec : Int
deriving DecidableEq, Repr

/-- A value of a signed type of 64 bits, time/posix/utils.h 23. -/
def fits (x : Int) : Bool := -9223372036854775808 ≤ x && x ≤ 9223372036854775807

/-- Store both members if they fit, time/posix/utils.h 28-29. -/
def checked (sec nsec : Int) : Option Timespec := if fits sec && fits nsec then some ⟨sec, nsec⟩ else none

/-- Bring the nanoseconds into their range, time/posix/utils.h 32-41. -/
def carry (t : Timespec) : Option Timespec :=
  if t.nsec ≥ 1000000000 then checked (t.sec + t.nsec.tdiv 1000000000) (t.nsec.tmod 1000000000)
  else if t.nsec < 0 then checked (t.sec + (t.nsec.tdiv 1000000000 - 1)) (1000000000 + t.nsec.tmod 1000000000)
  else some t

/-- `timespec_add` with a duration in microseconds, time/posix/utils.h 21-42; `Abs` of the least number overflows (24). -/
def addDuration (t : Timespec) (us : Int) : Option Timespec :=
  if us = -9223372036854775808 then none
  else if us.natAbs < 1000000 then (checked t.sec (t.nsec + us * 1000)).bind carry
  else (checked (t.sec + us.tdiv 1000000) (t.nsec + us.tmod 1000000 * 1000)).bind carry

/-- The loop, time/posix/utils.h 49-50; the number of its rounds is bounded by the nanoseconds. -/
def reduce : Nat → Timespec → Option Timespec
  | 0, t => some t
  | k + 1, t => if t.nsec ≥ 1000000000 then (checked (t.sec + 1) (t.nsec - 1000000000)).bind (reduce k) else some t

/-- `timespec_add` with another `timespec`, time/posix/utils.h 45-51. -/
def add (t summand : Timespec) : Option Timespec :=
  (checked (t.sec + summand.sec) (t.nsec + summand.nsec)).bind fun r => reduce (r.nsec.toNat / 1000000000) r

/-- `timespec_sub`, time/posix/utils.h 54-63. -/
def sub (minuend subtrahend : Timespec) : Option Timespec :=
  if minuend.nsec < subtrahend.nsec then
    (checked (minuend.sec - 1) (minuend.nsec + 1000000000)).bind fun m => checked (m.sec - subtrahend.sec) (m.nsec - subtrahend.nsec)
  else checked (minuend.sec - subtrahend.sec) (minuend.nsec - subtrahend.nsec)

/-! ### Sleeping -/

/-- What `nanosleep` does: it sleeps the whole time and perhaps longer; a signal wakes it after some time (it then tells the rest); it fails.
For PosixThreadEngine.cpp 651-653. -/
inductive Nap where
  | whole (more : Nat)
  | woken (slept : Nat)
  | error
deriving DecidableEq, Repr

/-- What becomes of the call, PosixThreadEngine.cpp 643-658. -/
inductive Slept where
  | returned (ns : Nat)
  | thrown
  | sleeping (ns : Nat)     -- the list of outcomes is over
deriving DecidableEq, Repr

/-- The rest that `nanosleep` reports, PosixThreadEngine.cpp 651. -/
def rest (sec nsec slept : Nat) : Nat × Nat :=
  ((sec * 1000000000 + nsec - slept) / 1000000000, (sec * 1000000000 + nsec - slept) % 1000000000)

/-- The loop, PosixThreadEngine.cpp 651-657; `before` is what has been slept already. -/
def nap (sec nsec before : Nat) : List Nap → Slept
  | [] => .sleeping before
  | .whole more :: _ => .returned (before + (sec * 1000000000 + nsec) + more)
  | .woken slept :: es => nap (rest sec nsec slept).1 (rest sec nsec slept).2 (before + slept) es
  | .error :: _ => .thrown

/-- `SleepMicroseconds`, PosixThreadEngine.cpp 643-658. -/
def sleepMicroseconds (us : Nat) (es : List Nap) : Slept := nap (us / 1000000) (us % 1000000 * 1000) 0 es

/-- `Thread::Sleep` with a duration: the signed count becomes an unsigned one.  Thread.h 133. -/
def sleep (us : Int) (es : List Nap) : Slept := sleepMicroseconds (us % 18446744073709551616).toNat es

/-- `Thread::Sleep` with 32 bits of milliseconds, Thread.h 132. -/
def sleepMilliseconds (ms : Nat) (es : List Nap) : Slept := sleepMicroseconds (1000 * ms % 18446744073709551616) es

end Verif.Time.Timespec

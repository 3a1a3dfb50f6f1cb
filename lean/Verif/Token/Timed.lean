/-
Model of `TimedCancellationToken` (stingraykit/thread/TimedCancellationToken.cpp 23-48,
thread/TimedCancellationToken.h 34-47) on top of `RemainingTime` (time/RemainingTime.h 23-33), wrapped
any number of times around a `CancellationToken` or the dummy token.

Time is the monotonic clock in the unit of `TimeDuration`, as an integer.  Simplifications: all
clock readings made by one call give the same value; a sleeping thread may wake up late by any amount (`late`), but not
spuriously; a token is cancelled at most once, at the moment `cancelAt`, and not reset.
-/
namespace Verif.Timed

/-- The innermost token: `DummyCancellationToken` or `CancellationToken`
(DummyCancellationToken.h 16-30, CancellationToken.h 19-75). -/
inductive Root where
  | dummy
  | cancellable (cancelAt : Option Int)
deriving DecidableEq, Repr

/-- The fields of `RemainingTime` (RemainingTime.h 19-20). -/
structure Remaining where
  timeout : Int
  start : Int
deriving DecidableEq, Repr

/-- `RemainingTime(timeout)` at the moment `now` (RemainingTime.h 23). -/
def Remaining.mk' (timeout now : Int) : Remaining := { timeout := timeout, start := now }

/-- `RemainingTime::Restart` (RemainingTime.h 25). -/
def Remaining.restart (r : Remaining) (now : Int) : Remaining := { r with start := now }

/-- `_elapsed.Elapsed()` (ElapsedTime.h 34). -/
def Remaining.elapsed (r : Remaining) (now : Int) : Int := now - r.start

/-- `RemainingTime::Remaining` (RemainingTime.h 27-31). -/
def Remaining.remaining (r : Remaining) (now : Int) : Int :=
  if r.timeout > r.elapsed now then r.timeout - r.elapsed now else 0

/-- `RemainingTime::Expired` (RemainingTime.h 33). -/
def Remaining.expired (r : Remaining) (now : Int) : Bool := decide (r.timeout ≤ r.elapsed now)

/-- A token: the innermost one or a `TimedCancellationToken` around another
(TimedCancellationToken.h 22-25). -/
inductive Tok where
  | root (r : Root)
  | timed (inner : Tok) (remaining : Remaining)
deriving DecidableEq, Repr

/-- `IsCancelled` of the innermost token (DummyCancellationToken.h 21, CancellationToken.cpp 46-47). -/
def Root.isCancelled : Root → Int → Bool
  | .dummy, _ => false
  | .cancellable none, _ => false
  | .cancellable (some c), now => decide (c ≤ now)

/-- `IsCancelled` (TimedCancellationToken.h 34). -/
def Tok.isCancelled : Tok → Int → Bool
  | .root r, now => r.isCancelled now
  | .timed inner _, now => inner.isCancelled now

/-- `IsTimedOut` (TimedCancellationToken.h 35, CancellationToken.h 62, DummyCancellationToken.h 22). -/
def Tok.isTimedOut : Tok → Int → Bool
  | .root _, _ => false
  | .timed _ rem, now => rem.expired now

/-- `GetTimeout` (TimedCancellationToken.h 37, CancellationToken.h 64, DummyCancellationToken.h 24). -/
def Tok.getTimeout : Tok → Int → Option Int
  | .root _, _ => none
  | .timed _ rem, now => some (rem.remaining now)

/-- `operator bool` (ICancellationToken.h 42). -/
def Tok.valid (t : Tok) (now : Int) : Bool := !t.isCancelled now && !t.isTimedOut now

/-- `TimedCancellationToken(token, timeout)` and, with the dummy token, `TimedCancellationToken(timeout)`
(TimedCancellationToken.cpp 23-34; `std::min(a, b)` is `b < a ? b : a`). -/
def Tok.wrap (t : Tok) (timeout now : Int) : Tok :=
  .timed t (Remaining.mk' (if timeout < (t.getTimeout now).getD timeout then timeout else (t.getTimeout now).getD timeout) now)

/-- How a call of `Sleep` ends (TimedCancellationToken.cpp 37-48). -/
inductive Outcome where
  | returns (result : Bool) (wake : Int)
  | forever
  | throws
deriving DecidableEq, Repr

/-- `Sleep` of the innermost token (DummyCancellationToken.cpp 15-20, CancellationToken.cpp 32-43):
the condition variable is waited on until the duration is over or the token is cancelled. -/
def Root.sleep (late : Nat) : Root → Int → Option Int → Outcome
  | .dummy, _, none => .throws
  | .dummy, now, some d => .returns true (now + max d 0 + late)
  | .cancellable none, _, none => .forever
  | .cancellable none, now, some d => .returns true (now + max d 0 + late)
  | .cancellable (some c), now, none => if c ≤ now then .returns false now else .returns false (c + late)
  | .cancellable (some c), now, some d =>
    if c ≤ now then .returns false now
    else if c < now + max d 0 then .returns false (c + late)
    else .returns true (now + max d 0 + late)

/-- `Sleep` (TimedCancellationToken.cpp 37-48). -/
def Tok.sleep (late : Nat) : Tok → Int → Option Int → Outcome
  | .root r, now, d => r.sleep late now d
  | .timed inner rem, now, none =>
    match inner.sleep late now (some (rem.remaining now)) with
    | .returns _ wake => .returns false wake
    | o => o
  | .timed inner rem, now, some d =>
    if rem.remaining now < d then
      match inner.sleep late now (some (rem.remaining now)) with
      | .returns _ wake => .returns false wake
      | o => o
    else inner.sleep late now (some d)

/-- Would a cancellation handler be registered (TimedCancellationToken.h 40-41,
CancellationToken.cpp 83-92, DummyCancellationToken.h 27; no handler is registered yet)? -/
def Tok.tryRegister : Tok → Int → Bool
  | .root r, now => !r.isCancelled now
  | .timed inner rem, now => !rem.expired now && inner.tryRegister now

end Verif.Timed

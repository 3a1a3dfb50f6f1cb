import Verif.Thread.Life
/-
Model of `CancellableFunction` (function/CancellableFunction.h) with the token whose tester it has (`Verif.Thread.Life`): any number of threads call copies of the function, also from
within it, and release the token.  What the function does is left open: it ends with a value or an exception whenever it likes.  The messages are not modelled.
-/
namespace Verif.Func.Cancellable

/-- What a call gives its caller: the value of the function, its exception, nothing (the function of type void was not called), or the exception "was cancelled".
For CancellableFunction.h 48-63. -/
inductive Out where
  | value (v : Nat)
  | raised
  | nothing
  | cancelled
deriving DecidableEq, Repr

/-- What happens: the function begins and ends in a thread, a call gives something, `Release` is done.  For CancellableFunction.h 48-63. -/
inductive Ev where
  | began (t : Nat)
  | ended (t : Nat)
  | gave (t : Nat) (out : Out)
  | released (t : Nat)
deriving DecidableEq, Repr

/-- The token; the number of calls of the function in which every thread is; what has happened.  For CancellableFunction.h 28-29. -/
structure State where
  life : Thread.Life.Impl
  calls : Nat → Nat
  log : List Ev

/-- The steps: a thread calls a function of type void or not; the function it is in ends, with a value or an exception; a thread releases the token.  For CancellableFunction.h 48-63. -/
inductive Act where
  | call (t : Nat) (isVoid : Bool)
  | ends (t : Nat) (result : Option Nat)
  | release (t : Nat)
deriving DecidableEq, Repr

/-- How a step ends: it cannot be made now, it is made, or a guard is destroyed that does not have the mutex (undefined).  For CancellableFunction.h 48-63. -/
inductive Res where
  | no
  | ok (s : State)
  | undef

/-- The calls of thread `t` are now `n`.  For CancellableFunction.h 48-63. -/
def setCalls (s : State) (t n : Nat) : Nat → Nat := fun u => if u = t then n else s.calls u

/-- A step: the guard and the test at the beginning of `Do` (CancellableFunction.h 50-51, 58-59), the end of `Do` (CancellableFunction.h 52, 61), `Release`. -/
def step (s : State) : Act → Res
  | .call t isVoid =>
    match s.life.tryStart t with
    | none => .no
    | some (true, m) => .ok ⟨m, setCalls s t (s.calls t + 1), s.log ++ [.began t]⟩
    | some (false, m) => .ok ⟨m, s.calls, s.log ++ [.gave t (if isVoid then .nothing else .cancelled)]⟩
  | .ends t result =>
    if s.calls t = 0 then .no
    else
      (match s.life.finish t with
      | none => .undef
      | some m =>
        .ok ⟨m, setCalls s t (s.calls t - 1), s.log ++ [.ended t, .gave t (match result with | some v => .value v | none => .raised)]⟩)
  | .release t =>
    match s.life.kill t with
    | none => .no
    | some m => .ok ⟨m, s.calls, s.log ++ [.released t]⟩

/-- A history.  For CancellableFunction.h 48-63. -/
def run (s : State) : List Act → Res
  | [] => .ok s
  | a :: as =>
    match step s a with
    | .ok s' => run s' as
    | r => r

/-- A function just made.  For CancellableFunction.h 32-35. -/
def init : State := ⟨.new, fun _ => 0, []⟩

end Verif.Func.Cancellable

/-
Model of `SynchronizedPipe` (/repo/stingraykit/io/SynchronizedPipe.h) and of `SharedWriteSynchronizer`
(/repo/stingraykit/io/SharedCircularBuffer.h 166-218): both give one call at a time the right to write, by a flag (`_pipe` not null,
`_writeAllow`) under a mutex and a condition variable.

A step is the code between two points at which the mutex is released; any number of calls interleave arbitrarily.  Waits may end spuriously
and may be cancelled or time out at any moment.  `order` is a ghost: the calls in the order in which they got the right.
-/
namespace Verif.Thread.Turn

/-- Where a call is, with its data: in `_cv.Wait` (has a broadcast come?), writing (so many bytes are written), returned, failed with an
exception while writing, given up waiting.  SynchronizedPipe.h 32-52, SharedCircularBuffer.h 191-217. -/
inductive Phase (α : Type)
  | waiting (d : List α) (notified : Bool)
  | writing (d : List α) (n : Nat)
  | returned (d : List α)
  | failed (d : List α) (n : Nat)
  | cancelled (d : List α)
  deriving DecidableEq

/-- The flag, the calls ever made, what the pipe below has got.  SynchronizedPipe.h 22-24, SharedCircularBuffer.h 172-174. -/
structure St (α : Type) where
  allow : Bool
  calls : List (Phase α)
  out : List α
  order : List Nat
  deriving DecidableEq

/-- The steps, SynchronizedPipe.h 32-52 and SharedCircularBuffer.h 191-217. -/
inductive Act (α : Type)
  /-- a new call, until it gets the right or waits -/
  | begin (d : List α)
  /-- a wait ends by a broadcast or spuriously -/
  | wake (c : Nat)
  /-- a wait is cancelled or times out -/
  | cancel (c : Nat)
  /-- the pipe below takes `k` bytes -/
  | write (c k : Nat)
  /-- all is written: the right is given back -/
  | done (c : Nat)
  /-- the pipe below throws: the right is given back -/
  | fail (c : Nat)
  deriving DecidableEq

section
variable {α : Type}

/-- After construction, SynchronizedPipe.h 27, SharedCircularBuffer.h 177. -/
def init : St α := ⟨true, [], [], []⟩

/-- A broadcast reaches the calls in `Wait`, SynchronizedPipe.h 46, SharedCircularBuffer.h 214. -/
def Phase.notify : Phase α → Phase α
  | .waiting d _ => .waiting d true
  | p => p

/-- The test of the flag and taking the right, SynchronizedPipe.h 35-44, SharedCircularBuffer.h 195-202. -/
def tryTake (s : St α) (c : Nat) (d : List α) : St α :=
  if s.allow then { s with allow := false, calls := s.calls.set c (.writing d 0), order := s.order ++ [c] }
  else { s with calls := s.calls.set c (.waiting d false) }

/-- Giving the right back: flag and broadcast, SynchronizedPipe.h 46-47, SharedCircularBuffer.h 210-216. -/
def release (s : St α) (c : Nat) (p : Phase α) : St α :=
  { s with allow := true, calls := (s.calls.set c p).map Phase.notify }

/-- One step, SynchronizedPipe.h 32-52 and SharedCircularBuffer.h 191-217; `none`: not possible. -/
def step (s : St α) : Act α → Option (St α)
  | .begin d => some (tryTake { s with calls := s.calls ++ [.waiting d false] } s.calls.length d)
  | .wake c =>
    match s.calls[c]? with
    | some (.waiting d _) => some (tryTake s c d)
    | _ => none
  | .cancel c =>
    match s.calls[c]? with
    | some (.waiting d _) => some { s with calls := s.calls.set c (.cancelled d) }
    | _ => none
  | .write c k =>
    match s.calls[c]? with
    | some (.writing d n) =>
      if n + k ≤ d.length then some { s with calls := s.calls.set c (.writing d (n + k)), out := s.out ++ (d.drop n).take k } else none
    | _ => none
  | .done c =>
    match s.calls[c]? with
    | some (.writing d n) => if n = d.length then some (release s c (.returned d)) else none
    | _ => none
  | .fail c =>
    match s.calls[c]? with
    | some (.writing d n) => some (release s c (.failed d n))
    | _ => none

/-- Steps one after another, SynchronizedPipe.h 32-52 and SharedCircularBuffer.h 191-217. -/
def run (s : St α) : List (Act α) → Option (St α)
  | [] => some s
  | a :: as => match step s a with | none => none | some s' => run s' as

end
end Verif.Thread.Turn

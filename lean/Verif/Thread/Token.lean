/-
Model of `CancellationToken` (stingraykit/thread/CancellationToken.cpp) as a transition system: every critical section of the code is one step, the call of the
cancellation handler (made with the mutex released) is the time between two steps. Any number of threads may call `Cancel` (thread `c`), use a handler (`h` is the
handler and its user) and sleep (thread `t`). Spurious wakeups are steps. Memory order and the logging of the destructor are not modelled. Handlers do not throw.
-/
namespace Verif.Thread.Token

/-- Where a call of `Cancel` is.  For CancellationToken.cpp 16-114. -/
inductive CPc where
  | idle
  | calling (h : Option Nat)   -- between the two critical sections: the handler is being called
  | returned
  deriving DecidableEq, Repr

/-- Where the user of a handler is: `CancellationRegistrator.h:17-77`. -/
inductive UPc where
  | idle
  | refused                    -- registration returned false
  | failed                     -- registration threw: another handler is registered
  | registered
  | tried                      -- `TryUnregister` returned false
  | waiting (woken : Bool)     -- inside `Unregister`, on the condition variable
  | finished (result : Bool)   -- unregistered, with the result of the last call
  deriving DecidableEq, Repr

/-- Where a sleeper is.  For CancellationToken.cpp 16-114. -/
inductive SPc where
  | idle
  | sleeping (timed woken : Bool)
  | result (r : Bool)
  deriving DecidableEq, Repr

/-- The token (CancellationToken.h:27-34) and everyone using it. `calls h` counts the invocations of handler `h` since its last registration. -/
structure State where
  cancelled : Bool
  done : Bool
  handler : Option Nat
  cancels : Nat → CPc
  users : Nat → UPc
  sleepers : Nat → SPc
  calls : Nat → Nat

/-- A new token: CancellationToken.cpp:16-20. -/
def init : State := ⟨false, false, none, fun _ => .idle, fun _ => .idle, fun _ => .idle, fun _ => 0⟩

/-- The steps.  For CancellationToken.cpp 16-114. -/
inductive Act where
  | cancelStart (c : Nat) | cancelFinish (c : Nat) | reset
  | register (h : Nat) | tryUnregister (h : Nat) | unregister (h : Nat) | resume (h : Nat) | spurious (h : Nat)
  | sleep (t : Nat) (timed : Bool) | sleepWake (t : Nat) | sleepTimeout (t : Nat) | sleepSpurious (t : Nat)
  deriving DecidableEq, Repr

/-- Change of a function at one point; a helper of the model of CancellationToken.cpp 16-114. -/
def set {α : Type} (f : Nat → α) (i : Nat) (x : α) : Nat → α := fun j => if j = i then x else f j

/-- One more invocation of the handler, if there is one.  For CancellationToken.cpp 16-114. -/
def bump (calls : Nat → Nat) : Option Nat → Nat → Nat
  | none => calls
  | some h => set calls h (calls h + 1)

/-- `Broadcast`.  For CancellationToken.cpp 16-114. -/
def UPc.wake : UPc → UPc
  | .waiting _ => .waiting true
  | u => u

/-- A waiter wakes up, CancellationToken.cpp 16-114. -/
def SPc.wake : SPc → SPc
  | .sleeping t _ => .sleeping t true
  | s => s

/-- The first critical section of `Cancel`: CancellationToken.cpp:53-60, and the call that follows, 62-63. -/
def cancelStart (s : State) (c : Nat) : Option State :=
  if s.cancels c = .idle then
    if s.cancelled then some { s with cancels := set s.cancels c .returned }
    else some { s with cancelled := true, cancels := set s.cancels c (.calling s.handler), calls := bump s.calls s.handler }
  else none

/-- The call has returned; the second critical section of `Cancel`: CancellationToken.cpp:65-69. -/
def cancelFinish (s : State) (c : Nat) : Option State :=
  match s.cancels c with
  | .calling _ => some { s with done := true, cancels := set s.cancels c .returned, users := fun i => (s.users i).wake, sleepers := fun i => (s.sleepers i).wake }
  | _ => none

/-- `Reset`: CancellationToken.cpp:73-80; `none` when it throws. -/
def reset (s : State) : Option State :=
  if s.handler = none ∧ s.cancelled = s.done then some { s with cancelled := false, done := false } else none

/-- Handlers out of use may be registered (again).  For CancellationToken.cpp 16-114. -/
def UPc.free : UPc → Bool
  | .idle | .refused | .failed | .finished _ => true
  | _ => false

/-- `TryRegisterCancellationHandler`: CancellationToken.cpp:83-92. -/
def register (s : State) (h : Nat) : Option State :=
  if (s.users h).free then
    if s.cancelled then some { s with users := set s.users h .refused }
    else if s.handler = none then some { s with handler := some h, users := set s.users h .registered, calls := set s.calls h 0 }
    else some { s with users := set s.users h .failed }
  else none

/-- `TryUnregisterCancellationHandler`: CancellationToken.cpp:95-101, by the user of a registered handler. -/
def tryUnregister (s : State) (h : Nat) : Option State :=
  if s.users h = .registered ∨ s.users h = .tried then
    some { s with handler := none, users := set s.users h (if s.cancelled then .tried else .finished true) }
  else none

/-- `UnregisterCancellationHandler` up to the wait: CancellationToken.cpp:104-113. -/
def unregister (s : State) (h : Nat) : Option State :=
  if s.users h = .registered ∨ s.users h = .tried then
    some { s with handler := none, users := set s.users h (if s.cancelled = false then .finished true else if s.done then .finished false else .waiting false) }
  else none

/-- The wait returns: CancellationToken.cpp:112-114. -/
def resume (s : State) (h : Nat) : Option State :=
  if s.users h = .waiting true then some { s with users := set s.users h (if s.done then .finished false else .waiting false) } else none

/-- A spurious wakeup.  For CancellationToken.cpp 16-114. -/
def spurious (s : State) (h : Nat) : Option State :=
  match s.users h with
  | .waiting _ => some { s with users := set s.users h (.waiting true) }
  | _ => none

/-- `Sleep` up to the wait: CancellationToken.cpp:32-41. -/
def sleep (s : State) (t : Nat) (timed : Bool) : Option State :=
  match s.sleepers t with
  | .sleeping _ _ => none
  | _ => some { s with sleepers := set s.sleepers t (if s.cancelled then .result false else .sleeping timed false) }

/-- `Sleep` after the wait: CancellationToken.cpp:39, 42. -/
def sleepWake (s : State) (t : Nat) : Option State :=
  match s.sleepers t with
  | .sleeping _ true => some { s with sleepers := set s.sleepers t (.result false) }
  | _ => none

/-- The timeout of a timed `Sleep`: CancellationToken.cpp:39. -/
def sleepTimeout (s : State) (t : Nat) : Option State :=
  match s.sleepers t with
  | .sleeping true _ => some { s with sleepers := set s.sleepers t (.result true) }
  | _ => none

/-- A spurious wake-up in CancellationToken.cpp 16-114. -/
def sleepSpurious (s : State) (t : Nat) : Option State :=
  match s.sleepers t with
  | .sleeping b _ => some { s with sleepers := set s.sleepers t (.sleeping b true) }
  | _ => none

/-- One step, CancellationToken.cpp 16-114. -/
def step (s : State) : Act → Option State
  | .cancelStart c => cancelStart s c
  | .cancelFinish c => cancelFinish s c
  | .reset => reset s
  | .register h => register s h
  | .tryUnregister h => tryUnregister s h
  | .unregister h => unregister s h
  | .resume h => resume s h
  | .spurious h => spurious s h
  | .sleep t b => sleep s t b
  | .sleepWake t => sleepWake s t
  | .sleepTimeout t => sleepTimeout s t
  | .sleepSpurious t => sleepSpurious s t

/-- All the steps of a schedule; `none` when one of them is not possible.  For CancellationToken.cpp 16-114. -/
def run (s : State) : List Act → Option State
  | [] => some s
  | a :: as => match step s a with
    | none => none
    | some s' => run s' as

/-! ### What the properties are about -/

/-- A call of the handler `h` is going on. -/
def Spec.InCall (s : State) (h : Nat) : Prop := ∃ c, s.cancels c = .calling (some h)

/-- A `Cancel` has taken effect and has not returned. -/
def Spec.InCancel (s : State) : Prop := ∃ c h, s.cancels c = .calling h

/-- The handler belongs to a registration that is not over: between the registration and the return of the last unregistration call. -/
def Spec.InUse : UPc → Prop
  | .registered | .tried | .waiting _ => True
  | _ => False

/-- A schedule in which `Reset` is only called when no handler is in use. -/
def Spec.Polite (s : State) : List Act → Prop
  | [] => True
  | a :: as => (a = .reset → ∀ h, ¬ Spec.InUse (s.users h)) ∧ ∀ s', step s a = some s' → Spec.Polite s' as

end Verif.Thread.Token

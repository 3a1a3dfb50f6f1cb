import Verif.Thread.Token
/-
Model of `ConditionVariable::Wait(mutex, token)` (stingraykit/thread/posix/PosixConditionVariable.cpp:19-118) together with the `CancellationToken`s it waits with
(thread/CancellationToken.cpp): any number of threads `i`, each with its own token and one effective call of `Cancel` on it, all with the same mutex and condition variable;
besides, an environment that locks and unlocks the mutex and broadcasts. Every critical section of a token is one step; the mutex itself is modelled with its owner.
Spurious wakeups and timeouts are steps. `Reset` of a token in use is not modelled (see `Verif.Thread.Token.unregister_wedge_violated`).
-/
namespace Verif.Thread.CondWait
open Token (set)

/-- `ConditionWaitResult`.  For PosixConditionVariable.cpp 35-123. -/
inductive Res where
  | broadcasted | cancelled | timedOut
  deriving DecidableEq, Repr

/-- Where a waiting thread is.  For PosixConditionVariable.cpp 35-123. -/
inductive WPc where
  | out                        -- not holding the mutex
  | entered                    -- in `Wait`, before `Register` (104)
  | registered                 -- before `pthread_cond_wait` (110)
  | waiting (woken : Bool)     -- in `pthread_cond_wait`
  | releasing                  -- has the mutex again, before `Release` (114)
  | dtor (r : Res)             -- in the destructor of the holder, before `TryUnregister` (55)
  | unlocked (r : Res)         -- after `MutexUnlock` (58), before the critical section of `Unregister`
  | waitT (r : Res) (woken : Bool)  -- in `Unregister`, waiting for the end of `Cancel`
  | relock (r : Res)           -- `Unregister` has returned; before the mutex is locked again
  | returned (r : Res)         -- `Wait` has returned
  deriving DecidableEq, Repr

/-- Where the call of `Cancel` is.  For PosixConditionVariable.cpp 35-123. -/
inductive CPc where
  | idle
  | calling                    -- in the handler's `Cancel`, before it has the mutex (37)
  | holding                    -- in the handler's `Cancel`, after the broadcast (38)
  | called                     -- before the second critical section of `Cancel`
  | finished
  deriving DecidableEq, Repr

/-- Thread `i`, its token and the thread that cancels the token.  For PosixConditionVariable.cpp 35-123. -/
structure Local where
  cancelled : Bool
  done : Bool
  handler : Bool
  w : WPc
  c : CPc
  deriving DecidableEq, Repr

/-- Who may hold the mutex.  For PosixConditionVariable.cpp 35-123. -/
inductive Who where
  | waiter (i : Nat) | canceller (i : Nat) | env
  deriving DecidableEq, Repr

/-- The variables and the threads of PosixConditionVariable.cpp 35-123. -/
structure State where
  owner : Option Who
  l : Nat → Local

/-- The state after construction, PosixConditionVariable.cpp 35-123. -/
def init : State := ⟨none, fun _ => ⟨false, false, false, .out, .idle⟩⟩

/-- The steps a schedule of PosixConditionVariable.cpp 35-123 is made of. -/
inductive Act where
  | lock (i : Nat) | unlock (i : Nat) | again (i : Nat)
  | register (i : Nat) | block (i : Nat) | spurious (i : Nat) | reacquire (i : Nat) | timeout (i : Nat)
  | release (i : Nat) | dtorTry (i : Nat) | unregister (i : Nat) | resumeT (i : Nat) | spuriousT (i : Nat) | relock (i : Nat)
  | cancel (i : Nat) | cLock (i : Nat) | cUnlock (i : Nat) | cFinish (i : Nat)
  | envLock | envUnlock | envBroadcast
  deriving DecidableEq, Repr

/-- `pthread_cond_broadcast` on the condition variable.  For PosixConditionVariable.cpp 35-123. -/
def Local.wake (x : Local) : Local := match x.w with
  | .waiting _ => { x with w := .waiting true }
  | _ => x

/-- All waiters wake up, PosixConditionVariable.cpp 35-123. -/
def wakeAll (l : Nat → Local) : Nat → Local := fun i => (l i).wake

/-- A step of thread `i` that does not touch the mutex.  For PosixConditionVariable.cpp 35-123. -/
def upd (s : State) (i : Nat) (x : Local) : Option State := some { s with l := set s.l i x }

/-- A step of thread `i` that locks the mutex (only possible when it is free).  For PosixConditionVariable.cpp 35-123. -/
def acquire (s : State) (i : Nat) (x : Local) : Option State := if s.owner = none then some ⟨some (.waiter i), set s.l i x⟩ else none

/-- One step, PosixConditionVariable.cpp 35-123. -/
def step (s : State) : Act → Option State
  /- the caller locks the mutex and calls `Wait`; `Wait` has returned and the caller unlocks, or waits again -/
  | .lock i => if (s.l i).w = .out then acquire s i { s.l i with w := .entered } else none
  | .unlock i => match (s.l i).w with
    | .returned _ => some ⟨none, set s.l i { s.l i with w := .out }⟩
    | _ => none
  | .again i => match (s.l i).w with
    | .returned _ => upd s i { s.l i with w := .entered }
    | _ => none
  /- PosixConditionVariable.cpp:104-106 and CancellationToken.cpp:83-92 -/
  | .register i => if (s.l i).w = .entered then
      if (s.l i).cancelled then upd s i { s.l i with w := .returned .cancelled } else upd s i { s.l i with handler := true, w := .registered }
    else none
  /- PosixConditionVariable.cpp:110, 123: waits and unlocks the mutex, atomically -/
  | .block i => if (s.l i).w = .registered then some ⟨none, set s.l i { s.l i with w := .waiting false }⟩ else none
  | .spurious i => match (s.l i).w with
    | .waiting _ => upd s i { s.l i with w := .waiting true }
    | _ => none
  | .reacquire i => if (s.l i).w = .waiting true then acquire s i { s.l i with w := .releasing } else none
  /- PosixConditionVariable.cpp:111-112 -/
  | .timeout i => match (s.l i).w with
    | .waiting _ => acquire s i { s.l i with w := .dtor .timedOut }
    | _ => none
  /- PosixConditionVariable.cpp:114-117 and CancellationToken.cpp:95-101 -/
  | .release i => if (s.l i).w = .releasing then
      upd s i { s.l i with handler := false, w := if (s.l i).cancelled then .dtor .cancelled else .returned .broadcasted }
    else none
  /- PosixConditionVariable.cpp:55-58: unlocks the mutex when it is not over -/
  | .dtorTry i => match (s.l i).w with
    | .dtor r => if (s.l i).cancelled then some ⟨none, set s.l i { s.l i with handler := false, w := .unlocked r }⟩
      else upd s i { s.l i with handler := false, w := .returned r }
    | _ => none
  /- CancellationToken.cpp:104-114 -/
  | .unregister i => match (s.l i).w with
    | .unlocked r => upd s i { s.l i with handler := false, w := if (s.l i).cancelled = false ∨ (s.l i).done = true then .relock r else .waitT r false }
    | _ => none
  | .resumeT i => match (s.l i).w with
    | .waitT r true => upd s i { s.l i with w := if (s.l i).done then .relock r else .waitT r false }
    | _ => none
  | .spuriousT i => match (s.l i).w with
    | .waitT r _ => upd s i { s.l i with w := .waitT r true }
    | _ => none
  /- the end of `MutexUnlock`, PosixConditionVariable.cpp:60 -/
  | .relock i => match (s.l i).w with
    | .relock r => acquire s i { s.l i with w := .returned r }
    | _ => none
  /- CancellationToken.cpp:50-70 and PosixConditionVariable.cpp:35-39 -/
  | .cancel i => if (s.l i).cancelled = false then upd s i { s.l i with cancelled := true, c := if (s.l i).handler then .calling else .called } else none
  | .cLock i => if (s.l i).c = .calling then
      if s.owner = none then some ⟨some (.canceller i), wakeAll (set s.l i { s.l i with c := .holding })⟩ else none
    else none
  | .cUnlock i => if (s.l i).c = .holding then some ⟨none, set s.l i { s.l i with c := .called }⟩ else none
  | .cFinish i => if (s.l i).c = .called then
      upd s i { s.l i with done := true, c := .finished, w := match (s.l i).w with | .waitT r _ => .waitT r true | w => w }
    else none
  | .envLock => if s.owner = none then some { s with owner := some .env } else none
  | .envUnlock => if s.owner = some .env then some { s with owner := none } else none
  | .envBroadcast => some { s with l := wakeAll s.l }

/-- One step after another, for histories of PosixConditionVariable.cpp 35-123. -/
def run (s : State) : List Act → Option State
  | [] => some s
  | a :: as => match step s a with
    | none => none
    | some s' => run s' as

/-! ### What the property is about -/

/-- The steps made by the call of `Wait` of thread `i` or by the call of `Cancel` on its token, to get on. -/
def Spec.Own (i : Nat) (a : Act) : Prop :=
  a = .register i ∨ a = .block i ∨ a = .reacquire i ∨ a = .timeout i ∨ a = .release i ∨ a = .dtorTry i ∨ a = .unregister i ∨ a = .resumeT i ∨ a = .relock i ∨
  a = .cLock i ∨ a = .cUnlock i ∨ a = .cFinish i

instance (i : Nat) (a : Act) : Decidable (Spec.Own i a) := by unfold Spec.Own; infer_instance

/-- Thread `i` is in a call of `Wait`. -/
def Spec.InWait (x : Local) : Prop := match x.w with
  | .out | .returned _ => False
  | _ => True

/-- The handler of thread `i` is being called by `Cancel`. -/
def Spec.InCall (x : Local) : Prop := x.c = .calling ∨ x.c = .holding

end Verif.Thread.CondWait

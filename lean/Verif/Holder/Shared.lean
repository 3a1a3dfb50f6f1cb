/-
Model of `shared_ptr` and `weak_ptr`, shared_ptr.h 48-225, 338-453 and 512-625: one control block, any number of pointers in any
number of threads.  Each step is one atomic operation on the block, or the call of the deleter, or the release of the block's memory.
Simplification: the counters are unbounded (2^32 pointers to one block do not exist at the same time).

Pointers are anonymous: `shared` and `weaks` count the `shared_ptr`s and `weak_ptr`s that exist.  What the program must
not do is disabled: use a pointer it does not have, or destroy the last `weak_ptr` while it is in `lock`.
-/
namespace Verif.Holder.Shared

/-- The block, the pointers and the threads that are inside an operation.  For shared_ptr.h 48-625. -/
structure State where
  /-- `_strongReferences` and `_weakReferences`, shared_ptr.h 50-51 -/
  strong : Nat
  weak : Nat
  shared : Nat
  weaks : Nat
  /-- threads in the loop of `TryAddStrongReference` with their `c`, shared_ptr.h 206 -/
  locking : List Nat
  /-- threads that will call the deleter, shared_ptr.h 222 -/
  disposing : Nat
  /-- threads that have called it and will release the block's own weak reference, shared_ptr.h 223 -/
  releasing : Nat
  /-- threads that will free the block, shared_ptr.h 151 -/
  freeing : Nat
  /-- how often the deleter was called and the block was freed -/
  disposed : Nat
  freed : Nat
  /-- the block was accessed after it was freed, or the object after it was deleted -/
  bad : Bool
deriving DecidableEq, Repr

/-- After the constructor, shared_ptr.h 53 and 289-303. -/
def State.init : State := ⟨1, 1, 1, 0, [], 0, 0, 0, 0, 0, false⟩

/-- The steps a schedule of shared_ptr.h 48-625 is made of. -/
inductive Act where
  | copy          -- shared_ptr.h 338-340
  | addWeak       -- shared_ptr.h 533-540
  | drop          -- shared_ptr.h 368-369, 167-183
  | dropUnique    -- `release_if_unique`, shared_ptr.h 422-431, 185-198
  | dropWeak      -- shared_ptr.h 556-557, 140-155
  | dispose       -- shared_ptr.h 222
  | releaseOwn    -- shared_ptr.h 223, 140-155
  | free          -- shared_ptr.h 151
  | lockLoad      -- shared_ptr.h 205
  | lockSwap (k : Nat)  -- shared_ptr.h 208
  | deref         -- use of the object through a `shared_ptr`
deriving DecidableEq, Repr

/-- What a step returns to the program.  For shared_ptr.h 48-625. -/
inductive Ev where
  | none
  | lockNull
  | lockOk
  | unique (b : Bool)
deriving DecidableEq, Repr

/-- An access to the block.  For shared_ptr.h 48-625. -/
def State.touch (s : State) : State := { s with bad := s.bad || decide (s.freed > 0) }

/-- `ReleaseWeakReference`, shared_ptr.h 140-155. -/
def State.decWeak (s : State) : State :=
  if s.weak - 1 = 0 then { s.touch with weak := s.weak - 1, freeing := s.freeing + 1 }
  else { s.touch with weak := s.weak - 1 }

/-- One step, shared_ptr.h 48-625. -/
def step (s : State) : Act → Option (State × Ev)
  | .copy => if s.shared ≥ 1 then some ({ s.touch with strong := s.strong + 1, shared := s.shared + 1 }, .none) else none
  | .addWeak => if s.shared ≥ 1 ∨ s.weaks ≥ 1 then some ({ s.touch with weak := s.weak + 1, weaks := s.weaks + 1 }, .none) else none
  | .drop =>
    if s.shared ≥ 1 then
      if s.strong - 1 = 0 then some ({ s.touch with strong := s.strong - 1, shared := s.shared - 1, disposing := s.disposing + 1 }, .none)
      else some ({ s.touch with strong := s.strong - 1, shared := s.shared - 1 }, .none)
    else none
  | .dropUnique =>
    if s.shared ≥ 1 then
      if s.strong = 1 then some ({ s.touch with strong := 0, shared := s.shared - 1, disposing := s.disposing + 1 }, .unique true)
      else some (s.touch, .unique false)
    else none
  | .dropWeak =>
    if s.weaks ≥ 1 ∧ (s.weaks ≥ 2 ∨ s.locking = []) then some ({ s.decWeak with weaks := s.weaks - 1 }, .none) else none
  | .dispose =>
    if s.disposing ≥ 1 then some ({ s.touch with disposing := s.disposing - 1, disposed := s.disposed + 1, releasing := s.releasing + 1 }, .none)
    else none
  | .releaseOwn => if s.releasing ≥ 1 then some ({ s.decWeak with releasing := s.releasing - 1 }, .none) else none
  | .free => if s.freeing ≥ 1 then some ({ s with freeing := s.freeing - 1, freed := s.freed + 1 }, .none) else none
  | .lockLoad =>
    if s.weaks ≥ 1 then
      if s.strong = 0 then some (s.touch, .lockNull)
      else some ({ s.touch with locking := s.locking ++ [s.strong] }, .none)
    else none
  | .lockSwap k =>
    match s.locking[k]? with
    | none => none
    | some c =>
      if s.strong = c then some ({ s.touch with strong := s.strong + 1, shared := s.shared + 1, locking := s.locking.eraseIdx k }, .lockOk)
      else if s.strong = 0 then some ({ s.touch with locking := s.locking.eraseIdx k }, .lockNull)
      else some ({ s.touch with locking := s.locking.set k s.strong }, .none)
  | .deref => if s.shared ≥ 1 then some ({ s with bad := s.bad || decide (s.disposed > 0) }, .none) else none

/-- A schedule.  For shared_ptr.h 48-625. -/
def run : State → List Act → Option State
  | s, [] => some s
  | s, a :: as =>
    match step s a with
    | none => none
    | some (s', _) => run s' as

end Verif.Holder.Shared

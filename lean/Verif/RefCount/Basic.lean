import Verif.Common
/-
Model of ref_count.h: `basic_ref_count` (55-124) as used by several threads.  Handles that point to nothing do nothing and are not modelled; every operation on a counter is
one atomic step.
-/
namespace Verif.RefCount.Basic

/-- The size of `AtomicU32`, ref_count.h 27-28. -/
def size : Nat := 4294967296

/-- One object `basic_ref_count_data` (ref_count.h 21-52) and those who refer to it: `handles` objects `basic_ref_count` are alive, `owners` references that the user of
`add_ref` and `release` has not given back, `deleting` destructors have counted to zero and have not deleted yet. -/
structure State where
  value : Nat
  self : Nat
  handles : Nat
  owners : Nat
  deleting : Nat
  deletes : Nat
  /-- The calls of `release` and `release_if_unique` that were told that they are the last. -/
  last : Nat
deriving DecidableEq, Repr

/-- `basic_ref_count()`, ref_count.h 45-47, 66-71. -/
def init : State := ⟨1, 1, 1, 1, 0, 0, 0⟩

/-- A step of some thread, ref_count.h 73-123. -/
inductive Act where
  /-- the copy constructor, with the handle that is copied alive -/
  | copy
  /-- `release_self` of a destructor up to the test of the result -/
  | drop
  /-- `CheckedDelete` -/
  | delete
  | addRef
  | release
  | releaseIfUnique
deriving DecidableEq, Repr

/-- The step; `none` if a thread may not make it (it has no handle, or no reference) or the counters are gone.  For ref_count.h 73-123. -/
def step (s : State) : Act → Option State
  | .copy => if s.handles = 0 ∨ s.deletes ≠ 0 then none else some { s with handles := s.handles + 1, self := (s.self + 1) % size }
  | .drop =>
    if s.handles = 0 ∨ s.deletes ≠ 0 then none
    else some { s with
      handles := s.handles - 1, self := (s.self + size - 1) % size,
      deleting := if (s.self + size - 1) % size = 0 then s.deleting + 1 else s.deleting }
  | .delete => if s.deleting = 0 then none else some { s with deleting := s.deleting - 1, deletes := s.deletes + 1 }
  | .addRef => if s.handles = 0 ∨ s.owners = 0 ∨ s.deletes ≠ 0 then none else some { s with owners := s.owners + 1, value := (s.value + 1) % size }
  | .release =>
    if s.handles = 0 ∨ s.owners = 0 ∨ s.deletes ≠ 0 then none
    else some { s with
      owners := s.owners - 1, value := (s.value + size - 1) % size, last := if (s.value + size - 1) % size = 0 then s.last + 1 else s.last }
  | .releaseIfUnique =>
    if s.handles = 0 ∨ s.owners = 0 ∨ s.deletes ≠ 0 then none
    else some (if s.value = 1 then { s with owners := s.owners - 1, value := 0, last := s.last + 1 } else s)

/-- A history, ref_count.h 55-124. -/
def run (s : State) : List Act → Option State
  | [] => some s
  | a :: as =>
    match step s a with
    | none => none
    | some s' => run s' as

end Verif.RefCount.Basic

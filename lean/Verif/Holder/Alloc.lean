import Verif.Common
/-
Model of collection/CollectionHelpers.h: `AllocatorValueHolder` (16-90).
-/
namespace Verif.Holder.Alloc

/-- What is done with a value: `a` is the allocator, `v` the value.  For CollectionHelpers.h 47-88. -/
inductive Ev where
  | allocate (a v : Nat)
  | construct (a v : Nat)
  | destroy (a v : Nat)
  | deallocate (a v : Nat)
  /-- `release` gave the pointer to the caller, whose it is now -/
  | given (a v : Nat)
deriving DecidableEq, Repr

/-- `_alloc` and `_value`, CollectionHelpers.h 24-25. -/
structure Holder where
  alloc : Nat
  value : Option Nat
deriving DecidableEq, Repr

/-- All holders there ever were (`none` after the destructor), the number of values allocated, and what has happened.  For CollectionHelpers.h 16-90. -/
structure State where
  holders : List (Option Holder)
  next : Nat
  log : List Ev
deriving DecidableEq, Repr

/-- `destroy` and `deallocate` of `reset`, CollectionHelpers.h 83-87. -/
def freed (h : Holder) : List Ev :=
  match h.value with
  | none => []
  | some v => [.destroy h.alloc v, .deallocate h.alloc v]

/-- The release of a pointer to the caller, CollectionHelpers.h 47-52. -/
def handed (h : Holder) : List Ev :=
  match h.value with
  | none => []
  | some v => [.given h.alloc v]

/-- An operation, CollectionHelpers.h 28-77. -/
inductive Act where
  /-- `create` with allocator `a`; the constructor of the value throws, or not -/
  | create (a : Nat) (throws : Bool)
  | moveCtor (i : Nat)
  | moveAssign (i j : Nat)
  | release (i : Nat)
  | swap (i j : Nat)
  | destroy (i : Nat)
deriving DecidableEq, Repr

/-- The holder number `i`, if it is alive.  For CollectionHelpers.h 16-90. -/
def get (s : State) (i : Nat) : Option Holder :=
  match s.holders[i]? with
  | some (some h) => some h
  | _ => none

/-- The holder number `i` is changed.  For CollectionHelpers.h 16-90. -/
def put (s : State) (i : Nat) (h : Option Holder) : State := { s with holders := s.holders.set i h }

/-- `reset`, CollectionHelpers.h 81-89. -/
def reset (s : State) (i : Nat) : Option State :=
  match get s i with
  | none => none
  | some h => some { put s i (some ⟨h.alloc, none⟩) with log := s.log ++ freed h }

/-- The move assignment after `reset`, CollectionHelpers.h 38-39: the allocator is copied and the value is taken with `other.release()`. -/
def takeFrom (s : State) (i j : Nat) : Option State :=
  match get s i, get s j with
  | some _, some h => some (put (put s j (some ⟨h.alloc, none⟩)) i (some ⟨h.alloc, h.value⟩))
  | _, _ => none

/-- The operation; `none` if a holder it needs is not alive.  For CollectionHelpers.h 28-77. -/
def step (s : State) : Act → Option State
  | .create a true => some { s with next := s.next + 1, log := s.log ++ [.allocate a s.next, .deallocate a s.next] }
  | .create a false => some ⟨s.holders ++ [some ⟨a, some s.next⟩], s.next + 1, s.log ++ [.allocate a s.next, .construct a s.next]⟩
  | .moveCtor i =>
    match get s i with
    | none => none
    | some h => some { put s i (some ⟨h.alloc, none⟩) with holders := (put s i (some ⟨h.alloc, none⟩)).holders ++ [some ⟨h.alloc, h.value⟩] }
  | .moveAssign i j =>
    match reset s i with
    | none => none
    | some s' => takeFrom s' i j
  | .release i =>
    match get s i with
    | none => none
    | some h => some { put s i (some ⟨h.alloc, none⟩) with log := s.log ++ handed h }
  | .swap i j =>
    match get s i, get s j with
    | some a, some b => some (put (put s i (some b)) j (some a))
    | _, _ => none
  | .destroy i =>
    match reset s i with
    | none => none
    | some s' => some (put s' i none)

/-- A history, CollectionHelpers.h 16-90. -/
def run (s : State) : List Act → Option State
  | [] => some s
  | a :: as =>
    match step s a with
    | none => none
    | some s' => run s' as

end Verif.Holder.Alloc

/-
Model of `ScopedHolder` and `SharedHolder`: Holder.h 16-164.  Handles are numbers; a cleanup function gets the handle, may throw, and
does not use the holder.
-/
namespace Verif.Holder.Scoped

/-- The state of a `ScopedHolder<ValueType>`: `_handle` and `_valid`, Holder.h 27-29; and the handles the cleanup function was called
with. -/
structure State where
  handle : Nat
  valid : Bool
  cleaned : List Nat
deriving DecidableEq, Repr

/-- `explicit ScopedHolder(cleanupFunc)`, Holder.h 32-34. -/
def State.empty : State := ⟨0, false, []⟩

/-- `ScopedHolder(handle, cleanupFunc)`, Holder.h 36-38. -/
def State.holding (h : Nat) : State := ⟨h, true, []⟩

/-- Operations, Holder.h 40-54.  `throws` tells whether the cleanup function, if called, throws. -/
inductive Act where
  | get
  | release
  | clear (throws : Bool)
  | set (h : Nat) (throws : Bool)
  | destroy (throws : Bool)
deriving DecidableEq, Repr

/-- Results of an operation, Holder.h 40-54. -/
inductive Out where
  | nothing
  | value (h : Nat)
  | threw
deriving DecidableEq, Repr

/-- `Cleanup`, Holder.h 58-63: an exception leaves `_valid`. -/
def cleanup (s : State) (throws : Bool) : State × Bool :=
  if s.valid then ({ s with cleaned := s.cleaned ++ [s.handle], valid := throws }, throws)
  else (s, false)

/-- One operation, Holder.h 40-54; the destructor drops an exception. -/
def step (s : State) : Act → State × Out
  | .get => if s.valid then (s, .value s.handle) else (s, .threw)
  | .release => if s.valid then ({ s with valid := false }, .value s.handle) else (s, .threw)
  | .clear t => ((cleanup s t).1, if (cleanup s t).2 then .threw else .nothing)
  | .set h t =>
    if (cleanup s t).2 then ((cleanup s t).1, .threw)
    else ({ (cleanup s t).1 with handle := h, valid := true }, .nothing)
  | .destroy t => ((cleanup s t).1, .nothing)

/-- The operations of a life but the destructor, Holder.h 42-54. -/
def run (s : State) : List Act → State × List Out
  | [] => (s, [])
  | a :: as => ((run (step s a).1 as).1, (step s a).2 :: (run (step s a).1 as).2)

/-- A life of a holder, Holder.h 40-54: operations and the destructor; the handles cleaned up. -/
def life (s : State) (as : List Act) (throws : Bool) : List Nat := (step (run s as).1 (.destroy throws)).1.cleaned

/-! ### `ScopedHolder<void>` -/

/-- The state of a `ScopedHolder<void>`, Holder.h 76-77, and the number of calls of the cleanup function. -/
structure VState where
  valid : Bool
  cleaned : Nat
deriving DecidableEq, Repr

/-- Operations, Holder.h 84-88. -/
inductive VAct where
  | clear (throws : Bool)
  | set (throws : Bool)
deriving DecidableEq, Repr

/-- `Clear` and `Set`, Holder.h 87-88 and 92. -/
def vstep (s : VState) : VAct → VState
  | .clear t => if s.valid then ⟨t, s.cleaned + 1⟩ else ⟨false, s.cleaned⟩
  | .set _ => if s.valid then ⟨true, s.cleaned + 1⟩ else ⟨true, s.cleaned⟩

/-- A sequence of operations, Holder.h 84-88. -/
def vrun (s : VState) : List VAct → VState
  | [] => s
  | a :: as => vrun (vstep s a) as

/-- A life, Holder.h 80-88. -/
def vlife (valid : Bool) (as : List VAct) : Nat :=
  if (vrun ⟨valid, 0⟩ as).valid then (vrun ⟨valid, 0⟩ as).cleaned + 1 else (vrun ⟨valid, 0⟩ as).cleaned

/-! ### `SharedHolder` -/

/-- Holders on the heap and `SharedHolder`s sharing them (or none), Holder.h 97-116. -/
structure Heap where
  impls : List State
  refs : List (Option Nat)
deriving DecidableEq, Repr

/-- `Valid`, Holder.h 121. -/
def sharedValid (h : Heap) (i : Nat) : Option Bool :=
  match h.refs[i]? with
  | none => none
  | some none => some false
  | some (some p) => (h.impls[p]?).map (·.valid)

/-- An operation through a `SharedHolder`, Holder.h 123-129; `none` is undefined (no holder, or a null pointer). -/
def sharedStep (h : Heap) (i : Nat) (a : Act) : Option (Heap × Out) :=
  match h.refs[i]? with
  | some (some p) =>
    match h.impls[p]? with
    | some s => some ({ h with impls := h.impls.set p (step s a).1 }, (step s a).2)
    | none => none
  | _ => none

end Verif.Holder.Scoped

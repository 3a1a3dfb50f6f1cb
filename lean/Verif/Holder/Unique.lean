/-
Model of `unique_ptr<T>` (and, with the same text, `unique_ptr<T[]>`): unique_ptr.h 25-102, 105-182.
Objects and pointer variables are numbered.  The deletion inside `reset` runs a destructor, which may use any pointer: `reset` is two steps, between which the
destructor's actions come.
-/
namespace Verif.Holder.Unique

/-- A `reset` whose deletion runs: unique_ptr.h 93-97: the variable, the pointer it held, the new pointer. -/
structure Frame where
  var : Nat
  old : Option Nat
  new : Option Nat
deriving DecidableEq, Repr

/-- The pointer variables (`_rawPtr`, unique_ptr.h 34), how often each object was deleted, the raw pointers in the hands of the user, and the calls of `reset` in
progress.  `abused` is set when a raw pointer that is not the user's is stored, or a variable is used while its `reset` runs the destructor. -/
structure State where
  vars : List (Option Nat)
  deleted : List Nat
  loose : List Nat
  frames : List Frame
  abused : Bool
deriving DecidableEq, Repr

/-- `n` null pointers: unique_ptr.h 37-41. -/
def State.init (n : Nat) : State := ⟨List.replicate n none, [], [], [], false⟩

/-- The calls, for unique_ptr.h 37-97. -/
inductive Act where
  | make
  | release (i : Nat)
  | reset (i : Nat) (p : Option Nat)
  | resetDone
  | swap (i j : Nat)
deriving DecidableEq, Repr

/-- Is a `reset` of this variable in progress?  For unique_ptr.h 93-97. -/
def State.busy (s : State) (i : Nat) : Bool := s.frames.any (fun f => f.var = i)

/-- `CheckedDelete`: unique_ptr.h 95, 51: nothing for null. -/
def delete (d : List Nat) : Option Nat → List Nat
  | none => d
  | some o => d.modify o (fun n => n + 1)

/-- Taking a raw pointer from the user: unique_ptr.h 37, 93. -/
def takeLoose (l : List Nat) : Option Nat → List Nat
  | none => l
  | some o => l.erase o

/-- Is the raw pointer the user's to give?  For unique_ptr.h 37, 93. -/
def mayGive (l : List Nat) : Option Nat → Bool
  | none => true
  | some o => l.contains o

/-- One step: unique_ptr.h 37-97; `none`: there is no such variable or call. -/
def step (s : State) : Act → Option State
  -- `new T`
  | .make => some { s with deleted := s.deleted ++ [0], loose := s.loose ++ [s.deleted.length] }
  -- 83-88
  | .release i =>
    match s.vars[i]? with
    | none => none
    | some none => some { s with abused := s.abused || s.busy i }
    | some (some o) => some { s with vars := s.vars.set i none, loose := s.loose ++ [o], abused := s.abused || s.busy i }
  -- 93-95; the constructor (37) is a `reset` of a null variable, the destructor (50-51) a `reset` to null
  | .reset i p =>
    match s.vars[i]? with
    | none => none
    | some old => some { s with
        deleted := delete s.deleted old, loose := takeLoose s.loose p, frames := ⟨i, old, p⟩ :: s.frames, abused := s.abused || s.busy i || !mayGive s.loose p }
  -- 96-97
  | .resetDone =>
    match s.frames with
    | [] => none
    | f :: r => some { s with vars := s.vars.set f.var f.new, frames := r }
  -- 90-91
  | .swap i j =>
    match s.vars[i]?, s.vars[j]? with
    | some a, some b => some { s with vars := (s.vars.set i b).set j a, abused := s.abused || s.busy i || s.busy j }
    | _, _ => none

/-- A history, for unique_ptr.h 37-97. -/
def run (s : State) : List Act → Option State
  | [] => some s
  | a :: r => match step s a with
    | none => none
    | some s' => run s' r

/-- Move construction or assignment from variable `j` that holds `o`: unique_ptr.h 43-44, 53-57: `reset(other.release())`. -/
def moveFrom (i j : Nat) (o : Option Nat) : List Act := [.release j, .reset i o, .resetDone]

/-- `get`, `operator bool`: unique_ptr.h 66-69. -/
def State.get (s : State) (i : Nat) : Option Nat := (s.vars[i]?).getD none

end Verif.Holder.Unique

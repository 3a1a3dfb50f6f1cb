/-
Model of `function` and `function_storage`, function/function.h 26-191: a history of operations on any number of variables in one thread.  A variable is
unconstructed (`none`), without a functor (`some none`: it was moved from) or refers to a functor.  A functor has a state and a call changes it.
`function_storage` (function.h 168-191) is a variable too: making one from a function and making a function of the same signature from one are the same
constructors of `self_count_ptr`.  The destructor of a functor does not use functions.  The counter is not bounded.
-/
namespace Verif.Func

/-- `Invokable`, function.h 71-114, with the counter of `self_counter` (self_counter.h 188); `destroyed` counts the runs of the functor's destructor and
`made` tells whether its constructor ended. -/
structure Obj (F : Type) where
  count : Nat
  made : Bool
  state : F
  destroyed : Nat
deriving DecidableEq, Repr

/-- All variables and all functors that were ever made, function.h 120-191. -/
structure World (F : Type) where
  vars : List (Option (Option Nat))
  objs : List (Obj F)
deriving DecidableEq, Repr

/-- The operations: function.h 150-161, 122-123 (170-171). -/
inductive Act (F A : Type) where
  | make (k : Nat) (f : F)      -- `function(FunctorType&&)`, 150-155
  | makeThrows (k : Nat) (f : F) -- the same, and copying the functor throws, 90-92
  | copy (k j : Nat)            -- copy constructor
  | move (k j : Nat)            -- move constructor
  | assign (k j : Nat)          -- copy assignment
  | moveAssign (k j : Nat)      -- move assignment
  | call (k : Nat) (a : A)      -- `operator ()`, 157-161
  | destroy (k : Nat)
deriving DecidableEq, Repr

/-- What is seen of one operation, function.h 157-161. -/
inductive Out (R : Type) where
  | done
  | result (r : R)
  | nullPointer
  | threw
deriving DecidableEq, Repr

/-- The destructor of the functor, by the virtual table: function.h 54, 109-110; self_counter.h 221-233. -/
def release {F : Type} (objs : List (Obj F)) (o : Nat) : List (Obj F) :=
  match objs[o]? with
  | none => objs
  | some x => objs.set o { x with count := x.count - 1, destroyed := x.destroyed + (if x.count - 1 = 0 then 1 else 0) }

/-- `add_ref`, self_counter.h 215-219. -/
def addRef {F : Type} (objs : List (Obj F)) (o : Nat) : List (Obj F) :=
  match objs[o]? with
  | none => objs
  | some x => objs.set o { x with count := x.count + 1 }

/-- The destructor of a pointer, self_counter.h 93-97. -/
def releasePtr {F : Type} (objs : List (Obj F)) : Option Nat → List (Obj F)
  | none => objs
  | some o => release objs o

/-- Copying a pointer, self_counter.h 56-61. -/
def addRefPtr {F : Type} (objs : List (Obj F)) : Option Nat → List (Obj F)
  | none => objs
  | some o => addRef objs o

/-- `operator ()`, function.h 157-161; self_counter.h 145-149. -/
def callVar {F A R : Type} (sem : F → A → F × R) (w : World F) (p : Option Nat) (a : A) : World F × Out R :=
  match p with
  | none => (w, .nullPointer)
  | some o =>
    match w.objs[o]? with
    | none => (w, .nullPointer)
    | some x => ({ w with objs := w.objs.set o { x with state := (sem x.state a).1 } }, .result (sem x.state a).2)

/-- One operation; `none` is an operation that the program cannot write (a variable constructed twice or used without being constructed),
function.h 120-191, self_counter.h 56-111. -/
def step {F A R : Type} (sem : F → A → F × R) (w : World F) : Act F A → Option (World F × Out R)
  | .make k f =>
    match w.vars[k]? with
    | some none => some ({ vars := w.vars.set k (some (some w.objs.length)), objs := w.objs ++ [⟨1, true, f, 0⟩] }, .done)
    | _ => none
  | .makeThrows k f =>
    -- the base is made before the functor, 91; its destructor runs and calls the destructor of the functor, 54, 109-110
    match w.vars[k]? with
    | some none => some ({ w with objs := w.objs ++ [⟨1, false, f, 1⟩] }, .threw)
    | _ => none
  | .copy k j =>
    match w.vars[k]?, w.vars[j]? with
    | some none, some (some p) => some ({ vars := w.vars.set k (some p), objs := addRefPtr w.objs p }, .done)
    | _, _ => none
  | .move k j =>
    match w.vars[k]?, w.vars[j]? with
    | some none, some (some p) => some ({ w with vars := (w.vars.set k (some p)).set j (some none) }, .done)
    | _, _ => none
  | .assign k j =>
    match w.vars[k]?, w.vars[j]? with
    | some (some old), some (some p) => some ({ vars := w.vars.set k (some p), objs := releasePtr (addRefPtr w.objs p) old }, .done)
    | _, _ => none
  | .moveAssign k j =>
    match w.vars[k]?, w.vars[j]? with
    | some (some old), some (some p) =>
      -- `tmp` takes the pointer of the other variable, then `tmp` and this variable are swapped: a variable moved to itself is swapped with what it was
      if k = j then some (w, .done)
      else some ({ vars := (w.vars.set k (some p)).set j (some none), objs := releasePtr w.objs old }, .done)
    | _, _ => none
  | .call k a =>
    match w.vars[k]? with
    | some (some p) => some (callVar sem w p a)
    | _ => none
  | .destroy k =>
    match w.vars[k]? with
    | some (some p) => some ({ vars := w.vars.set k none, objs := releasePtr w.objs p }, .done)
    | _ => none

/-- A history, with what is seen of every operation; function.h 120-191. -/
def run {F A R : Type} (sem : F → A → F × R) (w : World F) : List (Act F A) → Option (World F × List (Out R))
  | [] => some (w, [])
  | a :: as =>
    match step sem w a with
    | none => none
    | some (w', o) =>
      match run sem w' as with
      | none => none
      | some (w'', os) => some (w'', o :: os)

/-- `n` variables not yet constructed, function.h 120-191. -/
def World.init (F : Type) (n : Nat) : World F := ⟨List.replicate n none, []⟩

end Verif.Func

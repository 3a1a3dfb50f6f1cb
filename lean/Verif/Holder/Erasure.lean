/-
Model of TypeErasure.h: `TypeErasure` (82-139), the table of functions of `TypeErasureImpl` (142-192) with `ForIf`, and the calls through it.  A concept and a class that is
wrapped are numbers.  A call does not look at its arguments here: they are forwarded as one value.
-/
namespace Verif.Holder.Erasure

/-- The concept number 0 is `Concepts::Destructor`, TypeErasure.h 49-53. -/
def destructor : Nat := 0

/-- `TypeListPrepend<Concepts_, Concepts::Destructor>`, TypeErasure.h 85. -/
def allConcepts (concepts : List Nat) : List Nat := destructor :: concepts

/-- `IndexOfTypeListItem`, TypeErasure.h 131; `none` is `TypeListNpos`. -/
def indexOf (c : Nat) : List Nat → Option Nat
  | [] => none
  | x :: xs =>
    if x = c then some 0
    else
      match indexOf c xs with
      | none => none
      | some n => some (n + 1)

/-- The loop of `ForIf` over `VTableHelper`, TypeErasure.h 164-173, 188: `left` more concepts from number `start`; the concept whose `ConceptInvoker` was put into `result`. -/
def forIf (concepts : List Nat) (functionIndex : Nat) : Nat → Nat → Option Nat
  | 0, _ => none
  | left + 1, start => if functionIndex ≠ start then forIf concepts functionIndex left (start + 1) else concepts[start]?

/-- `VTableFuncImpl`, TypeErasure.h 185-191: the concept of the function returned; `none` is the end of the program. -/
def vTable (concepts : List Nat) (functionIndex : Option Nat) : Option Nat :=
  match functionIndex with
  | none => none
  | some i => forIf concepts i concepts.length 0

/-- What happens to objects: the concept is applied to the object, as its own class; or it is destroyed as its own class.  For TypeErasure.h 58-71. -/
inductive Ev where
  | applied (object class_ concept arg : Nat)
  | destroyed (object class_ : Nat)
deriving DecidableEq, Repr

/-- The erasures that are alive with their pointers, the objects with their classes and whether they are alive, and what has happened.  For TypeErasure.h 82-139. -/
structure World where
  vars : List (Option (Option Nat))
  objs : List (Nat × Bool)
  log : List Ev
deriving DecidableEq, Repr

/-- The result of an operation: it is not a possible one; the new state; undefined behaviour; the end of the program.  For TypeErasure.h 90-138. -/
inductive Res where
  | no
  | ok (w : World)
  | ub
  | fatal
deriving DecidableEq, Repr

/-- An operation, TypeErasure.h 91-138. -/
inductive Act where
  | make
  | copyCtor (i : Nat)
  | moveCtor (i : Nat)
  | copyAssign (i j : Nat)
  | moveAssign (i j : Nat)
  | allocate (i class_ : Nat)
  | call (i concept arg : Nat)
  | free (i : Nat)
  | destroy (i : Nat)
deriving DecidableEq, Repr

/-- The pointer of the erasure number `i`, if it is alive.  For TypeErasure.h 88. -/
def pointer (w : World) (i : Nat) : Option (Option Nat) :=
  match w.vars[i]? with
  | some (some p) => some p
  | _ => none

/-- What `DoCall` of the function found does, TypeErasure.h 61-62, 69-70. -/
def invoke (w : World) (object class_ concept arg : Nat) : World :=
  if concept = destructor then { w with objs := w.objs.set object (class_, false), log := w.log ++ [.destroyed object class_] }
  else { w with log := w.log ++ [.applied object class_ concept arg] }

/-- `Call`, TypeErasure.h 127-138. -/
def call (concepts : List Nat) (w : World) (i concept arg : Nat) : Res :=
  match pointer w i with
  | none => .no
  | some none => .ub
  | some (some o) =>
    match w.objs[o]? with
    | some (class_, true) =>
      (match vTable (allConcepts concepts) (indexOf concept (allConcepts concepts)) with
      | none => .fatal
      | some c => .ok (invoke w o class_ c arg))
    | _ => .ub

/-- An operation, TypeErasure.h 91-121. -/
def step (concepts : List Nat) (w : World) : Act → Res
  | .make => .ok { w with vars := w.vars ++ [some none] }
  | .copyCtor i =>
    match pointer w i with
    | none => .no
    | some p => .ok { w with vars := w.vars ++ [some p] }
  | .moveCtor i =>
    match pointer w i with
    | none => .no
    | some p => .ok { w with vars := (w.vars.set i (some none)) ++ [some p] }
  | .copyAssign i j =>
    match pointer w i, pointer w j with
    | some _, some p => .ok { w with vars := w.vars.set i (some p) }
    | _, _ => .no
  | .moveAssign i j =>
    match pointer w i, pointer w j with
    | some _, some p => if i = j then .ok { w with vars := w.vars.set i (some none) } else .ok { w with vars := (w.vars.set i (some p)).set j (some none) }
    | _, _ => .no
  | .allocate i class_ =>
    match pointer w i with
    | none => .no
    | some _ => .ok { w with vars := w.vars.set i (some (some w.objs.length)), objs := w.objs ++ [(class_, true)] }
  | .call i concept arg => call concepts w i concept arg
  | .free i =>
    match call concepts w i destructor 0 with
    | .ok w' => .ok { w' with vars := w'.vars.set i (some none) }
    | r => r
  | .destroy i =>
    match pointer w i with
    | none => .no
    | some _ => .ok { w with vars := w.vars.set i none }

/-- A history, TypeErasure.h 91-138. -/
def run (concepts : List Nat) (w : World) : List Act → Res
  | [] => .ok w
  | a :: as =>
    match step concepts w a with
    | .ok w' => run concepts w' as
    | r => r

/-- No erasure yet.  For TypeErasure.h 91. -/
def init : World := ⟨[], [], []⟩

end Verif.Holder.Erasure

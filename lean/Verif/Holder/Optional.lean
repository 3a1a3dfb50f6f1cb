/-
Model of `optional`, optional.h 50-407 and 416-457.

The storage is raw memory or holds a value; constructing over a value, and destroying, assigning or reading what is not there, is `ub`.
How constructors and assignments of the values end is given with each operation; `swap` of two values does not throw.
-/
namespace Verif.Holder.Opt

/-- `_value` and `_initialized`, optional.h 98-99. -/
structure Slot (V : Type) where
  init : Bool
  live : Option V
deriving DecidableEq, Repr

/-- How a constructor or an assignment of the values ends: normally, or with an exception; an assignment that throws leaves
the value `w` in the target.  For optional.h 50-457. -/
inductive How (V : Type) where
  | ok
  | threw (w : V)
deriving DecidableEq, Repr

/-- The end of an operation.  For optional.h 50-457. -/
inductive Res (σ : Type) where
  | ok (s : σ)
  | threw (s : σ)
  | ub
deriving DecidableEq, Repr

variable {V : Type}

/-- `reset`, optional.h 344-351. -/
def Slot.reset (s : Slot V) : Res (Slot V) :=
  if s.init then
    match s.live with
    | some _ => .ok ⟨false, none⟩
    | none => .ub
  else .ok s

/-- `assign(value)`, optional.h 356-365. -/
def Slot.assign (s : Slot V) (v : V) (h : How V) : Res (Slot V) :=
  if s.init then
    match s.live with
    | none => .ub
    | some _ =>
      match h with
      | .ok => .ok ⟨true, some v⟩
      | .threw w => .threw ⟨true, some w⟩
  else
    match s.live with
    | some _ => .ub
    | none =>
      match h with
      | .ok => .ok ⟨true, some v⟩
      | .threw _ => .threw s

/-- `emplace`, optional.h 389-394. -/
def Slot.emplace (s : Slot V) (v : V) (h : How V) : Res (Slot V) :=
  match s.reset with
  | .ok s =>
    match s.live with
    | some _ => .ub
    | none =>
      match h with
      | .ok => .ok ⟨true, some v⟩
      | .threw _ => .threw s
  | r => r

/-- `get`, optional.h 185-187; `some none` is `NotInitializedException`, `none` is undefined. -/
def Slot.get (s : Slot V) : Option (Option V) :=
  if s.init then
    match s.live with
    | some v => some (some v)
    | none => none
  else some none

/-- The variables of a program that uses optional.h 50-457. -/
abbrev Vars (V : Type) := Nat → Option (Slot V)

/-- Change of one variable of a program that uses optional.h 50-457. -/
def Vars.set (m : Vars V) (i : Nat) (s : Option (Slot V)) : Vars V := fun k => if k = i then s else m k

/-- Store the result of an operation of optional.h 50-457. -/
def putBack (m : Vars V) (i : Nat) : Res (Slot V) → Res (Vars V)
  | .ok s => .ok (m.set i (some s))
  | .threw s => .threw (m.set i (some s))
  | .ub => .ub

/-- The operations.  For optional.h 50-457. -/
inductive Op (V : Type) where
  | construct (i : Nat)
  | constructValue (i : Nat) (v : V) (h : How V)
  | copyConstruct (i j : Nat) (h : How V)
  | moveConstruct (i j : Nat) (h : How V)
  | assignValue (i : Nat) (v : V) (h : How V)
  | assign (i j : Nat) (h : How V)
  | moveAssign (i j : Nat) (h : How V)
  | emplace (i : Nat) (v : V) (h : How V)
  | swap (i j : Nat) (h : How V)
  | reset (i : Nat)
  | destroy (i : Nat)
deriving Repr

/-- The value of the source after a move.  For optional.h 50-457. -/
def leaveMoved (moved : V → V) (j : Nat) (v : V) : Res (Vars V) → Res (Vars V)
  | .ok m =>
    match m j with
    | some s => .ok (m.set j (some { s with live := some (moved v) }))
    | none => .ub
  | r => r

/-- A constructor from a value, optional.h 118-135 and 50-62: the flag is set first, but a constructor that throws leaves no variable. -/
def fromValue (m : Vars V) (i : Nat) (v : V) : How V → Res (Vars V)
  | .ok => .ok (m.set i (some ⟨true, some v⟩))
  | .threw _ => .threw m

/-- `reset` of a variable.  For optional.h 50-457. -/
def resetVar (m : Vars V) (i : Nat) : Res (Vars V) :=
  match m i with
  | none => .ub
  | some s => putBack m i s.reset

/-- `assign(value)` of a variable.  For optional.h 50-457. -/
def assignVar (m : Vars V) (i : Nat) (v : V) (h : How V) : Res (Vars V) :=
  match m i with
  | none => .ub
  | some s => putBack m i (s.assign v h)

/-- Read a variable: undefined, not initialised, or its value.  For optional.h 50-457. -/
def look (m : Vars V) (j : Nat) : Option (Option V) := (m j).bind (·.get)

/-- One operation.  For optional.h 50-457. -/
def step (moved : V → V) (m : Vars V) : Op V → Res (Vars V)
  | .construct i => .ok (m.set i (some ⟨false, none⟩))
  | .constructValue i v h => fromValue m i v h
  | .copyConstruct i j h =>
    match look m j with
    | none => .ub
    | some none => .ok (m.set i (some ⟨false, none⟩))
    | some (some v) => fromValue m i v h
  | .moveConstruct i j h =>
    match look m j with
    | none => .ub
    | some none => .ok (m.set i (some ⟨false, none⟩))
    | some (some v) => leaveMoved moved j v (fromValue m i v h)
  | .assignValue i v h => assignVar m i v h
  | .assign i j h =>
    match look m j with
    | none => .ub
    | some none => resetVar m i
    | some (some v) => assignVar m i v h
  | .moveAssign i j h =>
    match look m j with
    | none => .ub
    | some none => resetVar m i
    | some (some v) => leaveMoved moved j v (assignVar m i v h)
  | .emplace i v h =>
    match m i with
    | none => .ub
    | some s => putBack m i (s.emplace v h)
  | .swap i j h =>
    match look m i, look m j with
    | some (some x), some (some y) => .ok ((m.set i (some ⟨true, some y⟩)).set j (some ⟨true, some x⟩))
    | some (some x), some none =>
      match assignVar m j x h with
      | .ok m' => resetVar m' i
      | r => r
    | some none, some (some y) =>
      match assignVar m i y h with
      | .ok m' => resetVar m' j
      | r => r
    | some none, some none => .ok m
    | _, _ => .ub
  | .reset i => resetVar m i
  | .destroy i =>
    match resetVar m i with
    | .ok m' => .ok (m'.set i none)
    | r => r

/-- A history; it goes on after exceptions.  For optional.h 50-457. -/
def run (moved : V → V) : Vars V → List (Op V) → Res (Vars V)
  | m, [] => .ok m
  | m, op :: ops =>
    match step moved m op with
    | .ok m' => run moved m' ops
    | .threw m' => run moved m' ops
    | .ub => .ub

/-- `Compare`, optional.h 314-321. -/
def compare (cmp : V → V → Int) (a b : Option V) : Int :=
  match b with
  | some y =>
    match a with
    | some x => cmp x y
    | none => -1
  | none => if a.isSome then 1 else 0

/-- `operator <` of two optionals, optional.h 454-456. -/
def less (lt : V → V → Bool) (a b : Option V) : Bool :=
  match b with
  | none => false
  | some y =>
    match a with
    | none => true
    | some x => lt x y

/-- `operator ==` of two optionals, optional.h 448-450. -/
def equal (eq : V → V → Bool) (a b : Option V) : Bool :=
  match a with
  | some x =>
    match b with
    | some y => eq x y
    | none => false
  | none => b.isNone

/-- `operator <` of an optional and a value, optional.h 438-443. -/
def lessValue (lt : V → V → Bool) (a : Option V) (y : V) : Bool :=
  match a with
  | none => true
  | some x => lt x y

/-- `operator <` of a value and an optional, optional.h 50-457. -/
def valueLess (lt : V → V → Bool) (x : V) (b : Option V) : Bool :=
  match b with
  | none => false
  | some y => lt x y

end Verif.Holder.Opt

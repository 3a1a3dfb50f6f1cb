/-
Model of `any`, any.h 216-338 and any.cpp 27-117.

Numbers are kept in the union itself, strings are constructed in it, other objects are held by a pointer to a new holder.
`data` is what the union holds: bits of a number, a live string, a pointer to a live holder, or nothing valid (destroyed or never
set).  Destroying or reading what is not there is `ub`, and so is a lost pointer to a live holder (`leak`).
A string moved from is abandoned without destructor (any.cpp 87 and 97); as it owns no memory the model forgets it.
-/
namespace Verif.Holder.Any

/-- `AnyType`, any.h 21-44: `Empty`, the numbers by their place, `String`, `Object` and `SerializableObject` with the type of the
holder. -/
inductive Tag where
  | empty
  | number (k : Nat)
  | string
  | object (k : Nat)
deriving DecidableEq, Repr

/-- `CppTypeToAnyUnionType`. A type is its tag.  For any.h 21-338 and any.cpp 27-117. -/
structure Any (V : Type) where
  type : Tag
  data : Option (Tag × V)
deriving DecidableEq, Repr

/-- The end of an operation of any.h 21-338 and any.cpp 27-117. -/
inductive Res (σ : Type) where
  | ok (s : σ)
  | threw (s : σ)
  | ub
deriving DecidableEq, Repr

variable {V : Type}

/-- Whether a tag stands for something that must be destroyed.  For any.h 21-338 and any.cpp 27-117. -/
def Tag.owned : Tag → Bool
  | .string => true
  | .object _ => true
  | _ => false

/-- `Destroy`, any.cpp 101-117. -/
def Any.destroy (a : Any V) : Option (Any V) :=
  if a.type.owned then
    match a.data with
    | some (t, _) => if t = a.type then some ⟨.empty, none⟩ else none
    | none => none
  else some ⟨.empty, none⟩

/-- `Init`, any.h 320-327: the type is set first; copying a string or a value may throw. -/
def Any.init (a : Any V) (t : Tag) (v : V) (ok : Bool) : Res (Any V) :=
  if t.owned && !ok then .threw { a with type := t } else .ok ⟨t, some (t, v)⟩

/-- `Get`, any.h 200-243 with 329-333; `some none` is the null pointer. -/
def Any.get (a : Any V) (t : Tag) : Option (Option V) :=
  if a.type = t ∧ t ≠ .empty then
    match a.data with
    | some (u, v) => if u = t then some (some v) else none
    | none => none
  else some none

/-- What `Copy` and `Move` read from the other.  For any.h 21-338 and any.cpp 27-117. -/
def Any.source (a : Any V) : Option (Option (Tag × V)) :=
  if a.type = .empty then some none
  else
    match a.data with
    | some (u, v) => if u = a.type then some (some (u, v)) else none
    | none => none

/-- `Copy`, any.cpp 27-61; the type is set last. -/
def Any.copy (a o : Any V) (ok : Bool) : Res (Any V) :=
  if a.type ≠ .empty then .ub
  else
    match o.source with
    | none => .ub
    | some none => .ok ⟨.empty, none⟩
    | some (some (t, v)) => if t.owned && !ok then .threw a else .ok ⟨t, some (t, v)⟩

/-- `Move`, any.cpp 64-98: both after it. -/
def Any.move (a o : Any V) : Option (Any V × Any V) :=
  if a.type ≠ .empty then none
  else
    match o.source with
    | none => none
    | some none => some (⟨.empty, none⟩, ⟨.empty, none⟩)
    | some (some (t, v)) => some (⟨t, some (t, v)⟩, ⟨.empty, none⟩)

/-- The variables of a program that uses any.h 21-338 and any.cpp 27-117. -/
abbrev Vars (V : Type) := Nat → Option (Any V)

/-- Change of one variable of a program that uses any.h 21-338 and any.cpp 27-117. -/
def Vars.set (m : Vars V) (i : Nat) (s : Option (Any V)) : Vars V := fun k => if k = i then s else m k

/-- Store the result of an operation of any.h 21-338 and any.cpp 27-117. -/
def putBack (m : Vars V) (i : Nat) : Res (Any V) → Res (Vars V)
  | .ok s => .ok (m.set i (some s))
  | .threw s => .threw (m.set i (some s))
  | .ub => .ub

/-- A constructor that throws leaves no variable.  For any.h 21-338 and any.cpp 27-117. -/
def putNew (m : Vars V) (i : Nat) : Res (Any V) → Res (Vars V)
  | .ok s => .ok (m.set i (some s))
  | .threw _ => .threw m
  | .ub => .ub

/-- The operations; `ok` tells whether copying the value succeeds.  For any.h 21-338 and any.cpp 27-117. -/
inductive Op (V : Type) where
  | construct (i : Nat)
  | constructValue (i : Nat) (t : Tag) (v : V) (ok : Bool)
  | copyConstruct (i j : Nat) (ok : Bool)
  | moveConstruct (i j : Nat)
  | assignValue (i : Nat) (t : Tag) (v : V) (ok : Bool)
  | assign (i j : Nat) (ok : Bool)
  | moveAssign (i j : Nat)
  | destroy (i : Nat)
deriving Repr

/-- `operator = (const any&)`, any.h 288-293. -/
def assignFrom (m : Vars V) (i j : Nat) (ok : Bool) : Res (Vars V) :=
  match m i with
  | none => .ub
  | some a =>
    match a.destroy with
    | none => .ub
    | some a =>
      match (m.set i (some a)) j with
      | none => .ub
      | some o => putBack m i (a.copy o ok)

/-- `operator = (any&&)`, any.h 295-300. -/
def moveFrom (m : Vars V) (i j : Nat) : Res (Vars V) :=
  match m i with
  | none => .ub
  | some a =>
    match a.destroy with
    | none => .ub
    | some a =>
      match (m.set i (some a)) j with
      | none => .ub
      | some o =>
        match a.move o with
        | none => .ub
        | some (a', o') => .ok ((m.set j (some o')).set i (some a'))

/-- One operation.  For any.h 21-338 and any.cpp 27-117. -/
def step (m : Vars V) : Op V → Res (Vars V)
  | .construct i => .ok (m.set i (some ⟨.empty, none⟩))
  | .constructValue i t v ok => putNew m i (Any.init ⟨.empty, none⟩ t v ok)
  | .copyConstruct i j ok =>
    match m j with
    | none => .ub
    | some o => putNew m i (Any.copy ⟨.empty, none⟩ o ok)
  | .moveConstruct i j =>
    match m j with
    | none => .ub
    | some o =>
      match Any.move ⟨.empty, none⟩ o with
      | none => .ub
      | some (a', o') => .ok ((m.set j (some o')).set i (some a'))
  | .assignValue i t v ok =>
    match m i with
    | none => .ub
    | some a =>
      match a.destroy with
      | none => .ub
      | some a => putBack m i (a.init t v ok)
  | .assign i j ok => assignFrom m i j ok
  | .moveAssign i j => moveFrom m i j
  | .destroy i =>
    match m i with
    | none => .ub
    | some a =>
      match a.destroy with
      | none => .ub
      | some _ => .ok (m.set i none)

/-- A history; it goes on after exceptions.  For any.h 21-338 and any.cpp 27-117. -/
def run : Vars V → List (Op V) → Res (Vars V)
  | m, [] => .ok m
  | m, op :: ops =>
    match step m op with
    | .ok m' => run m' ops
    | .threw m' => run m' ops
    | .ub => .ub

end Verif.Holder.Any

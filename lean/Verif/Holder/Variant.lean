/-
Model of `variant`, variant.h 83-571, and MultiStorageFor.h 16-40.

`V` is the union of the values of all alternatives; an alternative is its index in the type list.  Storage is raw memory or holds
one object.  Constructing over a live object, destroying or reading what is not there (or is of another type) is `ub`.
Destructors do not throw (variant.h 199 is fatal otherwise).
-/
namespace Verif.Holder

/-- How a constructor of an alternative ends: normally, with a `std::exception`, with another exception.  For variant.h 83-571. -/
inductive Ctor where
  | ok
  | std
  | other
deriving DecidableEq, Repr

/-- `_type` and `_storage`, variant.h 92-93; the object in the storage with its real type. -/
structure Slot (V : Type) where
  type : Nat
  live : Option (Nat × V)
deriving DecidableEq, Repr

/-- The kind of variant: `some (e, v)` if the list contains `EmptyType` (at index `e`, with value `v`).  For variant.h 83-571. -/
abbrev Empty (V : Type) := Option (Nat × V)

/-- The end of an operation: normally, with an exception, `STINGRAYKIT_FATAL`, undefined behaviour.  For variant.h 83-571. -/
inductive Res (σ : Type) where
  | ok (s : σ)
  | threw (s : σ)
  | fatal
  | ub
deriving DecidableEq, Repr

variable {V : Type}

/-- `Destruct`, variant.h 214 with 70-80 and 199. -/
def Slot.destruct (s : Slot V) : Option (Slot V) :=
  match s.live with
  | some (t, _) => if t = s.type then some { s with live := none } else none
  | none => none

/-- The reference a visitor gets, variant.h 190-193; `none` is undefined. -/
def Slot.read (s : Slot V) : Option V :=
  match s.live with
  | some (t, v) => if t = s.type then some v else none
  | none => none

/-- `AssignVal` and the second part of `emplace`, variant.h 374-375, 382-383 (never empty), 510-516, 523-529 and 532-536. -/
def Slot.assignVal (em : Empty V) (s : Slot V) (t : Nat) (v : V) (c : Ctor) : Res (Slot V) :=
  match s.live with
  | some _ => .ub
  | none =>
    match c with
    | .ok => .ok ⟨t, some (t, v)⟩
    | .std =>
      match em with
      | none => .fatal
      | some (e, ev) => .threw ⟨e, some (e, ev)⟩
    | .other => .threw s

/-- The variables of a program; those that do not exist are `none`.  For variant.h 83-571. -/
abbrev Vars (V : Type) := Nat → Option (Slot V)

/-- Change of one variable of a program that uses variant.h 83-571. -/
def Vars.set (m : Vars V) (i : Nat) (s : Option (Slot V)) : Vars V := fun k => if k = i then s else m k

/-- Put the slot of a variable back.  For variant.h 83-571. -/
def putBack (m : Vars V) (i : Nat) : Res (Slot V) → Res (Vars V)
  | .ok s => .ok (m.set i (some s))
  | .threw s => .threw (m.set i (some s))
  | .fatal => .fatal
  | .ub => .ub

/-- A constructor that throws leaves no variable.  For variant.h 83-571. -/
def putNew (m : Vars V) (i : Nat) : Res (Slot V) → Res (Vars V)
  | .ok s => .ok (m.set i (some s))
  | .threw _ => .threw m
  | .fatal => .fatal
  | .ub => .ub

/-- The operations.  For variant.h 83-571. -/
inductive Op (V : Type) where
  | construct (i t : Nat) (v : V) (c : Ctor)
  | copyConstruct (i j : Nat) (c : Ctor)
  | moveConstruct (i j : Nat) (c : Ctor)
  | assignValue (i t : Nat) (v : V) (c : Ctor)
  | emplace (i t : Nat) (v : V) (c : Ctor)
  | assign (i j : Nat) (c : Ctor)
  | moveAssign (i j : Nat) (c : Ctor)
  | destroy (i : Nat)
deriving Repr

/-- After a move constructor the source holds the moved-from value.  For variant.h 83-571. -/
def leaveMoved (moved : V → V) (j : Nat) (v : V) : Res (Vars V) → Res (Vars V)
  | .ok m =>
    match m j with
    | some s => .ok (m.set j (some { s with live := some (s.type, moved v) }))
    | none => .ub
  | r => r

/-- Destroy, then construct from a value: variant.h 322-327, 371-376, 459-463, 507-517. -/
def overwrite (em : Empty V) (m : Vars V) (i t : Nat) (v : V) (c : Ctor) : Res (Vars V) :=
  match m i with
  | none => .ub
  | some s =>
    match s.destruct with
    | none => .ub
    | some s => putBack m i (s.assignVal em t v c)

/-- Destroy, then visit the other variant: variant.h 310-320, 398-399, 446-456, 550-551.  The other is visited after the
destruction. -/
def overwriteFrom (em : Empty V) (m : Vars V) (i j : Nat) (c : Ctor) (fin : V → Res (Vars V) → Res (Vars V)) : Res (Vars V) :=
  match m i with
  | none => .ub
  | some s =>
    match s.destruct with
    | none => .ub
    | some s =>
      match (m.set i (some s)) j with
      | none => .ub
      | some o =>
        match o.read with
        | none => .ub
        | some v => fin v (putBack m i (s.assignVal em o.type v c))

/-- One operation.  For variant.h 83-571. -/
def step (em : Empty V) (moved : V → V) (m : Vars V) : Op V → Res (Vars V)
  | .construct i t v c => putNew m i (Slot.assignVal em ⟨0, none⟩ t v c)
  | .copyConstruct i j c =>
    match (m j).bind (fun o => o.read.map (fun v => (o.type, v))) with
    | none => .ub
    | some (t, v) => putNew m i (Slot.assignVal em ⟨0, none⟩ t v c)
  | .moveConstruct i j c =>
    match (m j).bind (fun o => o.read.map (fun v => (o.type, v))) with
    | none => .ub
    | some (t, v) => leaveMoved moved j v (putNew m i (Slot.assignVal em ⟨0, none⟩ t v c))
  | .assignValue i t v c => overwrite em m i t v c
  | .emplace i t v c => overwrite em m i t v c
  | .assign i j c => overwriteFrom em m i j c (fun _ r => r)
  | .moveAssign i j c => overwriteFrom em m i j c (leaveMoved moved j)
  | .destroy i =>
    match m i with
    | none => .ub
    | some s =>
      match s.destruct with
      | none => .ub
      | some _ => .ok (m.set i none)

/-- A history; it goes on after exceptions.  For variant.h 83-571. -/
def run (em : Empty V) (moved : V → V) : Vars V → List (Op V) → Res (Vars V)
  | m, [] => .ok m
  | m, op :: ops =>
    match step em moved m op with
    | .ok m' => run em moved m' ops
    | .threw m' => run em moved m' ops
    | .fatal => .fatal
    | .ub => .ub

/-- `get<T>`, variant.h 144-162, for an alternative; `some none` is `bad_variant_get`, `none` is undefined. -/
def Slot.get (s : Slot V) (t : Nat) : Option (Option V) :=
  match s.read with
  | none => none
  | some v => if s.type = t then some (some v) else some none

/-- `operator ==`, variant.h 350-356 and 486-492. -/
def Slot.eq (eq : V → V → Bool) (a b : Slot V) : Option Bool :=
  if a.type ≠ b.type then some false
  else
    match a.read, b.read with
    | some x, some y => some (eq x y)
    | _, _ => none

/-- `operator <`, variant.h 360-366 and 496-502. -/
def Slot.lt (lt : V → V → Bool) (a b : Slot V) : Option Bool :=
  if a.type ≠ b.type then some (a.type < b.type)
  else
    match a.read, b.read with
    | some x, some y => some (lt x y)
    | _, _ => none

end Verif.Holder

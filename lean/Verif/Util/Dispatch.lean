/-
Model of the dispatch on types: `IVisitor`, IVisitor.h 42-296, `Multidispatch`, VariantMultidispatch.h 24-98, and `CollectionOpVariant`,
collection/CollectionOpVariant.h 16-118, with `apply_visitor` and `get` of variant.h 66-82, 154-162.
-/
namespace Verif.Util.Dispatch

/-- A class on the way from the class of an object to the base: its number and whether it is `Visitable`, IVisitor.h 210-211. -/
structure Class where
  id : Nat
  visitable : Bool
deriving DecidableEq, Repr

/-- A visitor: the classes of its list and whether it overrides `Visit` for the base, IVisitor.h 51-52, 82-87, 181-189. -/
structure Visitor where
  handles : List Nat
  forBase : Bool
deriving DecidableEq, Repr

/-- What happens: `Visit` for a class, `Visit` for the base, the exception of `VisitorImpl`'s default (IVisitor.h 82-87); `hidden` if no class has `Accept` and the
object cannot be visited (it would be abstract, IVisitor.h 192-197). -/
inductive Visited where
  | derived (id : Nat)
  | base
  | threw
  | hidden
deriving DecidableEq, Repr

/-- The class whose `Accept` is called: the nearest `Visitable`, IVisitor.h 210-219. -/
def acceptor : List Class → Option Nat
  | [] => none
  | c :: cs => if c.visitable then some c.id else acceptor cs

/-- `ApplyVisitor`, IVisitor.h 252-257, 268-294, with `Accept`, 213-219: `classes` are those of the object, from its own to the base's successor. -/
def applyVisitor (v : Visitor) (classes : List Class) : Visited :=
  match acceptor classes with
  | none => .hidden
  | some d => if v.handles.contains d then .derived d else if v.forBase then .base else .threw

/-- A value of a variant: the index of its type and the value, variant.h 92-93. -/
structure Val (V : Type) where
  which : Nat
  value : V
deriving DecidableEq, Repr

/-- `VariantFunctorApplier`, variant.h 66-82: the types are tried from the first; `none` is `STINGRAYKIT_FATAL`.  The function is instantiated for every type. -/
def applyVal {V R : Type} (types : Nat) (f : Nat → V → Option R) (x : Val V) (index : Nat) : Nat → Option R
  | 0 => none
  | left + 1 => if x.which = index then f index x.value else applyVal types f x (index + 1) left

/-- `MultiDispatchVisitor`, VariantMultidispatch.h 24-71: the variants still to resolve, each with the number of its types, and the resolved values, the last first. -/
def dispatch {V R : Type} (f : List (Nat × V) → R) : List (Nat × Val V) → List (Nat × V) → Nat → V → Option R
  | [], resolved, t, v => some (f ((t, v) :: resolved).reverse)
  | (n, x) :: rest, resolved, t, v => applyVal n (dispatch f rest ((t, v) :: resolved)) x 0 n

/-- `Multidispatch`, VariantMultidispatch.h 74-79. -/
def multidispatch {V R : Type} (f : List (Nat × V) → R) (first : Nat × Val V) (rest : List (Nat × Val V)) : Option R :=
  applyVal first.1 (dispatch f rest []) first.2 0 first.1

/-- `CollectionOp`, CollectionOpVariant.h 85-94. -/
inductive Op where
  | added
  | removed
  | updated
deriving DecidableEq, Repr

/-- `CollectionOpVariant`, CollectionOpVariant.h 69-73: the index of the type in `Types` and the values. -/
structure OpVariant (T : Type) where
  which : Nat
  values : List T
deriving DecidableEq, Repr

/-- CollectionOpVariant.h 76-78. -/
def OpVariant.empty {T : Type} : OpVariant T := ⟨0, []⟩
/-- CollectionOpVariant.h 110. -/
def OpVariant.createAdded {T : Type} (x : T) : OpVariant T := ⟨1, [x]⟩
/-- CollectionOpVariant.h 111. -/
def OpVariant.createRemoved {T : Type} (x : T) : OpVariant T := ⟨2, [x]⟩
/-- CollectionOpVariant.h 112. -/
def OpVariant.createModified {T : Type} (x y : T) : OpVariant T := ⟨3, [x, y]⟩

/-- `GetOp`, CollectionOpVariant.h 85-94. -/
def OpVariant.getOp {T : Type} (v : OpVariant T) : Option Op :=
  match v.which with
  | 1 => some .added
  | 3 => some .updated
  | 2 => some .removed
  | _ => none

/-- `AsAdded`, `AsRemoved`, CollectionOpVariant.h 96-101; variant.h 154-162. -/
def OpVariant.asOne {T : Type} (index : Nat) (v : OpVariant T) : Option T :=
  if v.which = index then v.values[0]? else none

/-- `AsModified`, CollectionOpVariant.h 102: the old and the new value. -/
def OpVariant.asModified {T : Type} (v : OpVariant T) : Option (T × T) :=
  if v.which = 3 then
    match v.values with
    | [x, y] => some (x, y)
    | _ => none
  else none

end Verif.Util.Dispatch

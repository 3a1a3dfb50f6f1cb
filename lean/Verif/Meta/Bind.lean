import Verif.Meta.Tuple
/-
Model of `Bind`, function/bind.h 49-299, and of the invocation of functors with tuples, function/FunctorInvoker.h 26-83.
Functors, their results and arguments are abstract; arguments are references: an object and the category of the expression.  `none`: does not compile.
Simplified: values stored are copies of what is given to `Bind`; nested binders are called in the order they are stored (they are called once each); the pointer to the object of a
method (FunctorInvoker.h 47-69) is an argument like the others.
-/
namespace Verif.Meta.Bnd

open Verif.Meta.TypeList

/-- Categories of references, bind.h 137-154, 271-275. -/
inductive Cat where
  | lval
  | constLval
  | rval
  | constRval
deriving DecidableEq, Repr

/-- A reference: bind.h 254 (`Us&&`). -/
structure Ref (V : Type) where
  obj : V
  cat : Cat
deriving DecidableEq, Repr

/-- What a `Binder` stores: bind.h 239-241, 278-280: functor, numbers of placeholders in `AllParameters` (0: `IsPlaceholder` is 0), `_boundParams`. -/
inductive Stored (F V : Type) where
  | value (v : V)
  | binder (func : F) (kinds : List Nat) (bound : List (Stored F V))

/-- Arguments of `Bind`: bind.h 28-43, 297-299: `Placeholder<n + 1>` or something to be stored. -/
inductive Arg (F V : Type) where
  | ph (n : Nat)
  | obj (s : Stored F V)

variable {F V : Type}

/-- `IsPlaceholder`: bind.h 35-36, 43. -/
def isPlaceholder : Arg F V → Nat
  | .ph n => n + 1
  | .obj _ => 0

/-- `GetBinderParamsCount`: bind.h 49-60. -/
def paramsCount : List Nat → Nat
  | [] => 0
  | k :: ks => if paramsCount ks > k then paramsCount ks else k

/-- `BinderSingleParamTypeGetter`: bind.h 71-81; `none` is `AbsentParamDummy`, `some none` does not compile. -/
def paramType {τ : Type} (original : List τ) (kinds : List Nat) (i : Nat) : Option (Option τ) :=
  match indexOf kinds (i + 1) 0 with
  | none => none
  | some j => some (item original j)

/-- `BinderParamTypesGetter`: bind.h 83-89; the first argument is the number of parameters left. -/
def paramTypes {τ : Type} (original : List τ) (kinds : List Nat) : Nat → Nat → List (Option (Option τ))
  | 0, _ => []
  | n + 1, i => paramType original kinds i :: paramTypes original kinds n (i + 1)

/-- `Counter` at the end of `BoundParamNumbersGetter`: bind.h 117-122. -/
def boundTotal (kinds : List Nat) : Nat := length (copyIf (fun k => decide (k = 0)) kinds)

/-- `BoundParamNumbersGetter`: bind.h 107-115: numbers and `Counter`. -/
def boundNumbers (total : Nat) : List Nat → List Int × Int
  | [] => ([], total)
  | k :: ks =>
    ((if k ≠ 0 then -1 else (boundNumbers total ks).2 - 1) :: (boundNumbers total ks).1,
      (boundNumbers total ks).2 - (if k ≠ 0 then 0 else 1))

/-- `NonPlaceholdersCutter::Get`: bind.h 223-229. -/
def cutterGet (args : List (Arg F V)) (k : Nat) : Option (Stored F V) :=
  match indexOf (boundNumbers (boundTotal (transform isPlaceholder args)) (transform isPlaceholder args)).1 (k : Int) 0 with
  | none => none
  | some i =>
    match item args i with
    | some (.obj s) => some s
    | _ => none

/-- Items number 0, 1, ..., n - 1 of a tuple-like object: Tuple.h 115-123, FunctorInvoker.h 33-44. -/
def gather {β : Type} (g : Nat → Option β) : Nat → Nat → Option (List β)
  | 0, _ => some []
  | n + 1, i =>
    match g i, gather g n (i + 1) with
    | some x, some l => some (x :: l)
    | _, _ => none

/-- `Bind`, `Binder::Binder`: bind.h 283-285, 297-299. -/
def bind (func : F) (args : List (Arg F V)) : Option (Stored F V) :=
  match gather (cutterGet args) (boundTotal (transform isPlaceholder args)) 0 with
  | none => none
  | some bound => some (.binder func (transform isPlaceholder args) bound)

/-- Reference passed for a placeholder: bind.h 148-154, 267-275: `Get() &&` for references to rvalues that are not const, else `Get() const &`. -/
def passPlaceholder (r : Ref V) : Ref V :=
  match r.cat with
  | .rval => ⟨r.obj, .rval⟩
  | .lval => ⟨r.obj, .lval⟩
  | .constLval => ⟨r.obj, .constLval⟩
  | .constRval => ⟨r.obj, .constLval⟩

/-- `Tuple<BinderParams>::Get() const &`: Tuple.h 137-139: references collapse to references to lvalues. -/
def passConstTuple (r : Ref V) : Ref V :=
  match r.cat with
  | .rval => ⟨r.obj, .lval⟩
  | .lval => ⟨r.obj, .lval⟩
  | .constLval => ⟨r.obj, .constLval⟩
  | .constRval => ⟨r.obj, .constLval⟩

/-- `ParamSelector::Get`: bind.h 166-204; `results` are the bound parameters, nested binders already called. -/
def select (kinds : List Nat) (numbers : List Int) (results : List (Option (Ref V))) (params : List (Ref V)) (i : Nat) : Option (Ref V) :=
  match item kinds i with
  | none => none
  | some 0 =>
    match item numbers i with
    | some (.ofNat n) =>
      match item results n with
      | some r => r
      | none => none
    | _ => none
  | some (n + 1) =>
    match item params n with
    | none => none
    | some r => some (passPlaceholder r)

/-- The parameters of the functor: bind.h 287-289, FunctorInvoker.h 33-44. -/
def gatherParams (kinds : List Nat) (results : List (Option (Ref V))) (params : List (Ref V)) : Option (List (Ref V)) :=
  gather (select kinds (boundNumbers (boundTotal kinds) kinds).1 results params) (length kinds) 0

mutual
/-- `Binder::operator ()`: bind.h 287-289; `sem` is the effect of functors. -/
def call (sem : F → List (Ref V) → Option (Ref V)) (refRet : F → Bool) : Stored F V → List (Ref V) → Option (Ref V)
  | .value _, _ => none
  | .binder func kinds bound, params =>
    match gatherParams kinds (bounds sem refRet bound params) params with
    | none => none
    | some args => sem func args

/-- Values of the bound parameters: bind.h 140-146, 196-203, 271-275: nested binders get the parameters as rvalue tuple unless they return references. -/
def bounds (sem : F → List (Ref V) → Option (Ref V)) (refRet : F → Bool) : List (Stored F V) → List (Ref V) → List (Option (Ref V))
  | [], _ => []
  | .value v :: l, params => some ⟨v, .constLval⟩ :: bounds sem refRet l params
  | .binder func kinds bound :: l, params =>
    (if refRet func then call sem refRet (.binder func kinds bound) (transform passConstTuple params)
      else call sem refRet (.binder func kinds bound) params) :: bounds sem refRet l params
end

end Verif.Meta.Bnd

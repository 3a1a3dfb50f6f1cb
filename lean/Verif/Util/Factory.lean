/-
Model of `FactoryContext` (stingraykit/factory/Factory.cpp 22-77, factory/Factory.h 45-84): a registry of
named classes on top of another one.

A class is a number (its `TypeInfo`); what `Create` returns is the class of the new object.  A context is
the list of its two registries, its base context follows it in the chain.  Every method holds the mutex of the context it works on, so
the calls on one context are ordered.
-/
namespace Verif.Factory

/-- The two registries of a context (Factory.h 50-59). -/
structure Ctx where
  creators : List (String × Nat)
  classNames : List (Nat × String)
deriving DecidableEq, Repr

/-- `FactoryContext()` (Factory.cpp 22-23). -/
def Ctx.empty : Ctx := { creators := [], classNames := [] }

/-- `find` in a `std::map` (Factory.cpp 38, 54, 57 and 70). -/
def find {κ ν : Type} [DecidableEq κ] (k : κ) : List (κ × ν) → Option ν
  | [] => none
  | (k', v) :: m => if k' = k then some v else find k m

/-- `Register` (Factory.cpp 48-62); `none` means it throws, before changing anything. -/
def Ctx.register (c : Ctx) (name : String) (cls : Nat) : Option Ctx :=
  match find name c.creators with
  | some _ => none
  | none =>
    some { creators := c.creators ++ [(name, cls)]
           classNames := match find cls c.classNames with
             | none => c.classNames ++ [(cls, name)]
             | some _ => c.classNames }

/-- The state after a call of `Register`, whether it throws or not (Factory.cpp 48-62). -/
def Ctx.after (c : Ctx) (call : String × Nat) : Ctx := (c.register call.1 call.2).getD c

/-- `GetClassName` (Factory.cpp 31-45) on a context and its base contexts; `none` means it throws. -/
def getClassName (cls : Nat) : List Ctx → Option String
  | [] => none
  | c :: base =>
    match find cls c.classNames with
    | some n => some n
    | none => getClassName cls base

/-- `Create(name)` (Factory.cpp 65-77): the class of the object; `none` means it throws. -/
def create (name : String) : List Ctx → Option Nat
  | [] => none
  | c :: base =>
    match find name c.creators with
    | some t => some t
    | none => create name base

/-- `Create<ClassType>(name)` (Factory.h 71-78): the object is cast to the wanted class; `none` means it
throws. `derives t w`: `t` is `w` or derived from it. -/
def createAs (derives : Nat → Nat → Bool) (wanted : Nat) (name : String) (cs : List Ctx) : Option Nat :=
  match create name cs with
  | none => none
  | some t => if derives t wanted then some t else none

end Verif.Factory

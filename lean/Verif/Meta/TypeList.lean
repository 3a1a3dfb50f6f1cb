/-
Model of the algorithms on lists of types, TypeList.h 23-352, and of the dispatch by tag built on them, GenericEntityFactory.h 19-49, 99-105.
A list of types is a list; predicates and orders on types are functions.  Simplified: `TypeList<...>` of nothing but end nodes is the empty list (TypeList.h 60-64); this
matters only for trailing empty lists given to `TypeListMerge`, which add nothing.
-/
namespace Verif.Meta.TypeList

variable {α : Type}

/-- `Detail::ListMerge`: TypeList.h 74-80. -/
def listMerge : List α → List α → List α
  | [], b => b
  | x :: a, b => x :: listMerge a b

/-- `TypeListMerge`: TypeList.h 83-89. -/
def merge : List (List α) → List α → List α
  | [], r => r
  | l :: ls, r => merge ls (listMerge r l)

/-- `GetTypeListLength`: TypeList.h 91-97. -/
def length : List α → Nat
  | [] => 0
  | _ :: l => length l + 1

/-- `GetTypeListItem`: TypeList.h 99-109; `none`: does not compile. -/
def item : List α → Nat → Option α
  | [], _ => none
  | x :: _, 0 => some x
  | _ :: l, n + 1 => item l n

/-- `TypeListAppend`: TypeList.h 111-117. -/
def append : List α → α → List α
  | [], v => [v]
  | x :: l, v => x :: append l v

/-- `IndexOfTypeListItem`: TypeList.h 147-169; `none` is `TypeListNpos`. -/
def indexOf [DecidableEq α] : List α → α → Nat → Option Nat
  | [], _, _ => none
  | x :: l, t, k =>
    if x = t then
      match k with
      | 0 => some 0
      | k + 1 => match indexOf l t k with
        | none => none
        | some i => some (i + 1)
    else match indexOf l t k with
      | none => none
      | some i => some (i + 1)

/-- `TypeListCopyIf`: TypeList.h 175-202. -/
def copyIf (p : α → Bool) : List α → List α
  | [] => []
  | x :: l => if p x then x :: copyIf p l else copyIf p l

/-- `TypeListAccumulate`: TypeList.h 205-211. -/
def accumulate {β : Type} (f : α → β → β) (init : β) : List α → β
  | [] => init
  | x :: l => f x (accumulate f init l)

/-- `TypeListTransform`: TypeList.h 228-234. -/
def transform {β : Type} (f : α → β) : List α → List β
  | [] => []
  | x :: l => f x :: transform f l

/-- `TypeListReverse`: TypeList.h 246-252. -/
def reverse : List α → List α
  | [] => []
  | x :: l => append (reverse l) x

/-- `MaxElement`: TypeList.h 264-276; `none`: does not compile. -/
def maxElement (less : α → α → Bool) : List α → Option α
  | [] => none
  | [x] => some x
  | x :: l => match maxElement less l with
    | none => none
    | some n => some (if less x n then n else x)

/-- `MinElement`: TypeList.h 279-291. -/
def minElement (less : α → α → Bool) : List α → Option α
  | [] => none
  | [x] => some x
  | x :: l => match minElement less l with
    | none => none
    | some n => some (if less x n then x else n)

/-- `TypeListSort`: TypeList.h 294-305; the first argument bounds the depth (the lists get shorter). -/
def sort (less : α → α → Bool) : Nat → List α → List α
  | _, [] => []
  | 0, _ => []
  | n + 1, x :: l =>
    merge [sort less n (copyIf (fun y => less y x) l), [x], sort less n (copyIf (fun y => !less y x) l)] []

/-- Trees of `BalancedTypeTree`: TypeList.h 318-327, GenericEntityFactory.h 25-45. -/
inductive Tree (α : Type) where
  | leaf
  | branch (entry : α) (left right : Tree α)
deriving Repr

/-- `Detail::BalancedTypeTreeImpl`: TypeList.h 311-327; the first argument bounds the depth; `none`: does not compile. -/
def treeImpl (l : List α) : Nat → Nat → Nat → Option (Tree α)
  | 0, b, e => if b = e then some .leaf else none
  | n + 1, b, e =>
    if b = e then some .leaf
    else
      match item l (b + (e - b) / 2), treeImpl l n b (b + (e - b) / 2), treeImpl l n (b + (e - b) / 2 + 1) e with
      | some x, some t, some u => some (.branch x t u)
      | _, _, _ => none

/-- `BalancedTypeTree`: TypeList.h 331-333. -/
def balanced (less : α → α → Bool) (l : List α) : Option (Tree α) :=
  treeImpl (sort less (length l) l) (length (sort less (length l) l)) 0 (length (sort less (length l) l))

/-- `BranchNode::Process` and `LeafNode::Process`: GenericEntityFactory.h 25-45: the entry whose function is called (`none`: `LeafFunc`), and the number of branches visited. -/
def process (tagOf : α → Int) (tag : Int) : Tree α → Option α × Nat
  | .leaf => (none, 0)
  | .branch x l r =>
    if tag = tagOf x then (some x, 1)
    else if tag < tagOf x then ((process tagOf tag l).1, (process tagOf tag l).2 + 1)
    else ((process tagOf tag r).1, (process tagOf tag r).2 + 1)

/-- `EnumDrivenInvoker` for a registry, `GenericInvoker::Invoke`: GenericEntityFactory.h 22-23, 48, 99-105. -/
def invoke (tagOf : α → Int) (registry : List α) (tag : Int) : Option (Option α × Nat) :=
  (balanced (fun a b => decide (tagOf a < tagOf b)) registry).map (process tagOf tag)

end Verif.Meta.TypeList

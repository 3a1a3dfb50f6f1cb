import Verif.Coll.Kinds
/-
Sets, dictionaries, multi sets and multi dictionaries as their users think of them: the entries in the order in which they were added,
keys compared up to equivalence.
-/
namespace Verif.Coll.Spec
open Verif.Order
variable {κ ν : Type}

/-- The entries with this key. -/
def all (lt : κ → κ → Bool) (l : List (κ × ν)) (k : κ) : List (κ × ν) := l.filter (fun e => equiv lt e.1 k)

/-- Is the key there? -/
def has (lt : κ → κ → Bool) (l : List (κ × ν)) (k : κ) : Bool := l.any (fun e => equiv lt e.1 k)

/-- Its value. -/
def value (lt : κ → κ → Bool) (l : List (κ × ν)) (k : κ) : Option ν := (all lt l k).head?.map Prod.snd

def dictStep (lt : κ → κ → Bool) (l : List (κ × ν)) : Dict.Op κ ν → List (κ × ν) × Dict.Res
  | .add k v => if has lt l k then (l, .bool false) else (l ++ [(k, v)], .bool true)
  | .set k v => if has lt l k then (l.map (fun e => if equiv lt e.1 k then (e.1, v) else e), .unit) else (l ++ [(k, v)], .unit)
  | .remove k => (l.filter (fun e => !equiv lt e.1 k), .bool (has lt l k))
  | .removeWhere p => (l.filter (fun e => !p e.1 e.2), .num (l.countP (fun e => p e.1 e.2)))
  | .clear => ([], .unit)

def dictRun (lt : κ → κ → Bool) : List (κ × ν) → List (Dict.Op κ ν) → List (κ × ν) × List Dict.Res
  | l, [] => (l, [])
  | l, op :: ops => ((dictRun lt (dictStep lt l op).1 ops).1, (dictStep lt l op).2 :: (dictRun lt (dictStep lt l op).1 ops).2)

/-- The order in which a set or dictionary shows its entries. -/
def Arranged (kind : Kind) (lt : κ → κ → Bool) (xs l : List (κ × ν)) : Prop :=
  match kind with
  | .sorted => xs.Perm l ∧ xs.Pairwise (fun a b => lt a.1 b.1 = true)
  | .insertion => xs = l

/-- Multi dictionaries: the entries of a key are kept, and removed, in the order in which they were added. -/
def multiStep (lt : κ → κ → Bool) [DecidableEq ν] (l : List (κ × ν)) : Multi.Op κ ν → List (κ × ν) × Dict.Res
  | .add k v => (l ++ [(k, v)], .unit)
  | .removeFirst k none => (l.eraseP (fun e => equiv lt e.1 k), .bool (has lt l k))
  | .removeFirst k (some v) => (l.eraseP (fun e => equiv lt e.1 k && decide (e.2 = v)), .bool (l.any (fun e => equiv lt e.1 k && decide (e.2 = v))))
  | .removeAll k => (l.filter (fun e => !equiv lt e.1 k), .num (all lt l k).length)
  | .removeWhere p => (l.filter (fun e => !p e.1 e.2), .num (l.countP (fun e => p e.1 e.2)))
  | .clear => ([], .unit)

def multiRun (lt : κ → κ → Bool) [DecidableEq ν] : List (κ × ν) → List (Multi.Op κ ν) → List (κ × ν) × List Dict.Res
  | l, [] => (l, [])
  | l, op :: ops => ((multiRun lt (multiStep lt l op).1 ops).1, (multiStep lt l op).2 :: (multiRun lt (multiStep lt l op).1 ops).2)

/-- A multi dictionary shows its entries in key order, those of one key in the order in which they were added. -/
structure MultiArranged (lt : κ → κ → Bool) (xs l : List (κ × ν)) : Prop where
  perm : xs.Perm l
  sorted : xs.Pairwise (fun a b => lt b.1 a.1 = false)
  stable : ∀ k, all lt xs k = all lt l k

end Verif.Coll.Spec

import Verif.Token.Compose
/-
Model of ObjectPool.h 22-60: a pool that holds shared objects and lets go of those nobody else uses.  Objects are the reference counted nodes of `Token/Compose`
(shared_ptr.h 185-198, 422-431), so they can hold one another.  Not modelled: the mutex (each call is one step) and destructors that use the pool themselves.
-/
namespace Verif.Holder.ObjectPool

open Verif.Token.Compose (Node Act)

/-- All objects, the references of the user, the references in the pool, and the objects destroyed.  ObjectPool.h 34-46. -/
structure State where
  nodes : List Node
  user : List Nat
  pool : List Nat
  log : List Nat
deriving DecidableEq, Repr

/-- An empty pool: ObjectPool.h 49. -/
def State.init : State := ⟨[], [], [], []⟩

/-- The loop of `CollectGarbage`: ObjectPool.h 58, with `TryRemove`, ObjectPool.h 39 and shared_ptr.h 422-431: a holder whose reference is the only one lets go of it and is removed.
`kept` are the holders passed already. -/
def collectLoop : Token.Compose.State → List Nat → List Nat → Option (Token.Compose.State × List Nat)
  | g, kept, [] => some (g, kept)
  | g, kept, x :: r =>
    match g.nodes[x]? with
    | none => none
    | some n =>
      if n.count = 1 then
        match Token.Compose.release g.work g [x] with
        | none => none
        | some g' => collectLoop g' kept r
      else collectLoop g (kept ++ [x]) r

/-- What the program does, for ObjectPool.h 22-60. -/
inductive Op where
  | user (a : Act)
  | add (x : Nat)
  | collect
deriving DecidableEq, Repr

/-- One step: something the user does with his references, `AddObject`, ObjectPool.h 51-53, `CollectGarbage`, ObjectPool.h 55-59. -/
def step (s : State) : Op → Option State
  | .user a =>
    match Token.Compose.step ⟨s.nodes, s.user, s.log⟩ a with
    | none => none
    | some g => some ⟨g.nodes, g.ext, s.pool, g.log⟩
  | .add x =>
    if s.user.contains x then some { s with nodes := s.nodes.modify x (fun n => { n with count := n.count + 1 }), pool := s.pool ++ [x] } else none
  | .collect =>
    match collectLoop ⟨s.nodes, s.user, s.log⟩ [] s.pool with
    | none => none
    | some (g, kept) => some ⟨g.nodes, g.ext, kept, g.log⟩

/-- A history, for ObjectPool.h 22-60. -/
def run (s : State) : List Op → Option State
  | [] => some s
  | a :: r => match step s a with
    | none => none
    | some s' => run s' r

end Verif.Holder.ObjectPool

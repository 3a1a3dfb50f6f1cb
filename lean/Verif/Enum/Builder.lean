/-
Model of `EnumerableBuilder`, collection/EnumerableBuilder.h 18-52, with the enumerables and enumerators it gives, collection/EnumerableFromStlContainer.h 38-119,
131-137.  A vector has a version, which grows with every element: `push_back` invalidates the iterator to the end, and all iterators if the vector moves.
The use of an invalid iterator is `ub`.
-/
namespace Verif.Enum.Builder

/-- A pair of iterators: the vector, its version when they were taken, and what they point to.  EnumerableFromStlContainer.h 45-47, 108-110. -/
structure Iters where
  vec : Nat
  version : Nat
  cur : Nat
  last : Nat
deriving DecidableEq, Repr

/-- The vectors with their versions, the builders (each refers to a vector, EnumerableBuilder.h 27), the enumerables and the enumerators. -/
structure State (T : Type) where
  vecs : List (List T × Nat)
  builders : List Nat
  enumerables : List Iters
  enumerators : List Iters
deriving DecidableEq, Repr

/-- EnumerableBuilder.h 30-51, EnumerableFromStlContainer.h 54-67, 117-118. -/
inductive Act (T : Type) where
  | make (xs : List T)          -- EnumerableBuilder.h 30-35
  | copy (b : Nat)              -- the implicit copy constructor
  | add (b : Nat) (xs : List T) -- EnumerableBuilder.h 43-51
  | get (b : Nat)               -- EnumerableBuilder.h 37-41
  | enumerate (e : Nat)         -- EnumerableFromStlContainer.h 117-118
  | valid (i : Nat)             -- EnumerableFromStlContainer.h 54-55
  | read (i : Nat)              -- EnumerableFromStlContainer.h 57-61
  | next (i : Nat)              -- EnumerableFromStlContainer.h 63-67
deriving DecidableEq, Repr

/-- What is seen, EnumerableFromStlContainer.h 54-67. -/
inductive Out (T : Type) where
  | done
  | bool (b : Bool)
  | item (x : T)
  | threw
  | ub
deriving DecidableEq, Repr

/-- The iterators are usable.  EnumerableBuilder.h 44, 48. -/
def usable {T : Type} (s : State T) (i : Iters) : Bool :=
  match s.vecs[i.vec]? with
  | none => false
  | some v => v.2 == i.version

/-- One operation; `none` if there is no such object.  EnumerableBuilder.h 30-51, EnumerableFromStlContainer.h 54-67, 117-118. -/
def step {T : Type} (s : State T) : Act T → Option (State T × Out T)
  | .make xs => some ({ s with vecs := s.vecs ++ [(xs, 0)], builders := s.builders ++ [s.vecs.length] }, .done)
  | .copy b =>
    match s.builders[b]? with
    | none => none
    | some c => some ({ s with builders := s.builders ++ [c] }, .done)
  | .add b xs =>
    match s.builders[b]? with
    | none => none
    | some c =>
      match s.vecs[c]? with
      | none => none
      | some v => some ({ s with vecs := s.vecs.set c (v.1 ++ xs, v.2 + xs.length) }, .done)
  | .get b =>
    match s.builders[b]? with
    | none => none
    | some c =>
      match s.vecs[c]? with
      | none => none
      | some v => some ({ s with enumerables := s.enumerables ++ [⟨c, v.2, 0, v.1.length⟩] }, .done)
  | .enumerate e =>
    match s.enumerables[e]? with
    | none => none
    -- the iterators are copied; copying invalid iterators is not defined
    | some i => if usable s i then some ({ s with enumerators := s.enumerators ++ [i] }, .done) else some ({ s with enumerators := s.enumerators ++ [i] }, .ub)
  | .valid i =>
    match s.enumerators[i]? with
    | none => none
    | some x => if usable s x then some (s, .bool (x.cur != x.last)) else some (s, .ub)
  | .read i =>
    match s.enumerators[i]? with
    | none => none
    | some x =>
      if usable s x then
        if x.cur = x.last then some (s, .threw)
        else
          match s.vecs[x.vec]? with
          | none => some (s, .ub)
          | some v =>
            match v.1[x.cur]? with
            | none => some (s, .ub)
            | some y => some (s, .item y)
      else some (s, .ub)
  | .next i =>
    match s.enumerators[i]? with
    | none => none
    | some x =>
      if usable s x then
        if x.cur = x.last then some (s, .threw) else some ({ s with enumerators := s.enumerators.set i { x with cur := x.cur + 1 } }, .done)
      else some (s, .ub)

/-- A history.  EnumerableBuilder.h 18-52. -/
def run {T : Type} (s : State T) : List (Act T) → Option (State T × List (Out T))
  | [] => some (s, [])
  | a :: as =>
    match step s a with
    | none => none
    | some (s', o) =>
      match run s' as with
      | none => none
      | some (s'', os) => some (s'', o :: os)

end Verif.Enum.Builder

import Verif.Coll.Cow
/-
What a user of the collections expects: a collection is a value, an enumerator is the list of the elements still to come, as they were
when it was created.  No sharing, no containers, no holders.
-/
namespace Verif.Coll.Spec
variable {α : Type}

/-- What has been given out. -/
inductive Given (α : Type) where
  | enumerator (rest : List α)
  | enumerable (all : List α)

/-- The state of the program as its author sees it. -/
structure State (α : Type) where
  colls : List (List α)
  given : List (Option (Given α))

/-- The elements in a window of a list. -/
def window (xs : List α) (w : Nat × Nat) : List α := (xs.take w.2).drop w.1

def step (s : State α) : Act α → State α × Out α
  | .create => ({ s with colls := s.colls ++ [[]] }, .done)
  | .copy j =>
    match s.colls[j]? with
    | none => (s, .ub)
    | some xs => ({ s with colls := s.colls ++ [xs] }, .done)
  | .assign i j =>
    match s.colls[i]?, s.colls[j]? with
    | some _, some xs => ({ s with colls := s.colls.set i xs }, .done)
    | _, _ => (s, .ub)
  | .mutate i f =>
    match s.colls[i]? with
    | none => (s, .ub)
    | some xs => ({ s with colls := s.colls.set i ((f xs).getD xs) }, .done)
  | .clear i =>
    match s.colls[i]? with
    | none => (s, .ub)
    | some _ => ({ s with colls := s.colls.set i [] }, .done)
  | .query i =>
    match s.colls[i]? with
    | none => (s, .ub)
    | some xs => (s, .contents xs)
  | .enumerate i rev win =>
    match s.colls[i]? with
    | none => (s, .ub)
    | some xs => ({ s with given := s.given ++ [some (.enumerator (window (if rev then xs.reverse else xs) (win xs)))] }, .done)
  | .reverse i =>
    match s.colls[i]? with
    | none => (s, .ub)
    | some xs => ({ s with given := s.given ++ [some (.enumerable xs.reverse)] }, .done)
  | .enumFrom k =>
    match s.given[k]? with
    | some (some (.enumerable xs)) => ({ s with given := s.given ++ [some (.enumerator xs)] }, .done)
    | _ => (s, .ub)
  | .valid k =>
    match s.given[k]? with
    | some (some (.enumerator rest)) => (s, .answer (!rest.isEmpty))
    | _ => (s, .ub)
  | .get k =>
    match s.given[k]? with
    | some (some (.enumerator [])) => (s, .threw)
    | some (some (.enumerator (x :: _))) => (s, .value x)
    | _ => (s, .ub)
  | .next k =>
    match s.given[k]? with
    | some (some (.enumerator [])) => (s, .threw)
    | some (some (.enumerator (_ :: rest))) => ({ s with given := s.given.set k (some (.enumerator rest)) }, .done)
    | _ => (s, .ub)
  | .drop k => ({ s with given := s.given.set k none }, .done)

def run (s : State α) : List (Act α) → State α × List (Out α)
  | [] => (s, [])
  | a :: as => ((run (step s a).1 as).1, (step s a).2 :: (run (step s a).1 as).2)

def empty : State α := ⟨[], []⟩

end Verif.Coll.Spec

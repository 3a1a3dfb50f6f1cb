/-
Model of the macro `FOR_EACH` (ForEach.h) with the enumerator that casts, and of range-based `for` over `IterableEnumerable` (StlEnumeratorAdapter.h).

The nested `for` statements of the macro are run by a general semantics of `for`.  An enumerator is what it still has to give (finite); casts and filters have no effects, the body of the loop is any function
of the item and of a state of the world, and may end normally, with `continue`, `break` or an exception (`return` and `goto` out of the loop leave it like an exception).
-/
namespace Verif.Enum.ForEach
variable {σ α β W : Type}

/-- How a statement ends.  For ForEach.h 126-132. -/
inductive Exit where
  | normal | cont | brk | thrown
  deriving DecidableEq, Repr

/-- `for (; cond; inc) body` of C++; `none`: the bound on the number of rounds was too small.  For ForEach.h 126-132. -/
def forLoop (cond : σ → Bool × σ) (body : σ → Option (Exit × σ)) (inc : σ → σ) : Nat → σ → Option (Exit × σ)
  | 0, _ => none
  | n + 1, s =>
    if (cond s).1 then
      match body (cond s).2 with
      | none => none
      | some (.normal, s') => forLoop cond body inc n (inc s')
      | some (.cont, s') => forLoop cond body inc n (inc s')
      | some (.brk, s') => some (.normal, s')
      | some (.thrown, s') => some (.thrown, s')
    else some (.normal, (cond s).2)

/-- The variables: `__broken__`, `__dummy_bool__`, the source enumerator behind `__en__`, the world.  For ForEach.h 126-132. -/
structure S (α W : Type) where
  broken : Bool
  dummy : Bool
  en : List α
  w : W
  deriving DecidableEq

/-- `ForEachEnumeratorCaster::FindNext`; `none`: the cast gives null.  ForEach.h 86-94. -/
def findNext (cast : α → Option β) : List α → List α
  | [] => []
  | x :: l =>
    match cast x with
    | some _ => x :: l
    | none => findNext cast l

/-- `Next` of the enumerator that casts: ForEach.h 79-83. -/
def next (cast : α → Option β) (l : List α) : List α := findNext cast (l.drop 1)

/-- `Get` of the enumerator that casts (after FindNext; a null is not reached).  ForEach.h 73-77. -/
def current (cast : α → Option β) (l : List α) : Option β :=
  match l with
  | [] => none
  | x :: _ => cast x

/-- The condition of the innermost `for`: ForEach.h 132. -/
def cond4 (filter : β → Bool) (x : β) (s : S α W) : Bool × S α W :=
  if s.dummy then
    if filter x then (true, { s with dummy := false, broken := true }) else (false, { s with dummy := false })
  else (false, s)

/-- The innermost `for` with its initialization (`none` from `Get`: "Enumerator is not valid"); it is entered twice at most.  ForEach.h 132. -/
def loop4 (cast : α → Option β) (filter : β → Bool) (body : β → W → Exit × W) (n : Nat) (s : S α W) : Option (Exit × S α W) :=
  match current cast s.en with
  | none => some (.thrown, s)
  | some x => forLoop (cond4 filter x) (fun s => some ((body x s.w).1, { s with w := (body x s.w).2 })) (fun s => { s with broken := false }) n s

/-- The third `for`: ForEach.h 131. -/
def loop3 (cast : α → Option β) (filter : β → Bool) (body : β → W → Exit × W) (n : Nat) (s : S α W) : Option (Exit × S α W) :=
  forLoop (fun s => (s.dummy && !s.broken, s)) (loop4 cast filter body n) (fun s => s) n { s with dummy := true }

/-- The second `for`, over the enumerator: ForEach.h 128-130. -/
def loop2 (cast : α → Option β) (filter : β → Bool) (body : β → W → Exit × W) (n : Nat) (s : S α W) : Option (Exit × S α W) :=
  forLoop (fun s => (!s.en.isEmpty && !s.broken, s)) (loop3 cast filter body n) (fun s => { s with en := next cast s.en }) n { s with en := findNext cast s.en }

/-- `FOR_EACH(x IN src WHERE filter) body`: how it ends, what is left in the enumerator, and the world.  ForEach.h 126-132. -/
def forEach (cast : α → Option β) (filter : β → Bool) (body : β → W → Exit × W) (n : Nat) (src : List α) (w : W) : Option (Exit × List α × W) :=
  match forLoop (fun s => (!s.broken, s)) (loop2 cast filter body n) (fun s => { s with broken := true }) n ⟨false, false, src, w⟩ with
  | none => none
  | some (e, s) => some (e, s.en, s.w)

/-! Range-based `for` -/

/-- A `StlEnumeratorAdapter`: the end, or an enumerator, shared with others: given by its number.  StlEnumeratorAdapter.h 25-33. -/
abbrev Adapter := Option Nat

/-- `operator !=`; `none`: "Invalid comparison!".  `ens`: the enumerators.  StlEnumeratorAdapter.h 48-52. -/
def differs (ens : List (List α)) (a b : Adapter) : Option Bool :=
  match a, b with
  | some _, some _ => none
  | some i, none => some (!(ens.getD i []).isEmpty)
  | none, some i => some (!(ens.getD i []).isEmpty)
  | none, none => some false

/-- `operator ++`; `none`: "Trying to increment an invalid enumerator!".  StlEnumeratorAdapter.h 35-40. -/
def increment (ens : List (List α)) (a : Adapter) : Option (List (List α)) := a.map fun i => ens.modify i (·.drop 1)

/-- `operator *`; `none`: an exception (of the adapter, or of the enumerator at its end).  StlEnumeratorAdapter.h 42-46. -/
def deref (ens : List (List α)) (a : Adapter) : Option α :=
  match a with
  | none => none
  | some i => (ens.getD i []).head?

/-- `for (x : IterableEnumerable(en)) body`, with a bound on the number of rounds; `none`: it was too small.  The loop of C++ runs from `begin()` to `end()`.  StlEnumeratorAdapter.h 84-111. -/
def rangeFor (body : α → W → Exit × W) : Nat → List (List α) → Adapter → Adapter → W → Option (Exit × List (List α) × W)
  | 0, _, _, _, _ => none
  | n + 1, ens, a, b, w =>
    match differs ens a b with
    | none => some (.thrown, ens, w)
    | some false => some (.normal, ens, w)
    | some true =>
      match deref ens a with
      | none => some (.thrown, ens, w)
      | some x =>
        match body x w with
        | (.thrown, w') => some (.thrown, ens, w')
        | (.brk, w') => some (.normal, ens, w')
        | (_, w') =>
          match increment ens a with
          | none => some (.thrown, ens, w')
          | some ens' => rangeFor body n ens' a b w'

end Verif.Enum.ForEach

/-
Model of `array<T, N>` (collection/array.h) with the algorithms of the library that it calls, as loops over the elements.  Copying an element does not throw here, and `T _data[N]`
needs `N > 0`.  A value that was never assigned (`uninitialized_array_tag`) is not modelled.
-/
namespace Verif.Array

section
variable {α : Type}

/-- `std::copy` into elements from `i`, array.h 51, 55: `none` if it writes outside the array. -/
def copyFrom (dst : List α) (i : Nat) : List α → Option (List α)
  | [] => some dst
  | x :: xs => if i < dst.length then copyFrom (dst.set i x) (i + 1) xs else none

/-- `std::fill` of `n` elements from `i`, array.h 80. -/
def fillFrom (dst : List α) (value : α) (i : Nat) : Nat → Option (List α)
  | 0 => some dst
  | n + 1 => if i < dst.length then fillFrom (dst.set i value) value (i + 1) n else none

/-- `swap`, array.h 86-90, the rounds from `index`; `none`: outside of an array. -/
def swapFrom (a b : List α) (index : Nat) : Nat → Option (List α × List α)
  | 0 => some (a, b)
  | n + 1 =>
    match a[index]?, b[index]? with
    | some x, some y => swapFrom (a.set index y) (b.set index x) (index + 1) n
    | _, _ => none

/-- `swap` of an array with itself, array.h 86-90: every element is swapped with itself. -/
def swapSelf (a : List α) (index : Nat) : Nat → Option (List α)
  | 0 => some a
  | n + 1 =>
    match a[index]? with
    | some x => swapSelf ((a.set index x).set index x) (index + 1) n
    | none => none

/-- `std::equal`, array.h 92: the second range has no end; `none` if it is read past its end. -/
def equal (eq : α → α → Bool) : List α → List α → Option Bool
  | [], _ => some true
  | _ :: _, [] => none
  | x :: xs, y :: ys => if eq x y then equal eq xs ys else some false

/-- `std::lexicographical_compare`, array.h 95-96. -/
def less (lt : α → α → Bool) : List α → List α → Bool
  | _, [] => false
  | [], _ :: _ => true
  | x :: xs, y :: ys => if lt x y then true else if lt y x then false else less lt xs ys

/-- `operator >`, array.h 97, toolkit.h 196-197. -/
def greater (lt : α → α → Bool) (a b : List α) : Bool := less lt b a

/-- `operator <=`, array.h 97, toolkit.h 198-199. -/
def lessEq (lt : α → α → Bool) (a b : List α) : Bool := !less lt b a

/-- `operator >=`, array.h 97, toolkit.h 200-201. -/
def greaterEq (lt : α → α → Bool) (a b : List α) : Bool := !less lt a b

/-- A call for arrays given by numbers, array.h 48-90. -/
inductive Op (α : Type) where
  /-- `array()` -/
  | make
  /-- `array(list)` with the `N` values -/
  | makeOf (l : List α)
  | copy (i : Nat)
  | assign (i j : Nat)
  | fill (i : Nat) (x : α)
  | swap (i j : Nat)
  /-- `at(offset) = x` -/
  | setAt (i offset : Nat) (x : α)
  /-- `at(offset)` -/
  | getAt (i offset : Nat)
deriving DecidableEq, Repr

/-- What a call gives.  For array.h 74-90. -/
inductive Out (α : Type) where
  | done
  | value (x : α)
  | indexError
deriving DecidableEq, Repr

/-- What is kept of a call whose loop has given the elements `r`; `none` is undefined behaviour.  For array.h 48-90. -/
def store (w : List (List α)) (i : Nat) (r : Option (List α)) : Option (List (List α) × Out α) :=
  match r with
  | none => none
  | some l => some (w.set i l, .done)

/-- A new array.  For array.h 48-51. -/
def add (w : List (List α)) (r : Option (List α)) : Option (List (List α) × Out α) :=
  match r with
  | none => none
  | some l => some (w ++ [l], .done)

/-- A call, array.h 48-90; `none`: there is no such array, or undefined behaviour.  The body of a copy constructor assigns to the new array (whose elements are made by their
default constructors, here `zero`). -/
def step (zero : α) (n : Nat) (w : List (List α)) : Op α → Option (List (List α) × Out α)
  | .make => some (w ++ [List.replicate n zero], .done)
  | .makeOf l => if l.length = n then add w (copyFrom (List.replicate n zero) 0 l) else none
  | .copy i =>
    match w[i]? with
    | none => none
    | some l => add w (copyFrom (List.replicate n zero) 0 l)
  | .assign i j =>
    match w[i]?, w[j]? with
    | some l, some m => store w i (copyFrom l 0 m)
    | _, _ => none
  | .fill i x =>
    match w[i]? with
    | none => none
    | some l => store w i (fillFrom l x 0 n)
  | .swap i j =>
    match w[i]?, w[j]? with
    | some l, some m =>
      if i = j then store w i (swapSelf l 0 n)
      else
        (match swapFrom l m 0 n with
        | none => none
        | some (a, b) => some ((w.set i a).set j b, .done))
    | _, _ => none
  | .setAt i offset x =>
    match w[i]? with
    | none => none
    | some l => if offset < n then store w i (copyFrom l offset [x]) else some (w, .indexError)
  | .getAt i offset =>
    match w[i]? with
    | none => none
    | some l =>
      if offset < n then
        (match l[offset]? with
        | none => none
        | some x => some (w, .value x))
      else some (w, .indexError)

/-- A history of calls, array.h 48-90. -/
def run (zero : α) (n : Nat) (w : List (List α)) : List (Op α) → Option (List (List α) × List (Out α))
  | [] => some (w, [])
  | op :: ops =>
    match step zero n w op with
    | none => none
    | some (w', o) =>
      (match run zero n w' ops with
      | none => none
      | some (w'', os) => some (w'', o :: os))

end

end Verif.Array

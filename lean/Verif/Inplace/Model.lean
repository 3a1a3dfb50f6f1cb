import Verif.Common
/-
Model of `inplace_vector<T, InplaceCapacity>` (stingraykit/collection/inplace_vector.h). The inline storage is an array of raw cells: `none` is
memory without an object, `some x` a constructed object. Constructing over an object, destroying or reading raw memory is undefined behaviour,
reported as `none` by the operations. A moved-from element keeps its value until it is destroyed (its value is not observable here). Not modelled:
exceptions from element constructors, capacity/reserve.
-/
namespace Verif.Inplace

section
variable {α : Type}

/-- inplace_vector.h:92-94. -/
structure Vec (α : Type) where
  size : Nat
  dyn : List α
  cells : List (Option α)
  deriving DecidableEq, Repr

/-- inplace_vector.h:97-99. -/
def fresh (cap : Nat) : Vec α := ⟨0, [], List.replicate cap none⟩

/-- `_staticStorage[i].Ctor(value)`; `none`: no such cell, or an object is there already.  For inplace_vector.h 47-276. -/
def ctor (cells : List (Option α)) (i : Nat) (x : α) : Option (List (Option α)) :=
  match cells[i]? with
  | some none => some (cells.set i (some x))
  | _ => none

/-- `_staticStorage[i].Ref()`; `none`: raw memory.  For inplace_vector.h 47-276. -/
def ref (cells : List (Option α)) (i : Nat) : Option α :=
  match cells[i]? with
  | some (some x) => some x
  | _ => none

/-- The loop of `Dtor()`: inplace_vector.h:273-274; `n` cells from `i`. -/
def dtorLoop : List (Option α) → Nat → Nat → Option (List (Option α))
  | cells, _, 0 => some cells
  | cells, i, n + 1 =>
    match cells[i]? with
    | some (some _) => dtorLoop (cells.set i none) (i + 1) n
    | _ => none

/-- `Dtor()`: inplace_vector.h:271-276. -/
def dtor (v : Vec α) : Option (Vec α) := (dtorLoop v.cells 0 v.size).map (fun c => ⟨0, v.dyn, c⟩)

/-- `clear()`: inplace_vector.h:190-194. -/
def clear (v : Vec α) : Option (Vec α) := dtor ⟨v.size, [], v.cells⟩

/-- `size()`: inplace_vector.h:178. -/
def length (v : Vec α) : Nat := v.size + v.dyn.length

/-- `push_back`, `emplace_back`: inplace_vector.h:196-228. -/
def pushBack (v : Vec α) (x : α) : Option (Vec α) :=
  if v.size < v.cells.length then (ctor v.cells v.size x).map (fun c => ⟨v.size + 1, v.dyn, c⟩)
  else some ⟨v.size, v.dyn ++ [x], v.cells⟩

/-- `at(index)`, also `operator[]` and dereferencing an iterator: inplace_vector.h:137-153, 56-57. The inner `none` is the index exception. -/
def at' (v : Vec α) (i : Nat) : Option (Option α) :=
  if i < length v then
    (if i < v.size then (ref v.cells i).map some else (v.dyn[i - v.size]?).map some)
  else some none

/-- `at(index) = x`; `false` is the index exception.  For inplace_vector.h 47-276. -/
def setAt (v : Vec α) (i : Nat) (x : α) : Option (Vec α × Bool) :=
  if i < length v then
    (if i < v.size then (ref v.cells i).map (fun _ => (⟨v.size, v.dyn, v.cells.set i (some x)⟩, true))
     else (v.dyn[i - v.size]?).map (fun _ => (⟨v.size, v.dyn.set (i - v.size) x, v.cells⟩, true)))
  else some (v, false)

/-- Iteration: offsets `0 .. size()` read with `at` (inplace_vector.h:47-66, 161-166). -/
def iterate (v : Vec α) : Option (List (Option α)) := (List.range (length v)).mapM (at' v)

/-- The loop of `Copy`/`Move`: inplace_vector.h:235-239, 254-258; at most `n` rounds. -/
def copyLoop : Nat → Vec α → Vec α → Option (Vec α)
  | 0, v, _ => some v
  | n + 1, v, o =>
    if v.size < o.size then
      match ref o.cells v.size with
      | none => none
      | some x => match ctor v.cells v.size x with
        | none => none
        | some c => copyLoop n ⟨v.size + 1, v.dyn, c⟩ o
    else some v

/-- `Copy(other)`: inplace_vector.h:231-248. -/
def copyFrom (v o : Vec α) : Option (Vec α) := (copyLoop (o.size + 1) v o).map (fun r => ⟨r.size, o.dyn, r.cells⟩)

/-- `Move(other)`: inplace_vector.h:250-269; the result and what is left of `other`. -/
def moveFrom (v o : Vec α) : Option (Vec α × Vec α) :=
  match copyLoop (o.size + 1) v o with
  | none => none
  | some r => match dtor o with
    | none => none
    | some o' => some (⟨r.size, o.dyn, r.cells⟩, ⟨o'.size, [], o'.cells⟩)

/-- `assign(first, last)`: inplace_vector.h:126-135. -/
def pushAll : Vec α → List α → Option (Vec α)
  | v, [] => some v
  | v, x :: l => match pushBack v x with
    | none => none
    | some v' => pushAll v' l

/-- Vectors of a program, numbered; all with the same inline capacity.  For inplace_vector.h 47-276. -/
abbrev World (α : Type) := Nat → Vec α

/-- Change of one variable of a program that uses inplace_vector.h 47-276. -/
def World.put (w : World α) (i : Nat) (v : Vec α) : World α := fun j => if j = i then v else w j

/-- The calls, inplace_vector.h 47-276. -/
inductive Op (α : Type) where
  | push (i : Nat) (x : α)
  | at (i n : Nat)
  | setAt (i n : Nat) (x : α)
  | size (i : Nat)
  | iterate (i : Nat)
  | clear (i : Nat)
  | assign (i : Nat) (l : List α)
  /-- vector `i` := copy of vector `j` -/
  | copy (i j : Nat)
  /-- vector `i` := move of vector `j` -/
  | move (i j : Nat)
  /-- destroy vector `i` and construct an empty one in its place -/
  | renew (i : Nat)
  deriving DecidableEq, Repr

/-- What a call returns, inplace_vector.h 47-276. -/
inductive Out (α : Type) where
  | unit
  | num (n : Nat)
  | val (x : Option α)
  | done (ok : Bool)
  | all (l : List (Option α))
  deriving DecidableEq, Repr

/-- One call; `none` is undefined behaviour. Assignments: inplace_vector.h:112-124; destructor 109-110. -/
def step (cap : Nat) (w : World α) : Op α → Option (World α × Out α)
  | .push i x => (pushBack (w i) x).map (fun v => (w.put i v, .unit))
  | .at i n => (at' (w i) n).map (fun r => (w, .val r))
  | .setAt i n x => (setAt (w i) n x).map (fun r => (w.put i r.1, .done r.2))
  | .size i => some (w, .num (length (w i)))
  | .iterate i => (iterate (w i)).map (fun l => (w, .all l))
  | .clear i => (clear (w i)).map (fun v => (w.put i v, .unit))
  | .assign i l => match clear (w i) with
    | none => none
    | some v => (pushAll v l).map (fun v' => (w.put i v', .unit))
  | .copy i j => match clear (w i) with
    | none => none
    | some v => (copyFrom v ((w.put i v) j)).map (fun v' => (w.put i v', .unit))
  | .move i j => match clear (w i) with
    | none => none
    | some v => (moveFrom v ((w.put i v) j)).map (fun r => ((w.put i r.1).put j (if i = j then r.1 else r.2), .unit))
  | .renew i => (dtor (w i)).map (fun _ => (w.put i (fresh cap), .unit))

/-- One step after another, for histories of inplace_vector.h 47-276. -/
def run (cap : Nat) : World α → List (Op α) → Option (World α × List (Out α))
  | w, [] => some (w, [])
  | w, op :: ops =>
    match step cap w op with
    | none => none
    | some r => (run cap r.1 ops).map (fun q => (q.1, r.2 :: q.2))

end
end Verif.Inplace

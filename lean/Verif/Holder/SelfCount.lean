/-
Model of `self_count_ptr` and `self_counter`, self_counter.h 35-234: any number of objects, pointer variables and threads.
Each step is one operation on a pointer variable together with at most one atomic operation on a counter, or the call of
`CheckedDelete`.  Local variables of the operations (the `tmp` of the assignments) are variables of the model, so that an
assignment is three steps, between which other threads may run.  Simplification: the counter is an unbounded integer.
-/
namespace Verif.Holder.SelfCount

/-- An object derived from `self_counter`.  For self_counter.h 35-253. -/
structure Obj where
  /-- `_value`, self_counter.h 188 -/
  count : Int
  /-- calls of `CheckedDelete` that are about to be made or whose destructor is running, self_counter.h 228 -/
  dying : Nat
  /-- calls of `CheckedDelete` that have returned -/
  deleted : Nat
deriving DecidableEq, Repr

/-- `vars` is `_rawPtr` of every variable (self_counter.h 45). -/
structure State where
  vars : List (Option Nat)
  objs : List Obj
  /-- a counter was accessed after its object was deleted -/
  bad : Bool
deriving DecidableEq, Repr

/-- `n` null pointers, self_counter.h 48-54. -/
def State.init (n : Nat) : State := ⟨List.replicate n none, [], false⟩

/-- The steps a schedule of self_counter.h 35-253 is made of. -/
inductive Act where
  | make (k : Nat)          -- `make_self_count_ptr` into the null variable k, self_counter.h 251-253, 207-209, 48-50
  | copy (k j : Nat)        -- copy constructor of k from j, self_counter.h 56-61, 67-73, 80-86
  | move (k j : Nat)        -- move constructor of k from j, self_counter.h 63-65, 75-78, 88-91
  | swap (i j : Nat)        -- self_counter.h 141
  | drop (k : Nat)          -- destructor, self_counter.h 93-97, 221-233
  | delete (o : Nat)        -- self_counter.h 228
  | fromThis (k o : Nat)    -- `self_count_ptr_from_this` of an object in use, self_counter.h 191-201
  | fromDtor (k o : Nat)    -- the same, called by the destructor of the object
deriving DecidableEq, Repr

/-- `add_ref`, self_counter.h 215-219. -/
def State.addRef (s : State) (o : Nat) (x : Obj) : State :=
  { s with objs := s.objs.set o { x with count := x.count + 1 }, bad := s.bad || decide (x.deleted > 0) }

/-- `release_ref`, self_counter.h 221-233. -/
def State.releaseRef (s : State) (o : Nat) (x : Obj) : State :=
  if x.count - 1 = 0 then
    { s with objs := s.objs.set o { x with count := x.count - 1, dying := x.dying + 1 }, bad := s.bad || decide (x.deleted > 0) }
  else { s with objs := s.objs.set o { x with count := x.count - 1 }, bad := s.bad || decide (x.deleted > 0) }

/-- Variables are constructed only where no pointer is stored: the constructors do not release what was there.  For self_counter.h 35-253. -/
def step (s : State) : Act → Option State
  | .make k => if s.vars[k]? = some none then some { s with vars := s.vars.set k (some s.objs.length), objs := s.objs ++ [⟨1, 0, 0⟩] } else none
  | .copy k j =>
    if s.vars[k]? = some none then
      match s.vars[j]? with
      | none => none
      | some none => some s
      | some (some o) =>
        match s.objs[o]? with
        | none => none
        | some x => some { s.addRef o x with vars := s.vars.set k (some o) }
    else none
  | .move k j =>
    if s.vars[k]? = some none then
      match s.vars[j]? with
      | none => none
      | some p => some { s with vars := (s.vars.set k p).set j none }
    else none
  | .swap i j =>
    match s.vars[i]?, s.vars[j]? with
    | some p, some q => some { s with vars := (s.vars.set i q).set j p }
    | _, _ => none
  | .drop k =>
    match s.vars[k]? with
    | none => none
    | some none => some s
    | some (some o) =>
      match s.objs[o]? with
      | none => none
      | some x => some { s.releaseRef o x with vars := s.vars.set k none }
  | .delete o =>
    match s.objs[o]? with
    | none => none
    | some x => if x.dying ≥ 1 then some { s with objs := s.objs.set o { x with dying := x.dying - 1, deleted := x.deleted + 1 } } else none
  | .fromThis k o =>
    if s.vars[k]? = some none ∧ some o ∈ s.vars then
      match s.objs[o]? with
      | none => none
      | some x => some { s.addRef o x with vars := s.vars.set k (some o) }
    else none
  | .fromDtor k o =>
    match s.objs[o]? with
    | none => none
    | some x => if s.vars[k]? = some none ∧ x.dying ≥ 1 then some { s.addRef o x with vars := s.vars.set k (some o) } else none

/-- A schedule.  For self_counter.h 35-253. -/
def run : State → List Act → Option State
  | s, [] => some s
  | s, a :: as =>
    match step s a with
    | none => none
    | some s' => run s' as

/-- `operator =` (copy), self_counter.h 99-104, 113-119, with `tmp` in the free variable k. -/
def assign (k i j : Nat) : List Act := [.copy k j, .swap i k, .drop k]

/-- `operator =` (move), self_counter.h 106-111, 121-127. -/
def moveAssign (k i j : Nat) : List Act := [.move k j, .swap i k, .drop k]

/-- `reset(new T)`, self_counter.h 135-139. -/
def reset (k i : Nat) : List Act := [.make k, .swap i k, .drop k]

/-- `use_count`, self_counter.h 133 and 203-204. -/
def State.useCount (s : State) (k : Nat) : Option Int :=
  match s.vars[k]? with
  | none => none
  | some none => some 0
  | some (some o) => (s.objs[o]?).map (·.count)

end Verif.Holder.SelfCount

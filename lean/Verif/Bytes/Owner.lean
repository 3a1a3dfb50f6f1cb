/-! Model of `BasicBytesOwner`, collection/BytesOwner.h. -/

namespace Verif.Bytes.Owner

/-- `_data`, a pointer into a block of storage with a size, and `_lifeAssurance`, a reference to the storage: BytesOwner.h 50-51.  `moved` is for the statements only: the
object, or one it got its data from, was the source of a move. -/
structure Owner where
  ptr : Option (Nat × Nat)
  size : Nat
  life : Option Nat
  moved : Bool
  deriving DecidableEq, Repr

/-- The blocks of storage, `none` when freed, and the objects in the order of their construction, `none` when destroyed: BytesOwner.h 38-51. -/
structure State where
  heap : List (Option (List Nat))
  vars : List (Option Owner)
  deriving DecidableEq, Repr

/-- The arguments of the constructors: BytesOwner.h 68, 80, 92. -/
inductive Slice where
  | whole
  | start (offset : Nat)
  | part (offset size : Nat)
  deriving Repr

/-- `_data(other._data, offset, size)`: BytesOwner.h 69, 81, 93 and ByteData.h 406-412, in arithmetic of `size_t`; `none` when the constructor throws. -/
def slice (ptr : Option (Nat × Nat)) (size : Nat) : Slice → Option (Option (Nat × Nat) × Nat)
  | .whole => some (ptr, size)
  | .start offset => if offset ≤ size then some (ptr.map (fun p => (p.1, (p.2 + offset) % 2 ^ 64)), size - offset) else none
  | .part offset n => if (offset + n) % 2 ^ 64 ≤ size then some (ptr.map (fun p => (p.1, (p.2 + offset) % 2 ^ 64)), n) else none

/-- The calls: BytesOwner.h 54-144.  `copy` and `move` construct a new object, `assign` and `moveAssign` are the implicit assignments. -/
inductive Op where
  | empty
  | create (bytes : List Nat)
  | copy (j : Nat) (s : Slice)
  | move (j : Nat) (s : Slice)
  | assign (i j : Nat)
  | moveAssign (i j : Nat)
  | destroy (i : Nat)
  | read (i k : Nat)
  | write (i k v : Nat)
  deriving Repr

/-- What a call does: BytesOwner.h 54-144.  `ub` stands for reading or writing freed memory or memory outside of the block and for the use of an object that does not exist. -/
inductive Out where
  | done
  | value (v : Nat)
  | exception
  | ub
  deriving DecidableEq, Repr

/-- Whether an object refers to the storage: BytesOwner.h 51. -/
def holds (b : Nat) : Option Owner → Bool
  | some o => o.life == some b
  | none => false

/-- The reference to the storage is dropped: the last one deletes `Storage`, BytesOwner.h 38-47. -/
def release (s : State) : Option Nat → State
  | none => s
  | some b => if s.vars.any (holds b) then s else { s with heap := s.heap.set b none }

/-- An object, BytesOwner.h 50-51. -/
def get (s : State) (i : Nat) : Option Owner := (s.vars[i]?).join

/-- The place in the storage that an index refers to: BytesOwner.h 103 and ByteData.h 414-418; `inl` for the exception, `inr none` for undefined behaviour. -/
def place (s : State) (o : Owner) (k : Nat) : Unit ⊕ Option (Nat × Nat × List Nat) :=
  if k < o.size then
    match o.ptr with
    | none => .inr none
    | some (b, pos) =>
      match (s.heap[b]?).join with
      | none => .inr none
      | some bytes => if (pos + k) % 2 ^ 64 < bytes.length then .inr (some (b, (pos + k) % 2 ^ 64, bytes)) else .inr none
  else .inl ()

/-- One call: BytesOwner.h 54-144. -/
def step (s : State) : Op → State × Out
  | .empty => ({ s with vars := s.vars ++ [some ⟨none, 0, none, false⟩] }, .done)
  | .create bytes => (⟨s.heap ++ [some bytes], s.vars ++ [some ⟨some (s.heap.length, 0), bytes.length, some s.heap.length, false⟩]⟩, .done)
  | .copy j sl =>
    match get s j with
    | none => (s, .ub)
    | some o =>
      match slice o.ptr o.size sl with
      | none => (s, .exception)
      | some (p, n) => ({ s with vars := s.vars ++ [some ⟨p, n, o.life, o.moved⟩] }, .done)
  | .move j sl =>
    match get s j with
    | none => (s, .ub)
    | some o =>
      match slice o.ptr o.size sl with
      | none => (s, .exception)
      | some (p, n) => ({ s with vars := s.vars.set j (some { o with life := none, moved := true }) ++ [some ⟨p, n, o.life, o.moved⟩] }, .done)
  | .assign i j =>
    match get s i, get s j with
    | some d, some o => (release { s with vars := s.vars.set i (some o) } d.life, .done)
    | _, _ => (s, .ub)
  | .moveAssign i j =>
    match get s i, get s j with
    | some d, some o =>
      if i = j then (s, .done)
      else (release { s with vars := (s.vars.set j (some { o with life := none, moved := true })).set i (some o) } d.life, .done)
    | _, _ => (s, .ub)
  | .destroy i =>
    match get s i with
    | none => (s, .ub)
    | some d => (release { s with vars := s.vars.set i none } d.life, .done)
  | .read i k =>
    match get s i with
    | none => (s, .ub)
    | some o =>
      match place s o k with
      | .inl _ => (s, .exception)
      | .inr none => (s, .ub)
      | .inr (some (_, a, bytes)) => (s, .value (bytes.getD a 0))
  | .write i k v =>
    match get s i with
    | none => (s, .ub)
    | some o =>
      match place s o k with
      | .inl _ => (s, .exception)
      | .inr none => (s, .ub)
      | .inr (some (b, a, bytes)) => ({ s with heap := s.heap.set b (some (bytes.set a v)) }, .done)

/-- A history of calls: BytesOwner.h 54-144. -/
def run (s : State) : List Op → State
  | [] => s
  | op :: ops => run (step s op).1 ops

/-- No objects: BytesOwner.h 22-145. -/
def init : State := ⟨[], []⟩

end Verif.Bytes.Owner

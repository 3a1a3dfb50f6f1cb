/-
Model of `BasicByteArray` and `BasicByteData` (/repo/stingraykit/collection/ByteData.h): views of byte sequences.

A byte array is a pointer to a shared vector, an offset and a size limit; the vectors are a heap, so that several arrays may share one.
`ByteData` is a pointer into memory and a size: here the position in one memory and the size.  `size_t` arithmetic is modulo 2^64 as in the
code.  Bytes are elements of an arbitrary type.  Simplification: vectors are shorter than 2^64 - 1 (assumption of the statements).
-/
namespace Verif.Bytes

/-- 2^64, the modulus of `size_t`.  ByteData.h 135. -/
def M : Nat := 18446744073709551616

/-- `NoSizeLimit`, ByteData.h 135. -/
def noLimit : Nat := M - 1

/-- `size_t` addition, ByteData.h 181-209. -/
def add (a b : Nat) : Nat := (a + b) % M

/-- `size_t` subtraction, ByteData.h 181-209. -/
def sub (a b : Nat) : Nat := (a + (M - b % M)) % M

/-- `BasicByteArray`: the index of its vector in the heap, `_offset`, `_sizeLimit`.  ByteData.h 138-140. -/
structure View where
  id : Nat
  offset : Nat
  limit : Nat
  deriving DecidableEq

section
variable {α : Type}

/-- The vector of a view, ByteData.h 138. -/
def data (h : List (List α)) (v : View) : List α := h.getD v.id []

/-- `size()`, ByteData.h 224-225. -/
def size (h : List (List α)) (v : View) : Nat :=
  if v.offset ≤ (data h v).length then min ((data h v).length - v.offset) v.limit else 0

/-- A new array of given bytes, ByteData.h 159-170: new heap and view. -/
def create (h : List (List α)) (xs : List α) : List (List α) × View := (h ++ [xs], ⟨h.length, 0, noLimit⟩)

/-- The constructor from an array and an offset, ByteData.h 181-189; `none`: IndexOutOfRangeException. -/
def from1 (h : List (List α)) (v : View) (offset : Nat) : Option View :=
  if add v.offset offset ≤ (data h v).length then
    some ⟨v.id, add v.offset offset, if v.limit = noLimit then noLimit else sub v.limit offset⟩
  else none

/-- The constructor from an array, an offset and a size limit, ByteData.h 191-209; `none`: IndexOutOfRangeException. -/
def from2 (h : List (List α)) (v : View) (offset limit : Nat) : Option View :=
  if add v.offset offset ≤ (data h v).length then
    if limit = noLimit ∨ add limit offset ≤ (data h v).length then
      if add limit offset ≤ v.limit then some ⟨v.id, add v.offset offset, limit⟩ else none
    else none
  else none

/-- `operator []`, ByteData.h 218-222; `none`: IndexOutOfRangeException (or reading outside of the vector). -/
def index (h : List (List α)) (v : View) (i : Nat) : Option α :=
  if i < size h v then (data h v)[add i v.offset]? else none

/-- Assignment to an element through `operator []`, ByteData.h 218-222; `none`: exception. -/
def write (h : List (List α)) (v : View) (i : Nat) (x : α) : Option (List (List α)) :=
  if i < size h v then some (h.set v.id ((data h v).set (add i v.offset) x)) else none

/-- `append`, ByteData.h 230-235; `none`: NotImplementedException. -/
def append (h : List (List α)) (v : View) (xs : List α) : Option (List (List α)) :=
  if v.limit = noLimit then some (h.set v.id (data h v ++ xs)) else none

/-- `RequireSize`, ByteData.h 211-216; `none`: NotImplementedException. `zero`: the value of new elements. -/
def requireSize (h : List (List α)) (v : View) (n : Nat) (zero : α) : Option (List (List α)) :=
  if v.limit = noLimit then
    some (if (data h v).length < add n v.offset then h.set v.id (data h v ++ List.replicate (add n v.offset - (data h v).length) zero) else h)
  else none

/-- `clear`, ByteData.h 258-259. -/
def clear (h : List (List α)) (v : View) : List (List α) := h.set v.id []

/-- The bytes from `data()` to `data() + size()`, as used by `==`, `<`, `append` and the iterators, ByteData.h 261-271, 297-298. -/
def bytes (h : List (List α)) (v : View) : List α := ((data h v).drop v.offset).take (size h v)

/-- `operator ==`, ByteData.h 320-322: sizes, then `std::equal`. -/
def equal [BEq α] (h : List (List α)) (v w : View) : Bool :=
  size h v == size h w && ((bytes h v).zip (bytes h w)).all fun p => p.1 == p.2

/-- `Deserialize`: a vector and an offset into it, ByteData.h 304-311. -/
def deserialize (h : List (List α)) (offset : Nat) (xs : List α) : List (List α) × View := (h ++ [xs], ⟨h.length, offset, noLimit⟩)

/-- `BasicByteData`: position of `_data` in the memory, `_size`.  ByteData.h 349-350. -/
structure Ref where
  pos : Nat
  size : Nat
  deriving DecidableEq

/-- `BasicByteData(data, offset)`, ByteData.h 406-408; `none`: IndexOutOfRangeException. -/
def Ref.from1 (r : Ref) (offset : Nat) : Option Ref := if offset ≤ r.size then some ⟨add r.pos offset, sub r.size offset⟩ else none

/-- `BasicByteData(data, offset, size)`, ByteData.h 410-412; `none`: IndexOutOfRangeException. -/
def Ref.from2 (r : Ref) (offset size : Nat) : Option Ref := if add offset size ≤ r.size then some ⟨add r.pos offset, size⟩ else none

/-- `operator []` of `BasicByteData`: the position accessed, ByteData.h 414-418; `none`: IndexOutOfRangeException. -/
def Ref.index (r : Ref) (i : Nat) : Option Nat := if i < r.size then some (add r.pos i) else none

end
end Verif.Bytes

/-
Model of aligned_storage.h: `alignment_of` (23-54, 120-128) and the storage of `StorageFor` (104-116, 138-159), with the rules of C++ for the size of a structure and of a
union.
-/
namespace Verif.Storage.Aligned

/-- A type: its size and its alignment, which the compiler knows.  For aligned_storage.h 120-159. -/
structure Ty where
  size : Nat
  align : Nat
deriving DecidableEq, Repr

/-- The next multiple of `a`.  For aligned_storage.h 38, 107-115. -/
def roundUp (n a : Nat) : Nat := (n + a - 1) / a * a

/-- `sizeof(Enlarged)`: the value, a character after it, and padding.  For aligned_storage.h 38. -/
def enlargedSize (t : Ty) : Nat := roundUp (t.size + 1) t.align

/-- `Enlarged` as a type, aligned_storage.h 38. -/
def enlargedTy (t : Ty) : Ty := ⟨enlargedSize t, t.align⟩

/-- `EnlargementAlignmentMeasurer::alignment_of`, aligned_storage.h 27-42; `none` if the recursion of templates does not end within `fuel`. -/
def enlargement : Nat → Ty → Option Nat
  | 0, _ => none
  | fuel + 1, t => if enlargedSize t - t.size = 0 then enlargement fuel (enlargedTy t) else some (enlargedSize t - t.size)

/-- `SimpleAlignmentMeasurer::alignment_of`, aligned_storage.h 51-52. -/
def simple (t : Ty) : Nat := t.size ^^^ (t.size &&& (t.size - 1))

/-- `alignment_of`, aligned_storage.h 123-125. -/
def alignmentOf (fuel : Nat) (t : Ty) : Option Nat :=
  match enlargement fuel t with
  | none => none
  | some e => some (if simple t < e then simple t else e)

/-- `type_with_alignment<N>` of the compilers with `__attribute__`, aligned_storage.h 60-72; `none` if there is no specialization: that does not compile. -/
def typeWithAlignment (n : Nat) : Option Ty :=
  if n = 1 then some ⟨1, 1⟩
  else if n = 2 then some ⟨2, 2⟩
  else if n = 4 then some ⟨4, 4⟩
  else if n = 8 then some ⟨8, 8⟩
  else if n = 16 then some ⟨16, 16⟩
  else if n = 32 then some ⟨32, 32⟩
  else none

/-- `AlignedStorageImpl<Len, Align>`, aligned_storage.h 104-116: a union of characters and the aligned type. -/
def storage (len align : Nat) : Option Ty :=
  match typeWithAlignment align with
  | none => none
  | some a => some ⟨roundUp (max len a.size) (max 1 a.align), max 1 a.align⟩

/-- `StorageFor<T>`, aligned_storage.h 148. -/
def storageFor (fuel : Nat) (t : Ty) : Option Ty :=
  match alignmentOf fuel t with
  | none => none
  | some a => storage t.size a

end Verif.Storage.Aligned

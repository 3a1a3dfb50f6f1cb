/- Parts of a sequence. -/
namespace Verif.Bytes.Spec

/-- The part of `xs` which begins at `offset`; all of it or its first `n` elements. -/
def part {α : Type} (xs : List α) (offset : Nat) : Option Nat → List α
  | none => xs.drop offset
  | some n => (xs.drop offset).take n

/-- The part exists: it lies within `xs`. -/
def Within {α : Type} (xs : List α) (offset : Nat) : Option Nat → Prop
  | none => offset ≤ xs.length
  | some n => offset + n ≤ xs.length

end Verif.Bytes.Spec

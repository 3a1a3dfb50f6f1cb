import Verif.Range.Model
/-
Specification of ranges: the values `s` with `rep s i` are one range over the elements `l` that stands at position `i`
(`l.length` is the end).
-/
namespace Verif.Range

variable {σ τ α β γ : Type}

/-- A forward range over the elements `l`. -/
structure Fwd (R : Rng σ α) (rep : σ → Nat → Prop) (l : List α) : Prop where
  le : ∀ {s i}, rep s i → i ≤ l.length
  valid : ∀ {s i}, rep s i → R.valid s = decide (i < l.length)
  get : ∀ {s i}, rep s i → ∀ h : i < l.length, ∃ t, R.get s = some (l[i], t) ∧ rep t i
  equals : ∀ {s t i j}, rep s i → rep t j → R.equals s t = decide (i = j)
  first : ∀ {s i}, rep s i → ∃ t, R.first s = some t ∧ rep t 0
  next : ∀ {s i}, rep s i → i < l.length → ∃ t, R.next s = some t ∧ rep t (i + 1)

/-- It can be iterated backwards. -/
structure Bwd (R : Rng σ α) (rep : σ → Nat → Prop) (l : List α) : Prop where
  last : ∀ {s i}, rep s i → ∃ t, R.last s = some t ∧ rep t (l.length - 1)
  prev : ∀ {s i}, rep s i → 0 < i → i < l.length → ∃ t, R.prev s = some t ∧ rep t (i - 1)

/-- Also from the end. -/
def PrevEnd (R : Rng σ α) (rep : σ → Nat → Prop) (l : List α) : Prop :=
  ∀ {s}, rep s l.length → 0 < l.length → ∃ t, R.prev s = some t ∧ rep t (l.length - 1)

/-- Random access: `Move` goes to every position from the first element to the end and to no other. -/
structure Access (A : RandomAccess σ) (rep : σ → Nat → Prop) (n : Nat) : Prop where
  position : ∀ {s i}, rep s i → A.position s = i
  size : ∀ {s i}, rep s i → A.size s = n
  move : ∀ {s i} {d : Int}, rep s i → 0 ≤ i + d → i + d ≤ n → ∃ t, A.move s d = some t ∧ rep t (i + d).toNat
  out : ∀ {s i} {d : Int}, rep s i → -2147483648 ≤ d → d ≤ 2147483647 → (i + d < 0 ∨ n < i + d) → A.move s d = none

end Verif.Range

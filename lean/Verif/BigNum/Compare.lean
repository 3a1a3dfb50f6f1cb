import Verif.BigNum.Props
/-
Property C34: comparison of `BigUnsignedInteger`.
-/
namespace Verif.BigNum
open Spec

theorem value_le_of_forall {w : Nat} : ∀ (a b : List Nat), a.length = b.length → (List.zip a b).any (fun p => decide (p.1 < p.2)) = false → value w b ≤ value w a
  | [], b, hl, _ => by
    have : b = [] := List.length_eq_zero_iff.mp hl.symm
    subst this; simp
  | x :: a, [], hl, _ => by simp at hl
  | x :: a, y :: b, hl, h => by
    simp only [List.zip_cons_cons, List.any_cons, Bool.or_eq_false_iff, decide_eq_false_iff_not] at h
    have := value_le_of_forall (w := w) a b (by simpa using hl) h.2
    have h2 := Nat.mul_le_mul_left (2 ^ w) this
    simp only [value]
    omega

theorem len_lt_value {w : Nat} {a b : List Nat} (ha : Blocks w a) (nb : Norm b) (h : a.length < b.length) : value w a < value w b := by
  have g1 := value_lt ha
  have g2 := norm_ge (w := w) nb (by intro e; subst e; simp at h)
  have g3 : 2 ^ (w * a.length) ≤ 2 ^ (w * (b.length - 1)) := Nat.pow_le_pow_right (by omega) (Nat.mul_le_mul_left _ (by omega))
  omega

/-- C34, the part that holds, for normalised numbers: `==` is equality of the numbers, a smaller number always compares less, and `<` is the order of the numbers if
they have different numbers of blocks or at most one block. Not true in general: the converse for equal numbers of blocks, see `less_violated`. -/
theorem compare_partial {w : Nat} {a b : List Nat} (ha : Blocks w a) (hb : Blocks w b) (na : Norm a) (nb : Norm b) :
    (equal a b = true ↔ value w a = value w b) ∧
    (value w a < value w b → less a b = true) ∧
    (less a b = false → less b a = false → value w a = value w b) ∧
    (a.length ≠ b.length ∨ a.length ≤ 1 → (less a b = true ↔ value w a < value w b)) := by
  have hless : ∀ {a b : List Nat}, Blocks w a → Blocks w b → Norm a → Norm b → value w a < value w b → less a b = true := by
    intro a b ha hb na nb h
    unfold less
    by_cases h1 : a.length < b.length
    · rw [if_pos h1]
    · rw [if_neg h1]
      by_cases h2 : a.length > b.length
      · have := len_lt_value hb na h2
        omega
      · rw [if_neg h2]
        cases h3 : (List.zip a b).any (fun p => decide (p.1 < p.2))
        · have := value_le_of_forall (w := w) a b (by omega) h3
          omega
        · rfl
  have hirr : ∀ a : List Nat, less a a = false := by
    intro a
    unfold less
    rw [if_neg (by omega), if_neg (by omega)]
    induction a with
    | nil => rfl
    | cons x a ih =>
      simp only [List.zip_cons_cons, List.any_cons, ih, Bool.or_false]
      simp
  have htri : less a b = false → less b a = false → value w a = value w b := by
    intro h1 h2
    rcases Nat.lt_trichotomy (value w a) (value w b) with h | h | h
    · rw [hless ha hb na nb h] at h1; cases h1
    · exact h
    · rw [hless hb ha nb na h] at h2; cases h2
  refine ⟨?_, hless ha hb na nb, htri, ?_⟩
  · unfold equal
    rw [Bool.and_eq_true, Bool.not_eq_true', Bool.not_eq_true']
    constructor
    · exact fun h => htri h.1 h.2
    · intro h
      have := norm_unique ha hb na nb h
      subst this
      exact ⟨hirr a, hirr a⟩
  · intro h
    refine ⟨fun hl => ?_, hless ha hb na nb⟩
    by_cases hlen : a.length = b.length
    · have h1 : a.length ≤ 1 := h.elim (fun h => absurd hlen h) id
      unfold less at hl
      rw [if_neg (by omega), if_neg (by omega)] at hl
      rcases a with _ | ⟨x, a⟩
      · simp at hl
      · have : a = [] := List.length_eq_zero_iff.mp (by simp at h1; exact List.length_eq_zero_iff.mpr h1)
        subst this
        rcases b with _ | ⟨y, b⟩
        · simp at hlen
        · have : b = [] := List.length_eq_zero_iff.mp (by simpa using hlen.symm)
          subst this
          simp only [List.zip_cons_cons, List.any_cons, decide_eq_true_eq, List.zip_nil_left, List.any_nil, Bool.or_false] at hl
          simpa [value] using hl
    · unfold less at hl
      by_cases h1 : a.length < b.length
      · exact len_lt_value ha nb h1
      · rw [if_neg h1, if_pos (by omega)] at hl
        cases hl

/-- C34 refuted: `<` compares blocks from the least significant end and stops at the first smaller one, so two numbers can each be less than the other; the greater
number then compares less. And the zero constructed from the integer 0 is not equal to the default constructed zero. -/
theorem less_violated :
    (Blocks 64 [2, 1] ∧ Norm [2, 1] ∧ Blocks 64 [1, 2] ∧ Norm [1, 2] ∧ value 64 [2, 1] < value 64 [1, 2] ∧ less [1, 2] [2, 1] = true ∧ less [2, 1] [1, 2] = true) ∧
    (value 64 [] = value 64 (ofNat 0) ∧ equal [] (ofNat 0) = false) := by
  refine ⟨⟨?_, by simp [Norm], ?_, by simp [Norm], by decide +kernel, by decide +kernel, by decide +kernel⟩, rfl, by decide +kernel⟩ <;>
  · intro x hx
    simp only [List.mem_cons, List.not_mem_nil, or_false] at hx
    omega

/-! Non-vacuity. -/
example : Blocks 64 [7, 3] ∧ Norm [7, 3] ∧ less [9] [7, 3] = true ∧ equal [7, 3] [7, 3] = true ∧ equal [7, 3] [7, 4] = false := by
  refine ⟨?_, by simp [Norm], by decide +kernel, by decide +kernel, by decide +kernel⟩
  intro x hx
  simp only [List.mem_cons, List.not_mem_nil, or_false] at hx
  omega

end Verif.BigNum

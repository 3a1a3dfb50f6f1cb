import Verif.Num.DecimalSpec
/-
Decimal numbers.
-/
namespace Verif.Num
open Verif.Str

theorem roundNat_small {n : Nat} (h : n ≤ 2 ^ 53) : roundNat n = n := by
  by_cases h1 : n < 2 ^ 53
  · exact if_pos h1
  · have : n = 2 ^ 53 := by omega
    subst this
    decide +kernel

theorem roundInt_small {x : Int} (h : x.natAbs ≤ 2 ^ 53) : roundInt x = x := by
  unfold roundInt
  rw [roundNat_small h]
  by_cases hx : x < 0
  · rw [if_pos hx]; omega
  · rw [if_neg hx]; omega

theorem inS64_small {x : Int} (h : x.natAbs ≤ 2 ^ 53) : inS64 x = true := by
  simp only [inS64, Bool.and_eq_true, decide_eq_true_eq]
  omega

/-- Scaling is exact up to 2^53. -/
theorem scale_exact {x : Int} {n : Nat} (hn : n ≤ 308) (h : (x * 10 ^ n).natAbs ≤ 2 ^ 53) : scale x n = some (x * 10 ^ n) := by
  unfold scale
  rw [if_neg (by omega)]
  have hr : roundInt (roundInt x * roundInt (10 ^ n)) = x * 10 ^ n := by
    by_cases hx : x = 0
    · subst hx
      have : roundInt 0 = 0 := by decide
      rw [this]; simp [this]
    · have h10 : ((10 : Int) ^ n).natAbs = 10 ^ n := by
        rw [Int.natAbs_pow]; rfl
      have hp : (0 : Nat) < 10 ^ n := Nat.pow_pos (by omega)
      have hm : (x * 10 ^ n).natAbs = x.natAbs * 10 ^ n := by rw [Int.natAbs_mul, h10]
      have hx1 : 1 ≤ x.natAbs := by omega
      have e1 : x.natAbs ≤ x.natAbs * 10 ^ n := Nat.le_mul_of_pos_right _ hp
      have e2 : 10 ^ n ≤ x.natAbs * 10 ^ n := Nat.le_mul_of_pos_left _ hx1
      rw [roundInt_small (x := x) (by omega), roundInt_small (x := 10 ^ n) (by omega), roundInt_small h]
  rw [hr, if_pos (inS64_small h)]

/-- Both numbers, written with the larger of the two numbers of digits, stay within 2^53. -/
def Fits (a b : Decimal) : Prop :=
  a.exponent ≤ 308 ∧ b.exponent ≤ 308 ∧ (a.mantissa * 10 ^ (max a.exponent b.exponent - a.exponent)).natAbs ≤ 2 ^ 53 ∧
  (b.mantissa * 10 ^ (max a.exponent b.exponent - b.exponent)).natAbs ≤ 2 ^ 53

theorem fits_pow {a b : Decimal} (h : Fits a b) :
    a.powTo (max a.exponent b.exponent) = some (a.mantissa * 10 ^ (max a.exponent b.exponent - a.exponent)) ∧
    b.powTo (max a.exponent b.exponent) = some (b.mantissa * 10 ^ (max a.exponent b.exponent - b.exponent)) := by
  obtain ⟨h1, h2, h3, h4⟩ := h
  exact ⟨scale_exact (by omega) h3, scale_exact (by omega) h4⟩

theorem pow10_pos (n : Nat) : (0 : Int) < 10 ^ n := Int.pow_pos (by omega)

/-- Scaling both sides. -/
theorem scaled (a b : Decimal) :
    a.mantissa * 10 ^ (max a.exponent b.exponent - a.exponent) * (10 ^ a.exponent * 10 ^ b.exponent) = a.mantissa * 10 ^ b.exponent * 10 ^ (max a.exponent b.exponent) ∧
    b.mantissa * 10 ^ (max a.exponent b.exponent - b.exponent) * (10 ^ a.exponent * 10 ^ b.exponent) = b.mantissa * 10 ^ a.exponent * 10 ^ (max a.exponent b.exponent) := by
  constructor
  · have : (10 : Int) ^ (max a.exponent b.exponent) = 10 ^ (max a.exponent b.exponent - a.exponent) * 10 ^ a.exponent := by
      rw [← Int.pow_add]; congr 1; omega
    rw [this]; simp only [Int.mul_assoc, Int.mul_comm, Int.mul_left_comm]
  · have : (10 : Int) ^ (max a.exponent b.exponent) = 10 ^ (max a.exponent b.exponent - b.exponent) * 10 ^ b.exponent := by
      rw [← Int.pow_add]; congr 1; omega
    rw [this]; simp only [Int.mul_assoc, Int.mul_comm, Int.mul_left_comm]

/-- Comparison is that of the fractions, as long as the numbers fit. -/
theorem compare_partial {a b : Decimal} (h : Fits a b) :
    (∃ r, a.eq b = some r ∧ (r = true ↔ Spec.Same a b)) ∧ (∃ r, a.less b = some r ∧ (r = true ↔ Spec.Less a b)) := by
  obtain ⟨h1, h2⟩ := fits_pow h
  obtain ⟨s1, s2⟩ := scaled a b
  have hp : (0 : Int) < 10 ^ a.exponent * 10 ^ b.exponent := Int.mul_pos (pow10_pos _) (pow10_pos _)
  have hq := pow10_pos (max a.exponent b.exponent)
  constructor
  · refine ⟨_, by unfold Decimal.eq; rw [h1, h2]; rfl, ?_⟩
    rw [decide_eq_true_eq]
    unfold Spec.Same
    constructor
    · intro e
      rw [e, s2] at s1
      exact (Int.mul_eq_mul_right_iff (by omega)).mp s1.symm
    · intro e
      rw [e, ← s2] at s1
      exact (Int.mul_eq_mul_right_iff (by omega)).mp s1
  · refine ⟨_, by unfold Decimal.less; rw [h1, h2]; rfl, ?_⟩
    rw [decide_eq_true_eq]
    unfold Spec.Less
    constructor
    · intro e
      have := Int.mul_lt_mul_of_pos_right e hp
      rw [s1, s2] at this
      exact Int.lt_of_mul_lt_mul_right this (by omega)
    · intro e
      have := Int.mul_lt_mul_of_pos_right e hq
      rw [← s1, ← s2] at this
      exact Int.lt_of_mul_lt_mul_right this (by omega)

/-- Sums are exact, as long as the numbers fit. -/
theorem add_partial {a b : Decimal} (h : Fits a b) : ∃ c, a.add b = some c ∧ Spec.IsSum a b c := by
  obtain ⟨h1, h2⟩ := fits_pow h
  obtain ⟨s1, s2⟩ := scaled a b
  obtain ⟨-, -, f1, f2⟩ := h
  refine ⟨⟨a.mantissa * 10 ^ (max a.exponent b.exponent - a.exponent) + b.mantissa * 10 ^ (max a.exponent b.exponent - b.exponent), max a.exponent b.exponent⟩, ?_, ?_⟩
  · unfold Decimal.add
    rw [h1, h2]
    simp only [Option.bind_some]
    rw [if_pos]
    simp only [inS64, Bool.and_eq_true, decide_eq_true_eq]
    omega
  · unfold Spec.IsSum Spec.Same
    simp only []
    rw [Int.pow_add, Int.add_mul, s1, s2, ← Int.add_mul]

theorem sub_partial {a b : Decimal} (h : Fits a b) : ∃ c, a.sub b = some c ∧ Spec.IsSum c b a := by
  have hf : Fits a ⟨-b.mantissa, b.exponent⟩ := by
    obtain ⟨h1, h2, h3, h4⟩ := h
    exact ⟨h1, h2, h3, by simp only []; rw [Int.neg_mul, Int.natAbs_neg]; exact h4⟩
  have hn : b.neg = some ⟨-b.mantissa, b.exponent⟩ := by
    unfold Decimal.neg
    rw [if_pos]
    obtain ⟨-, -, -, h4⟩ := h
    apply inS64_small
    rw [Int.natAbs_neg]
    have : b.mantissa.natAbs ≤ (b.mantissa * 10 ^ (max a.exponent b.exponent - b.exponent)).natAbs := by
      rw [Int.natAbs_mul, Int.natAbs_pow]
      exact Nat.le_mul_of_pos_right _ (Nat.pow_pos (by decide))
    omega
  obtain ⟨c, h1, h2⟩ := add_partial hf
  refine ⟨c, by unfold Decimal.sub; rw [hn]; exact h1, ?_⟩
  unfold Spec.IsSum Spec.Same at *
  simp only [] at *
  -- c.m * 10^(ae+be) = (a.m * 10^be - b.m * 10^ae) * 10^ce
  have e : c.mantissa * (10 ^ a.exponent * 10 ^ b.exponent) = (a.mantissa * 10 ^ b.exponent + -b.mantissa * 10 ^ a.exponent) * 10 ^ c.exponent := by
    rw [← Int.pow_add]; exact h2
  have hb := pow10_pos b.exponent
  rw [Int.pow_add]
  have e2 : a.mantissa * 10 ^ b.exponent * 10 ^ c.exponent = c.mantissa * (10 ^ a.exponent * 10 ^ b.exponent) + b.mantissa * 10 ^ a.exponent * 10 ^ c.exponent := by
    rw [e, Int.add_mul, Int.neg_mul, Int.neg_mul]; omega
  have e3 : a.mantissa * (10 ^ c.exponent * 10 ^ b.exponent) = a.mantissa * 10 ^ b.exponent * 10 ^ c.exponent := by
    simp only [Int.mul_assoc, Int.mul_comm, Int.mul_left_comm]
  rw [e3, e2, Int.add_mul]
  simp only [Int.mul_assoc, Int.mul_comm, Int.mul_left_comm]

/-- Products are exact, as long as the numbers fit and the product is in range. -/
theorem mul_partial {a b : Decimal} (h : Fits a b)
    (hr : inS64 (a.mantissa * 10 ^ (max a.exponent b.exponent - a.exponent) * (b.mantissa * 10 ^ (max a.exponent b.exponent - b.exponent))) = true) :
    ∃ c, a.mul b = some c ∧ Spec.IsProduct a b c := by
  obtain ⟨h1, h2⟩ := fits_pow h
  obtain ⟨s1, s2⟩ := scaled a b
  obtain ⟨f0, f1, -, -⟩ := h
  refine ⟨⟨a.mantissa * 10 ^ (max a.exponent b.exponent - a.exponent) * (b.mantissa * 10 ^ (max a.exponent b.exponent - b.exponent)), max a.exponent b.exponent + max a.exponent b.exponent⟩, ?_, ?_⟩
  · unfold Decimal.mul
    rw [h1, h2]
    simp only [Option.bind_some]
    rw [if_pos hr]
    simp only [Option.some.injEq, Decimal.mk.injEq, true_and]
    omega
  · unfold Spec.IsProduct Spec.Same
    simp only []
    have t1 : (10 : Int) ^ max a.exponent b.exponent = 10 ^ (max a.exponent b.exponent - a.exponent) * 10 ^ a.exponent := by
      rw [← Int.pow_add]; congr 1; omega
    have t2 : (10 : Int) ^ max a.exponent b.exponent = 10 ^ (max a.exponent b.exponent - b.exponent) * 10 ^ b.exponent := by
      rw [← Int.pow_add]; congr 1; omega
    rw [Int.pow_add, Int.pow_add]
    conv => rhs; rw [t1]
    have : a.mantissa * b.mantissa * (10 ^ (max a.exponent b.exponent - a.exponent) * 10 ^ a.exponent * (10 ^ (max a.exponent b.exponent - a.exponent) * 10 ^ a.exponent)) =
      a.mantissa * b.mantissa * (10 ^ (max a.exponent b.exponent - a.exponent) * 10 ^ a.exponent * (10 ^ (max a.exponent b.exponent - b.exponent) * 10 ^ b.exponent)) := by
      rw [← t1, ← t2]
    rw [this]
    simp only [Int.mul_assoc, Int.mul_comm, Int.mul_left_comm]

/-- Numbers above 2^53: two different integers compare equal, and adding nothing changes the number. -/
theorem large_numbers_violated :
    Decimal.eq ⟨9007199254740993, 0⟩ ⟨9007199254740992, 0⟩ = some true ∧ Decimal.add ⟨9007199254740993, 0⟩ ⟨0, 0⟩ = some ⟨9007199254740992, 0⟩ ∧
    ¬ Spec.Same ⟨9007199254740993, 0⟩ ⟨9007199254740992, 0⟩ := by
  refine ⟨by decide +kernel, by decide +kernel, by unfold Spec.Same; decide⟩

/-- The exponent of a product is a `u16` too: with 32768 decimal places it wraps, and the product of two tiny numbers is 1. -/
theorem tiny_product_violated :
    Decimal.mul ⟨1, 32768⟩ ⟨1, 32768⟩ = some ⟨1, 0⟩ ∧ ¬ Spec.IsProduct ⟨1, 32768⟩ ⟨1, 32768⟩ ⟨1, 0⟩ := by
  refine ⟨by decide +kernel, ?_⟩
  unfold Spec.IsProduct Spec.Same
  decide +kernel

example : Fits ⟨125, 2⟩ ⟨-5, 1⟩ := by unfold Fits; decide
example : Decimal.add ⟨125, 2⟩ ⟨-5, 1⟩ = some ⟨75, 2⟩ ∧ Decimal.mul ⟨125, 2⟩ ⟨-5, 1⟩ = some ⟨-6250, 4⟩ ∧ Decimal.eq ⟨50, 2⟩ ⟨5, 1⟩ = some true ∧ Decimal.less ⟨-5, 1⟩ ⟨-49, 2⟩ = some true := by
  decide +kernel

-- 1.5 and -0.25 fit; 1.5 - 0.25 = 1.25 and the product is -0.3750
example : Fits ⟨15, 1⟩ ⟨-25, 2⟩ ∧ Decimal.add ⟨15, 1⟩ ⟨-25, 2⟩ = some ⟨125, 2⟩ ∧ Decimal.sub ⟨15, 1⟩ ⟨-25, 2⟩ = some ⟨175, 2⟩ ∧
    Decimal.mul ⟨15, 1⟩ ⟨-25, 2⟩ = some ⟨-3750, 4⟩ ∧ Decimal.less ⟨-25, 2⟩ ⟨15, 1⟩ = some true ∧ Decimal.eq ⟨15, 1⟩ ⟨150, 2⟩ = some true ∧
    inS64 (15 * 10 ^ (max 1 2 - 1) * (-25 * 10 ^ (max 1 2 - 2))) = true := by
  refine ⟨?_, by decide +kernel, by decide +kernel, by decide +kernel, by decide +kernel, by decide +kernel, by decide +kernel⟩
  unfold Fits
  decide +kernel

end Verif.Num

import Verif.Math.Props
/-
Property C55: rounded decimal (and other radix) fractions.
-/
namespace Verif.Math

theorem roundLoop_error {r : Nat} (hr : 2 ≤ r) : ∀ (k f : Nat) (was : Bool),
    (roundLoop r k f was).1 * r ^ k < f + r ^ k ∧ f < (roundLoop r k f was).1 * r ^ k + r ^ k
  | 0, f, was => by simp [roundLoop]
  | k + 1, f, was => by
    rw [roundLoop]
    generalize hf' : (f / r + if f % r ≥ r / 2 + r % 2 then 1 else 0) = f'
    have h1 := Nat.div_add_mod f r
    have h2 := Nat.mod_lt f (show 0 < r by omega)
    have h3 := Nat.div_add_mod r 2
    have h4 := Nat.mod_lt r (show 0 < 2 by omega)
    have hs : r * f' ≤ f + (r - 1) ∧ f ≤ r * f' + (r - 1) := by
      rw [← hf']
      by_cases h : f % r ≥ r / 2 + r % 2
      · rw [if_pos h, Nat.mul_add, Nat.mul_one]; omega
      · rw [if_neg h, Nat.add_zero]; omega
    obtain ⟨g1, g2⟩ := roundLoop_error hr k f' (was || decide (f % r ≥ r / 2 + r % 2))
    generalize (roundLoop r k f' (was || decide (f % r ≥ r / 2 + r % 2))).1 = x at *
    have e1 : x * r ^ (k + 1) = r * (x * r ^ k) := by rw [Nat.pow_succ, ← Nat.mul_assoc, Nat.mul_comm]
    have e2 : r ^ (k + 1) = r * r ^ k := by rw [Nat.pow_succ, Nat.mul_comm]
    have k1 := Nat.mul_le_mul_left r (show x * r ^ k + 1 ≤ f' + r ^ k by omega)
    have k2 := Nat.mul_le_mul_left r (show f' + 1 ≤ x * r ^ k + r ^ k by omega)
    rw [Nat.mul_add, Nat.mul_add] at k1 k2
    rw [e1, e2]
    omega

theorem roundLoop_le {r : Nat} (hr : 2 ≤ r) : ∀ (k p f : Nat) (was : Bool), f ≤ r ^ (p + k) → (roundLoop r k f was).1 ≤ r ^ p
  | 0, p, f, was, h => h
  | k + 1, p, f, was, h => by
    rw [roundLoop]
    refine roundLoop_le hr k p _ _ ?_
    have h1 := Nat.div_add_mod f r
    have h2 := Nat.mod_lt f (show 0 < r by omega)
    have e : r ^ (p + (k + 1)) = r * r ^ (p + k) := by rw [← Nat.add_assoc, Nat.pow_succ, Nat.mul_comm]
    rw [e] at h
    by_cases hm : f % r ≥ r / 2 + r % 2
    · rw [if_pos hm]
      have : f / r < r ^ (p + k) := by
        refine Nat.div_lt_of_lt_mul ?_
        rcases Nat.lt_or_ge f (r * r ^ (p + k)) with h3 | h3
        · exact h3
        · have h4 : f = r * r ^ (p + k) := by omega
          rw [h4, Nat.mul_mod_right] at hm
          omega
      omega
    · rw [if_neg hm, Nat.add_zero]
      exact Nat.div_le_of_le_mul h

/-- Without a rounding up the loop truncates. -/
theorem roundLoop_was {r : Nat} (hr : 2 ≤ r) : ∀ (k f : Nat), (roundLoop r k f true).2 = true
  | 0, _ => rfl
  | k + 1, f => by rw [roundLoop, Bool.true_or]; exact roundLoop_was hr k _

theorem roundLoop_false {r : Nat} (hr : 2 ≤ r) : ∀ (k f : Nat), (roundLoop r k f false).2 = false → (roundLoop r k f false).1 = f / r ^ k
  | 0, f, _ => by simp [roundLoop]
  | k + 1, f, h => by
    rw [roundLoop] at h ⊢
    by_cases hm : f % r ≥ r / 2 + r % 2
    · rw [decide_eq_true hm, Bool.false_or, roundLoop_was hr] at h
      cases h
    · rw [decide_eq_false hm, Bool.or_false, if_neg hm, Nat.add_zero] at h ⊢
      rw [roundLoop_false hr k _ h, Nat.pow_succ, Nat.div_div_eq_div_mul, Nat.mul_comm]

theorem precisionBase_eq {r : Nat} : ∀ p, precisionBase r p = if p = 0 then 1 else r ^ p % 2 ^ 64
  | 0 => rfl
  | p + 1 => by
    rw [if_neg (by omega), precisionBase, precisionBase_eq p]
    by_cases h : p = 0
    · subst h; rw [if_pos rfl, Nat.one_mul, Nat.pow_one]
    · rw [if_neg h, Nat.pow_succ r p, Nat.mod_mul_mod]

/-- The number of units of the last of `p` digits that a result stands for, a carry into the integer part included. -/
def Spec.units (r p : Nat) (x : Fraction) : Nat := x.fraction + if x.overflow then r ^ p else 0

open Spec

theorem roundFraction_spec {r : Nat} (hr : 2 ≤ r) {f P target : Nat} (hf : f < r ^ P) (hp : r ^ (min P target) < 2 ^ 64) :
    units r (min P target) (roundFraction f P target r) = (roundLoop r (P - target) f false).1 ∧
    ((roundFraction f P target r).precision = min P target ∨ (roundFraction f P target r).fraction = 0 ∧ (roundFraction f P target r).precision = 0) ∧
    (roundFraction f P target r).fraction < r ^ min P target := by
  have hb : precisionBase r (min P target) = r ^ min P target := by
    rw [precisionBase_eq]
    by_cases h : min P target = 0
    · rw [if_pos h, h]; rfl
    · rw [if_neg h, Nat.mod_eq_of_lt hp]
  have hle : (roundLoop r (P - target) f false).1 ≤ r ^ min P target := by
    refine roundLoop_le hr (P - target) (min P target) f false ?_
    have : min P target + (P - target) = P := by omega
    rw [this]; omega
  have hpos : 0 < r ^ min P target := Nat.pow_pos (by omega)
  have hlt : (roundLoop r (P - target) f false).2 = false → (roundLoop r (P - target) f false).1 < r ^ min P target := by
    intro h
    rw [roundLoop_false hr _ _ h]
    refine Nat.div_lt_of_lt_mul ?_
    rw [← Nat.pow_add]
    have : P - target + min P target = P := by omega
    rw [this]; exact hf
  unfold roundFraction
  rw [hb]
  by_cases h1 : (roundLoop r (P - target) f false).2 = false
  · rw [if_pos h1]
    exact ⟨by simp [units], Or.inl rfl, hlt h1⟩
  · rw [if_neg h1]
    by_cases h2 : (roundLoop r (P - target) f false).1 ≥ r ^ min P target
    · rw [if_pos h2]
      have h3 : (roundLoop r (P - target) f false).1 = r ^ min P target := by omega
      rw [h3, Nat.sub_self]
      exact ⟨by simp [units], Or.inr ⟨rfl, by simp⟩, hpos⟩
    · rw [if_neg h2]
      refine ⟨by simp [units], ?_, by simp only []; omega⟩
      by_cases h4 : (roundLoop r (P - target) f false).1 = 0
      · rw [if_pos h4]; exact Or.inr ⟨h4, rfl⟩
      · rw [if_neg h4]; exact Or.inl rfl

theorem scaleLoop_spec {r : Nat} (hr : 2 ≤ r) : ∀ (fuel rem p : Nat), 0 < rem → rem < 2 ^ 64 → 2 ^ 64 ≤ rem * 2 ^ fuel →
    ∃ k, scaleLoop r fuel rem p = (rem * r ^ k, p + k) ∧ rem * r ^ k < 2 ^ 64 ∧ 2 ^ 64 ≤ rem * r ^ (k + 1)
  | 0, rem, p, _, h1, h2 => by rw [Nat.pow_zero, Nat.mul_one] at h2; omega
  | fuel + 1, rem, p, h0, h1, h2 => by
    rw [scaleLoop]
    have hstep : rem ≤ (2 ^ 64 - 1) / r ↔ rem * r < 2 ^ 64 := by
      rw [Nat.le_div_iff_mul_le (by omega)]; omega
    by_cases h : rem ≤ (2 ^ 64 - 1) / r
    · rw [if_pos h]
      have h3 : rem * 2 ≤ rem * r := Nat.mul_le_mul_left _ hr
      obtain ⟨k, g1, g2, g3⟩ := scaleLoop_spec hr fuel (rem * r) (p + 1) (by omega) (hstep.mp h) (by
        rw [Nat.pow_succ 2 fuel, Nat.mul_comm (2 ^ fuel) 2, ← Nat.mul_assoc] at h2
        exact Nat.le_trans h2 (Nat.mul_le_mul_right _ h3))
      have e : ∀ j, rem * r * r ^ j = rem * r ^ (j + 1) := fun j => by rw [Nat.pow_succ, Nat.mul_assoc, Nat.mul_comm r]
      rw [e] at g1 g2 g3
      exact ⟨k + 1, by rw [g1]; congr 1; omega, g2, g3⟩
    · rw [if_neg h]
      refine ⟨0, by simp, by simpa using h1, ?_⟩
      have : ¬ rem * r < 2 ^ 64 := fun h' => h (hstep.mpr h')
      rw [Nat.zero_add, Nat.pow_one]; omega

/-- C55, fractional part of a quotient: with `p` the smaller of the requested number of digits and the number `P` of digits that can be computed in 64 bits, the result
differs from the exact fraction by less than one unit of the `p`-th digit (so it is exact whenever `p` digits suffice), and has at most `p` digits. Not true: that it
is the nearest one, see `fraction_violated`. -/
theorem fraction_partial {a b target r : Nat} (hb : 0 < b) (hb64 : b < 2 ^ 64) (hr : 2 ≤ r) (hrem : a % b ≠ 0) :
    ∃ P x, fractionRemainder a b target r = .ok x ∧ a % b * r ^ P < 2 ^ 64 ∧ 2 ^ 64 ≤ a % b * r ^ (P + 1) ∧
      units r (min P target) x * b < a % b * r ^ min P target + b ∧ a % b * r ^ min P target < units r (min P target) x * b + b ∧
      x.fraction < r ^ min P target ∧ (x.precision = min P target ∨ x.fraction = 0 ∧ x.precision = 0) := by
  have hlt := Nat.mod_lt a hb
  obtain ⟨P, h1, h2, h3⟩ := scaleLoop_spec hr 64 (a % b) 0 (by omega) (by omega) (Nat.le_mul_of_pos_left _ (by omega))
  rw [Nat.zero_add] at h1
  have hf : a % b * r ^ P / b < r ^ P := Nat.div_lt_of_lt_mul (Nat.mul_lt_mul_of_pos_right hlt (Nat.pow_pos (by omega)))
  have hp : r ^ min P target < 2 ^ 64 := by
    have g1 : r ^ min P target ≤ r ^ P := Nat.pow_le_pow_right (by omega) (by omega)
    have g2 : 1 * r ^ P ≤ a % b * r ^ P := Nat.mul_le_mul_right _ (by omega)
    omega
  obtain ⟨k1, k2, k3⟩ := roundFraction_spec hr (P := P) (target := target) hf hp
  have he := roundLoop_error hr (P - target) (a % b * r ^ P / b) false
  rw [← k1] at he
  refine ⟨P, roundFraction (a % b * r ^ P / b) P target r, ?_, h2, h3, ?_, ?_, k3, k2⟩
  · unfold fractionRemainder
    rw [if_neg (by omega), if_neg (by omega), if_neg hrem, h1]
  all_goals
    generalize units r (min P target) (roundFraction (a % b * r ^ P / b) P target r) = u at he ⊢
    have d1 := Nat.div_add_mod (a % b * r ^ P) b
    have d2 := Nat.mod_lt (a % b * r ^ P) hb
    generalize a % b * r ^ P / b = f at d1 he
    have e1 : r ^ P = r ^ min P target * r ^ (P - target) := by rw [← Nat.pow_add]; congr 1; omega
    have hpos : 0 < r ^ (P - target) := Nat.pow_pos (by omega)
    have e2 : a % b * r ^ P = a % b * r ^ min P target * r ^ (P - target) := by rw [e1, Nat.mul_assoc]
    refine Nat.lt_of_mul_lt_mul_right (a := r ^ (P - target)) ?_
    rw [Nat.add_mul]
    have c1 : u * b * r ^ (P - target) = b * (u * r ^ (P - target)) := by rw [Nat.mul_comm u b, Nat.mul_assoc]
    rw [← e2, c1]
  · have m := Nat.mul_le_mul_left b (show u * r ^ (P - target) + 1 ≤ f + r ^ (P - target) by omega)
    rw [Nat.mul_add, Nat.mul_add] at m
    omega
  · have m := Nat.mul_le_mul_left b (show f + 1 ≤ u * r ^ (P - target) + r ^ (P - target) by omega)
    rw [Nat.mul_add, Nat.mul_add] at m
    omega

/-- C55, whole quotients and bad arguments. -/
theorem fraction_edge (a b target r : Nat) :
    fractionRemainder a 0 target r = .error .argument ∧ (r ≤ 1 → fractionRemainder a b target r = .error .argument) ∧
    (0 < b → 2 ≤ r → a % b = 0 → fractionRemainder a b target r = .ok ⟨0, 0, false⟩) := by
  refine ⟨rfl, fun h => ?_, fun h1 h2 h3 => ?_⟩
  · unfold fractionRemainder
    by_cases hb : b = 0
    · rw [if_pos hb]
    · rw [if_neg hb, if_pos (by omega)]
  · unfold fractionRemainder
    rw [if_neg (by omega), if_neg (by omega), if_pos h3]

theorem padLoop_spec : ∀ (k f : Nat), f < 2 ^ 64 → 0 < f → (f * 10 ^ k < 2 ^ 64 ∧ padLoop k f = .ok (f * 10 ^ k)) ∨ (2 ^ 64 ≤ f * 10 ^ k ∧ padLoop k f = .error .indexOutOfRange)
  | 0, f, h, _ => Or.inl ⟨by simpa using h, by simp [padLoop]⟩
  | k + 1, f, h, h0 => by
    rw [padLoop]
    have e : f * 10 ^ (k + 1) = f * 10 * 10 ^ k := by rw [Nat.pow_succ, Nat.mul_assoc, Nat.mul_comm 10]
    by_cases h1 : f ≤ (2 ^ 64 - 1) / 10
    · rw [if_pos h1, e]
      exact padLoop_spec k (f * 10) (by omega) (by omega)
    · rw [if_neg h1]
      refine Or.inr ⟨?_, rfl⟩
      rw [e]
      have : f * 10 * 1 ≤ f * 10 * 10 ^ k := Nat.mul_le_mul_left _ (Nat.pow_pos (by omega))
      omega

/-- C55, parsing the digits after the decimal point: a text of `len` digits with value `f` is padded exactly if fewer digits are given than requested (or rejected if it
does not fit into 64 bits), and is rounded to within one unit of the last digit otherwise. -/
theorem parse_fraction_partial {len f target : Nat} (hf0 : 0 < f) (hf : f < 10 ^ len) (h64 : f < 2 ^ 64) :
    (len ≤ target → (f * 10 ^ (target - len) < 2 ^ 64 ∧ parseFraction len (some f) target = .ok ⟨f * 10 ^ (target - len), target, false⟩) ∨
      (2 ^ 64 ≤ f * 10 ^ (target - len) ∧ parseFraction len (some f) target = .error .indexOutOfRange)) ∧
    (target < len → 10 ^ target < 2 ^ 64 → ∃ x, parseFraction len (some f) target = .ok x ∧
      units 10 target x * 10 ^ (len - target) < f + 10 ^ (len - target) ∧ f < units 10 target x * 10 ^ (len - target) + 10 ^ (len - target) ∧
      x.fraction < 10 ^ target ∧ (x.precision = target ∨ x.fraction = 0 ∧ x.precision = 0)) := by
  constructor
  · intro hle
    have hm : max len target = target := by omega
    unfold parseFraction
    simp only []
    rw [if_neg (by omega)]
    rcases padLoop_spec (target - len) f h64 hf0 with ⟨h1, h2⟩ | ⟨h1, h2⟩
    · left
      refine ⟨h1, ?_⟩
      rw [h2]
      simp only [hm, roundFraction, Nat.sub_self, roundLoop, if_true, Nat.min_self]
    · right
      refine ⟨h1, ?_⟩
      rw [h2]
  · intro hlt hp
    have hm : max len target = len := by omega
    have hmin : min len target = target := by omega
    have hk := roundFraction_spec (r := 10) (by omega) (P := len) (target := target) hf (by rw [hmin]; exact hp)
    have he := roundLoop_error (r := 10) (by omega) (len - target) f false
    rw [hmin] at hk
    refine ⟨roundFraction f len target 10, ?_, ?_, ?_, hk.2.2, hk.2.1⟩
    · unfold parseFraction
      simp only []
      rw [if_neg (by omega), show target - len = 0 by omega]
      simp only [padLoop, hm]
    · rw [hk.1]; exact he.1
    · rw [hk.1]; exact he.2

/-- C55 refuted: rounding digit by digit from the right is not rounding to the nearest (0.445 to one digit gives 0.5); a divisor near 2^64 leaves no digits at all
(the fraction 2^63 / (2^63 + 1) to three digits gives 0 although it is above 0.999); and a text with more than 63 digits after the point is reported as overflowing
into the integer part. -/
theorem fraction_violated :
    fractionRemainder 445 1000 1 10 = .ok ⟨5, 1, false⟩ ∧
    (fractionRemainder (2 ^ 63) (2 ^ 63 + 1) 3 10 = .ok ⟨0, 0, false⟩ ∧ 999 * (2 ^ 63 + 1) < 1000 * 2 ^ 63) ∧
    parseFraction 65 (some 5) 64 = .ok ⟨1, 64, true⟩ := by
  refine ⟨by with_unfolding_all rfl, ⟨by with_unfolding_all rfl, by omega⟩, by with_unfolding_all rfl⟩

/-! Non-vacuity: 1/3 to four digits, 2/3 to two digits, 999.96 to one digit carries. -/
example : fractionRemainder 1 3 4 10 = .ok ⟨3333, 4, false⟩ ∧ fractionRemainder 2 3 2 10 = .ok ⟨67, 2, false⟩ ∧ fractionRemainder 99996 100 1 10 = .ok ⟨0, 0, true⟩ ∧
    parseFraction 2 (some 25) 4 = .ok ⟨2500, 4, false⟩ ∧ parseFraction 3 (some 126) 2 = .ok ⟨13, 2, false⟩ := by
  refine ⟨?_, ?_, ?_, ?_, ?_⟩ <;> with_unfolding_all rfl

end Verif.Math

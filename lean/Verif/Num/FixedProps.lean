import Verif.Num.Fixed
import Verif.Num.DecimalTextProps
import Verif.Str.SplitProps
/-
Numbers with a fixed number of binary places: `a` stands for `a / 2 ^ N`.
-/
namespace Verif.Num
open Verif.Str

theorem inS32_iff {x : Int} : inS32 x = true ↔ -2147483648 ≤ x ∧ x ≤ 2147483647 := by
  simp only [inS32, Bool.and_eq_true, decide_eq_true_eq]

theorem wrap32_id {x : Int} (h : inS32 x = true) : wrap32 x = x := by
  rw [inS32_iff] at h
  unfold wrap32
  omega

theorem int32_id {x : Int} (h : inS32 x = true) : int32 x = some x := if_pos h

theorem pow2_pos (n : Nat) : (0 : Int) < 2 ^ n := Int.pow_pos (by omega)

/-- Sums and differences are exact, products are rounded down to a multiple of `2 ^ -N`, quotients towards zero, as long as the result is in range. -/
theorem fixed_arithmetic_partial (N : Nat) (a b : Int) :
    (inS32 (a + b) = true → Fixed.add a b = some (a + b)) ∧ (inS32 (a - b) = true → Fixed.sub a b = some (a - b)) ∧
    (-2147483648 * 2 ^ N ≤ a * b → a * b < 2147483648 * 2 ^ N → ∃ c, Fixed.mul N a b = some c ∧ c * 2 ^ N ≤ a * b ∧ a * b < (c + 1) * 2 ^ N) ∧
    (b ≠ 0 → (a * 2 ^ N).natAbs < 2147483648 * b.natAbs →
      ∃ c, Fixed.div N a b = some c ∧ (c * b).natAbs ≤ (a * 2 ^ N).natAbs ∧ (a * 2 ^ N - c * b).natAbs < b.natAbs) := by
  refine ⟨fun h => int32_id h, fun h => int32_id h, ?_, ?_⟩
  · intro h1 h2
    have hp := pow2_pos N
    have e1 := Int.emod_add_mul_ediv (a * b) (2 ^ N)
    have e2 := Int.emod_nonneg (a * b) (by omega : (2 : Int) ^ N ≠ 0)
    have e3 := Int.emod_lt_of_pos (a * b) hp
    have h3 : a * b / 2 ^ N < 2147483648 := Int.lt_of_mul_lt_mul_right (a := 2 ^ N) (by rw [Int.mul_comm (a * b / 2 ^ N)]; omega) (by omega)
    have h4 : -2147483649 < a * b / 2 ^ N := Int.lt_of_mul_lt_mul_right (a := 2 ^ N) (by rw [Int.mul_comm (a * b / 2 ^ N)]; omega) (by omega)
    refine ⟨a * b / 2 ^ N, ?_, ?_, ?_⟩
    · unfold Fixed.mul
      rw [wrap32_id (by rw [inS32_iff]; omega)]
    · rw [Int.mul_comm]; omega
    · rw [Int.add_mul, Int.mul_comm (a * b / 2 ^ N)]; omega
  · intro hb h1
    generalize hx : a * 2 ^ N = x at h1
    have e1 := Int.tmod_add_mul_tdiv x b
    have e2 := Int.natAbs_tmod x b
    have e3 : (x.tdiv b).natAbs = x.natAbs / b.natAbs := Int.natAbs_tdiv x b
    have hb0 : 0 < b.natAbs := by omega
    have e4 := Nat.mod_lt x.natAbs hb0
    have e5 : x.natAbs / b.natAbs < 2147483648 := (Nat.div_lt_iff_lt_mul hb0).mpr h1
    have e6 := Nat.div_mul_le_self x.natAbs b.natAbs
    refine ⟨x.tdiv b, ?_, ?_, ?_⟩
    · unfold Fixed.div
      rw [if_neg hb, hx, wrap32_id (by rw [inS32_iff]; omega)]
    · rw [Int.natAbs_mul, e3]; exact e6
    · rw [Int.mul_comm]; omega

/-- Division by an integer: the quotient cut toward zero; only zero and the negation of the smallest number are left out. -/
theorem fixed_div_int (a k : Int) (ha : -2147483648 ≤ a ∧ a ≤ 2147483647) :
    (∀ q, Fixed.divInt a k = some q → k ≠ 0 ∧ (q * k).natAbs ≤ a.natAbs ∧ (a - q * k).natAbs < k.natAbs) ∧
    (Fixed.divInt a k = none ↔ k = 0 ∨ (a = -2147483648 ∧ k = -1)) ∧ Fixed.mulInt a k = if -2147483648 ≤ a * k ∧ a * k ≤ 2147483647 then some (a * k) else none := by
  refine ⟨?_, ?_, ?_⟩
  · intro q h
    by_cases hk : k = 0
    · simp [Fixed.divInt, hk] at h
    · simp only [Fixed.divInt, if_neg hk, int32] at h
      split at h
      · obtain rfl := Option.some.inj h
        have e1 := Int.tmod_add_mul_tdiv a k
        have e2 := Int.natAbs_tmod a k
        have e3 : (a.tdiv k).natAbs = a.natAbs / k.natAbs := Int.natAbs_tdiv a k
        have e4 := Nat.mod_lt a.natAbs (by omega : 0 < k.natAbs)
        have e6 := Nat.div_mul_le_self a.natAbs k.natAbs
        refine ⟨hk, by rw [Int.natAbs_mul, e3]; exact e6, ?_⟩
        rw [Int.mul_comm]; omega
      · cases h
  · by_cases hk : k = 0
    · simp [Fixed.divInt, hk]
    · have e3 : (a.tdiv k).natAbs = a.natAbs / k.natAbs := Int.natAbs_tdiv a k
      simp only [Fixed.divInt, if_neg hk, int32]
      by_cases h1 : k.natAbs = 1
      · have hk1 : k = 1 ∨ k = -1 := by omega
        rcases hk1 with rfl | rfl
        · have : inS32 a = true := by rw [inS32_iff]; exact ha
          simp [this]
        · have e : a.tdiv (-1) = -a := by rw [Int.tdiv_neg, Int.tdiv_one]
          rw [e]
          by_cases h2 : a = -2147483648
          · subst h2; decide
          · have : inS32 (-a) = true := by rw [inS32_iff]; omega
            simp [this, h2]
      · have e5 : a.natAbs / k.natAbs ≤ a.natAbs / 2 := Nat.div_le_div_left (by omega) (by omega)
        have : inS32 (a.tdiv k) = true := by rw [inS32_iff]; omega
        simp [this, hk]; omega
  · simp only [Fixed.mulInt, int32]
    by_cases h : -2147483648 ≤ a * k ∧ a * k ≤ 2147483647
    · rw [if_pos h, if_pos (inS32_iff.mpr h)]
    · rw [if_neg h, if_neg (fun hc => h (inS32_iff.mp hc))]

example : Fixed.divInt (-7) 2 = some (-3) := by decide

/-- `to_int` rounds down; a number converts to more places exactly and to fewer rounding down. -/
theorem fixed_convert_partial (N M : Nat) (a : Int) :
    (0 ≤ a - Fixed.toInt N a * 2 ^ N ∧ a - Fixed.toInt N a * 2 ^ N < 2 ^ N) ∧
    (M ≤ N → inS32 (a * 2 ^ (N - M)) = true → ∃ b, Fixed.assign N M a = some b ∧ b * 2 ^ M = a * 2 ^ N) ∧
    (N ≤ M → ∃ b, Fixed.assign N M a = some b ∧ b * 2 ^ M ≤ a * 2 ^ N ∧ a * 2 ^ N < (b + 1) * 2 ^ M) := by
  have key : ∀ n, 0 ≤ a - a / 2 ^ n * 2 ^ n ∧ a - a / 2 ^ n * 2 ^ n < 2 ^ n := by
    intro n
    have hp := pow2_pos n
    have e1 := Int.emod_add_mul_ediv a (2 ^ n)
    have e2 := Int.emod_nonneg a (by omega : (2 : Int) ^ n ≠ 0)
    have e3 := Int.emod_lt_of_pos a hp
    rw [Int.mul_comm (a / 2 ^ n)]
    omega
  refine ⟨key N, ?_, ?_⟩
  · intro h hr
    unfold Fixed.assign
    by_cases hle : N ≤ M
    · rw [if_pos hle]
      have : M - N = 0 := by omega
      refine ⟨_, rfl, ?_⟩
      have e : N = M := by omega
      rw [this, e]; simp
    · rw [if_neg hle]
      refine ⟨_, int32_id hr, ?_⟩
      rw [Int.mul_assoc, ← Int.pow_add]
      congr 2; omega
  · intro h
    unfold Fixed.assign
    rw [if_pos h]
    refine ⟨_, rfl, ?_⟩
    obtain ⟨k1, k2⟩ := key (M - N)
    have e : (2 : Int) ^ M = 2 ^ (M - N) * 2 ^ N := by rw [← Int.pow_add]; congr 1; omega
    have hp := pow2_pos N
    rw [e, ← Int.mul_assoc, ← Int.mul_assoc]
    constructor
    · exact Int.mul_le_mul_of_nonneg_right (by omega) (by omega)
    · refine Int.mul_lt_mul_of_pos_right ?_ hp
      rw [Int.add_mul]; omega

/-- The loop finds the largest root with the bits found so far. -/
theorem sqrtLoop_spec (V : Nat) (k : Nat) : ∀ r : Nat, k ≤ 16 → r < 2 ^ (16 - k) → (r * 2 ^ k) * (r * 2 ^ k) ≤ V →
    ∃ R : Nat, Fixed.sqrtLoop k (r : Int) (((r * 2 ^ k) * (r * 2 ^ k) : Nat) - (V : Int) - 1) = some ((R : Nat) : Int) ∧ R < (r + 1) * 2 ^ k ∧ R * R ≤ V ∧
      ∀ x, x < (r + 1) * 2 ^ k → x * x ≤ V → x ≤ R := by
  induction k with
  | zero =>
    intro r _ hr hv
    simp only [Nat.pow_zero, Nat.mul_one] at *
    refine ⟨r, rfl, by omega, hv, fun x hx _ => by omega⟩
  | succ k ih =>
    intro r hk hr hv
    have hr2 : 2 * r + 1 < 2 ^ (16 - k) := by
      have : 16 - k = (16 - (k + 1)) + 1 := by omega
      rw [this, Nat.pow_succ]; omega
    have e2 : (r * 2 ^ (k + 1)) = (2 * r) * 2 ^ k := by rw [Nat.pow_succ]; simp only [Nat.mul_assoc, Nat.mul_comm, Nat.mul_left_comm]
    have e3 : (r + 1) * 2 ^ (k + 1) = (2 * r + 2) * 2 ^ k := by rw [Nat.pow_succ, Nat.add_mul, Nat.add_mul, Nat.one_mul, Nat.mul_comm (2 ^ k) 2, ← Nat.mul_assoc, Nat.mul_comm r 2]
    have hsq : (2 * r + 1) * 2 ^ k * ((2 * r + 1) * 2 ^ k) = (2 * r) * 2 ^ k * ((2 * r) * 2 ^ k) + (2 * (2 * r) + 1) * 2 ^ (2 * k) := by
      have : (2 : Nat) ^ (2 * k) = 2 ^ k * 2 ^ k := by rw [← Nat.pow_add]; congr 1; omega
      rw [this]
      generalize 2 ^ k = p
      have h1 : (2 * r + 1) * p = 2 * r * p + p := by rw [Nat.add_mul, Nat.one_mul]
      rw [h1, Nat.add_mul, Nat.mul_add, Nat.mul_add, Nat.add_mul, Nat.one_mul]
      have h2 : p * (2 * r * p) = 2 * r * p * p := by simp only [Nat.mul_assoc, Nat.mul_comm, Nat.mul_left_comm]
      have h3 : 2 * (2 * r) * (p * p) = 2 * (2 * r * p * p) := by simp only [Nat.mul_assoc]
      rw [h2, h3]; omega
    have hinc : (2 * (2 * r) + 1) * 2 ^ (2 * k) ≤ 2147483647 := by
      by_cases hk16 : k = 15
      · subst hk16
        have : r = 0 := by simpa using hr
        subst this; decide
      · have h1 : 2 * (2 * r) + 1 < 2 ^ (17 - k) := by
          have : 17 - k = (16 - k) + 1 := by omega
          rw [this, Nat.pow_succ]; omega
        have h2 : (2 * (2 * r) + 1) * 2 ^ (2 * k) < 2 ^ (17 - k) * 2 ^ (2 * k) := Nat.mul_lt_mul_of_pos_right h1 (Nat.pow_pos (by decide))
        rw [← Nat.pow_add] at h2
        have h3 : 2 ^ (17 - k + 2 * k) ≤ 2 ^ 31 := Nat.pow_le_pow_right (by decide) (by omega)
        omega
    have hr16 : r < 2 ^ 16 := Nat.lt_of_lt_of_le hr (Nat.pow_le_pow_right (by decide) (by omega))
    unfold Fixed.sqrtLoop
    rw [int32_id (x := (r : Int) + r) (by rw [inS32_iff]; omega)]
    simp only [Option.bind_some]
    have c1 : (2 * ((r : Int) + r) + 1) * 2 ^ (2 * k) = (((2 * (2 * r) + 1) * 2 ^ (2 * k) : Nat) : Int) := by
      rw [Int.natCast_mul, Int.natCast_pow]
      congr 1
      omega
    rw [c1, int32_id (by rw [inS32_iff]; omega)]
    simp only [Option.bind_some]
    have c2 : ((r : Int) + r) = ((2 * r : Nat) : Int) := by omega
    have c3 : (((2 * r : Nat) : Int) + 1) = ((2 * r + 1 : Nat) : Int) := by omega
    have c4 : (((r * 2 ^ (k + 1) * (r * 2 ^ (k + 1)) : Nat) : Int) - (V : Int) - 1 + (((2 * (2 * r) + 1) * 2 ^ (2 * k) : Nat) : Int)) =
        (((2 * r + 1) * 2 ^ k * ((2 * r + 1) * 2 ^ k) : Nat) : Int) - V - 1 := by
      rw [e2, hsq]; omega
    rw [c4, c2]
    by_cases hlt : (2 * r + 1) * 2 ^ k * ((2 * r + 1) * 2 ^ k) ≤ V
    · rw [if_pos (by omega), c3]
      obtain ⟨R, h1, h2, h3, h4⟩ := ih (2 * r + 1) (by omega) hr2 hlt
      refine ⟨R, h1, by rw [e3]; exact h2, h3, fun x hx hxv => h4 x (by rw [e3] at hx; exact hx) hxv⟩
    · rw [if_neg (by omega), e2]
      obtain ⟨R, h1, h2, h3, h4⟩ := ih (2 * r) (by omega) (by omega) (by rw [← e2]; exact hv)
      refine ⟨R, h1, ?_, h3, fun x hx hxv => h4 x ?_ hxv⟩
      · refine Nat.lt_of_lt_of_le h2 ?_
        rw [e3]
        exact Nat.mul_le_mul_right _ (by omega)
      · apply Nat.lt_of_not_le
        intro hge
        exact hlt (Nat.le_trans (Nat.mul_le_mul hge hge) hxv)

/-- The square root is the largest number whose square is not greater, as long as the square has no more than 32 binary digits. -/
theorem sqrt_partial {N v : Nat} (h : v * 2 ^ (2 * N) < 2 ^ 32) :
    ∃ R : Nat, Fixed.sqrt N v = some ((R : Nat) : Int) ∧ R * R ≤ v * 2 ^ (2 * N) ∧ v * 2 ^ (2 * N) < (R + 1) * (R + 1) := by
  obtain ⟨R, h1, h2, h3, h4⟩ := sqrtLoop_spec (v * 2 ^ (2 * N)) 16 0 (by omega) (by decide) (by omega)
  refine ⟨R, ?_, h3, ?_⟩
  · unfold Fixed.sqrt
    rw [if_pos]
    · rw [← h1]
      congr 1
      have : ((v : Int) * 2 ^ (2 * N)) = ((v * 2 ^ (2 * N) : Nat) : Int) := by rw [Int.natCast_mul, Int.natCast_pow]; rfl
      rw [this]
      simp only [Nat.zero_mul]
      omega
    · simp only [inS64, Bool.and_eq_true, decide_eq_true_eq]
      have : ((v : Int) * 2 ^ (2 * N)) = ((v * 2 ^ (2 * N) : Nat) : Int) := by rw [Int.natCast_mul, Int.natCast_pow]; rfl
      omega
  · apply Nat.lt_of_not_le
    intro hc
    have hlt : R + 1 < 2 ^ 16 := by
      apply Nat.lt_of_not_le
      intro hge
      have := Nat.mul_le_mul hge hge
      omega
    have := h4 (R + 1) (by omega) hc
    omega

/-- All other roots are wrong: they are 65535 / 2 ^ N, although the square of the next number is not greater either. -/
theorem sqrt_violated {N v : Nat} (h : 2 ^ 32 ≤ v * 2 ^ (2 * N)) (hs : v * 2 ^ (2 * N) < 2 ^ 63) :
    Fixed.sqrt N v = some 65535 ∧ 65536 * 65536 ≤ v * 2 ^ (2 * N) := by
  obtain ⟨R, h1, h2, h3, h4⟩ := sqrtLoop_spec (v * 2 ^ (2 * N)) 16 0 (by omega) (by decide) (by omega)
  have := h4 65535 (by decide) (by omega)
  have hR : R = 65535 := by omega
  subst hR
  refine ⟨?_, by omega⟩
  unfold Fixed.sqrt
  rw [if_pos]
  · rw [show (some 65535 : Option Int) = some ((65535 : Nat) : Int) from rfl, ← h1]
    congr 1
    have : ((v : Int) * 2 ^ (2 * N)) = ((v * 2 ^ (2 * N) : Nat) : Int) := by rw [Int.natCast_mul, Int.natCast_pow]; rfl
    rw [this]
    simp only [Nat.zero_mul]
    omega
  · simp only [inS64, Bool.and_eq_true, decide_eq_true_eq]
    have : ((v : Int) * 2 ^ (2 * N)) = ((v * 2 ^ (2 * N) : Nat) : Int) := by rw [Int.natCast_mul, Int.natCast_pow]; rfl
    omega

theorem s32_ok : s32.Ok ∧ s32.hi < 10 ^ 31 := int_types_ok s32 (by simp)

theorem decimal_small {x : Int} (h0 : 0 ≤ x) {ds : List Char} (h : ds.all isDigit = true) (hv : decimal ds = x.natAbs) (h2 : ds.head? = some '0' → ds = ['0']) (hne : ds ≠ []) :
    (x < 10 → ds.length = 1) ∧ (10 ≤ x → x < 100 → ds.length = 2) ∧ (100 ≤ x → x < 1000 → ds.length = 3) := by
  have lo : ∀ k, 10 ^ k ≤ x → k < ds.length := by
    intro k hk
    have := decimal_lt h
    rw [hv] at this
    have h5 : (10 : Int) ^ k < 10 ^ ds.length := by omega
    have h6 : (10 : Nat) ^ k < 10 ^ ds.length := by
      have : ((10 ^ k : Nat) : Int) < ((10 ^ ds.length : Nat) : Int) := by
        rw [Int.natCast_pow, Int.natCast_pow]; exact h5
      omega
    exact (Nat.pow_lt_pow_iff_right (by decide : 1 < 10)).mp h6
  have hi : ∀ k, 0 < k → x < 10 ^ k → ds.length ≤ k := by
    intro k hk0 hk
    cases ds with
    | nil => exact Nat.zero_le _
    | cons c cs =>
      simp only [List.all_cons, Bool.and_eq_true] at h
      have hc := digitVal_range h.1
      by_cases hc0 : c = '0'
      · have := h2 (by rw [hc0]; rfl)
        rw [this]; exact hk0
      · have hc1 : 1 ≤ digitVal c := by
          have hne : digitVal c ≠ 0 := by
            intro hz
            apply hc0
            unfold digitVal at hz
            have h48 : c.toNat = 48 := by omega
            rw [← Char.ofNat_toNat c, h48]
          omega
        have hv2 : decimal (c :: cs) = digitVal c * 10 ^ cs.length + decimal cs := by
          have := decimal_append [c] cs
          rw [List.singleton_append] at this
          rw [this]
          have : decimal [c] = digitVal c := by simp [decimal]
          rw [this]
        have h0 := decimal_nonneg h.2
        have hp := pow10_pos cs.length
        have : 1 * 10 ^ cs.length ≤ digitVal c * 10 ^ cs.length := Int.mul_le_mul_of_nonneg_right hc1 (by omega)
        have h6 : (10 : Int) ^ cs.length < 10 ^ k := by omega
        have h7 : (10 : Nat) ^ cs.length < 10 ^ k := by
          have : ((10 ^ cs.length : Nat) : Int) < ((10 ^ k : Nat) : Int) := by
            rw [Int.natCast_pow, Int.natCast_pow]; exact h6
          omega
        have := (Nat.pow_lt_pow_iff_right (by decide : 1 < 10)).mp h7
        rw [List.length_cons]; omega
  have hpos : 0 < ds.length := List.length_pos_iff.mpr hne
  refine ⟨fun h1 => ?_, fun h1 h2 => ?_, fun h1 h2 => ?_⟩
  · have := hi 1 (by omega) (by omega); omega
  · have a1 := hi 2 (by omega) (by omega); have a2 := lo 1 (by omega); omega
  · have a1 := hi 3 (by omega) (by omega); have a2 := lo 2 (by omega); omega

/-- What `ToString` prints for numbers that are not negative: the thousandths, rounded down, before and after the point. -/
theorem fixed_text {N : Nat} {a : Int} (h0 : 0 ≤ a) (hr : a * 1000 ≤ 2147483647) :
    ∃ i f, Fixed.toText N a = some (i ++ '.' :: f) ∧ i ≠ [] ∧ f ≠ [] ∧ i.all isDigit = true ∧ f.all isDigit = true ∧
      decimal i = a * 1000 / 2 ^ N / 1000 ∧ decimal f = a * 1000 / 2 ^ N % 1000 ∧ (f.head? = some '0' → f = ['0']) := by
  have hp := pow2_pos N
  have hx0 : 0 ≤ a * 1000 / 2 ^ N := Int.ediv_nonneg (by omega) (by omega)
  have hx1 : a * 1000 / 2 ^ N ≤ a * 1000 := Int.ediv_le_self _ (by omega)
  have q1 : (a * 1000 / 2 ^ N).tdiv 1000 = a * 1000 / 2 ^ N / 1000 := Int.tdiv_eq_ediv_of_nonneg hx0
  have q2 : (a * 1000 / 2 ^ N).tmod 1000 = a * 1000 / 2 ^ N % 1000 := Int.tmod_eq_emod_of_nonneg hx0
  obtain ⟨i, i1, i2, i3, i4, -⟩ := toText_spec s32_ok.1 s32_ok.2 (v := a * 1000 / 2 ^ N / 1000) (by show -2147483648 ≤ _; omega) (by show _ ≤ 2147483647; omega)
  obtain ⟨f, f1, f2, f3, f4, f5⟩ := toText_spec s32_ok.1 s32_ok.2 (v := a * 1000 / 2 ^ N % 1000) (by show -2147483648 ≤ _; omega) (by show _ ≤ 2147483647; omega)
  rw [if_neg (by omega)] at i1 f1
  refine ⟨i, f, ?_, i2, f2, i3, f3, by rw [i4]; omega, by rw [f4]; omega, f5⟩
  unfold Fixed.toText Fixed.mulInt
  rw [int32_id (by rw [inS32_iff]; omega)]
  simp only [Option.bind_some]
  unfold Fixed.toInt
  rw [q1, q2, i1, f1]
  rfl

/-- The text denotes the number rounded down to thousandths if there are no zeros after the point. -/
theorem fixed_to_text_partial {N : Nat} {a : Int} (h0 : 0 ≤ a) (hr : a * 1000 ≤ 2147483647) (h : 100 ≤ a * 1000 / 2 ^ N % 1000 ∨ a * 1000 / 2 ^ N % 1000 = 0) :
    ∃ cs d, Fixed.toText N a = some cs ∧ Spec.Reads cs d ∧ Spec.Same d ⟨a * 1000 / 2 ^ N, 3⟩ := by
  obtain ⟨i, f, h1, h2, h3, h4, h5, h6, h7, h8⟩ := fixed_text (N := N) h0 hr
  refine ⟨_, ⟨decimal (i ++ f), f.length⟩, h1, ⟨[], i, f, Or.inl rfl, h4, h5, by simp [h2], Or.inr rfl, rfl, by rw [if_neg (by simp), Int.one_mul]⟩, ?_⟩
  unfold Spec.Same
  simp only []
  generalize a * 1000 / 2 ^ N = x at *
  obtain ⟨l1, l2, l3⟩ := decimal_small (x := x % 1000) (by omega) h5 (by rw [h7]; omega) h8 h3
  rw [decimal_append, h6, h7]
  rcases h with h | h
  · rw [l3 h (by omega)]
    omega
  · rw [l1 (by omega)]
    omega

/-- With zeros after the point, that is, from 0.001 to 0.099 above an integer, the text denotes a greater number: 1.05 prints as 1.50. -/
theorem fixed_zeros_violated {N : Nat} {a : Int} (h0 : 0 ≤ a) (hr : a * 1000 ≤ 2147483647) (h : 0 < a * 1000 / 2 ^ N % 1000 ∧ a * 1000 / 2 ^ N % 1000 < 100) :
    ∃ cs d, Fixed.toText N a = some cs ∧ Spec.Reads cs d ∧ Spec.Less ⟨a * 1000 / 2 ^ N, 3⟩ d := by
  obtain ⟨i, f, h1, h2, h3, h4, h5, h6, h7, h8⟩ := fixed_text (N := N) h0 hr
  refine ⟨_, ⟨decimal (i ++ f), f.length⟩, h1, ⟨[], i, f, Or.inl rfl, h4, h5, by simp [h2], Or.inr rfl, rfl, by rw [if_neg (by simp), Int.one_mul]⟩, ?_⟩
  unfold Spec.Less
  simp only []
  generalize a * 1000 / 2 ^ N = x at *
  obtain ⟨l1, l2, l3⟩ := decimal_small (x := x % 1000) (by omega) h5 (by rw [h7]; omega) h8 h3
  rw [decimal_append, h6, h7]
  by_cases h10 : x % 1000 < 10
  · rw [l1 h10]; omega
  · rw [l2 (by omega) h.2]; omega

theorem split_point {p q : List Char} (hp : '.' ∉ p) (hq : '.' ∉ q) : split ((p ++ '.' :: q).length + 2) (p ++ '.' :: q) ['.'] 2 = some [p, q] := by
  obtain ⟨ps, h1, h2⟩ := split_spec (s := p ++ '.' :: q) (d := ['.']) (by simp) 2 (Nat.le_refl _)
  rw [h1]
  have h3 : IsSplit ['.'] (some 2) (p ++ '.' :: q) [p, q] := by
    refine .cutN (a := p) (b := q) ⟨by simp, ?_⟩ (.last ?_)
    · rintro n ⟨x, y, h4, h5⟩
      apply Nat.le_of_not_lt
      intro hlt
      rw [List.append_assoc] at h4
      rcases List.append_eq_append_iff.mp h4 with ⟨z, h6, h7⟩ | ⟨z, h6, h7⟩
      · have := congrArg List.length h6
        rw [List.length_append] at this
        omega
      · cases z with
        | nil => rw [List.append_nil] at h6; rw [h6] at hlt; omega
        | cons w ws =>
          have : w = '.' := by
            rw [List.cons_append] at h7
            exact (List.cons.inj h7).1.symm
          exact hp (by rw [h6, this]; simp)
    · rintro n ⟨x, y, h4, -⟩
      exact hq (by rw [h4]; simp)
  exact congrArg some (IsSplit.unique (by simp) h2 h3)

theorem split_no_point {p : List Char} (hp : '.' ∉ p) : split (p.length + 2) p ['.'] 2 = some [p] := by
  obtain ⟨ps, h1, h2⟩ := split_spec (s := p) (d := ['.']) (by simp) 2 (Nat.le_refl _)
  rw [h1]
  have h3 : IsSplit ['.'] (some 2) p [p] := by
    refine .last ?_
    rintro n ⟨x, y, h4, -⟩
    exact hp (by rw [h4]; simp)
  exact congrArg some (IsSplit.unique (by simp) h2 h3)

theorem tenths_spec (n : Nat) : ∀ f : Int, 0 ≤ f → Fixed.tenths n f = f / 10 ^ n := by
  induction n with
  | zero => intro f _; simp [Fixed.tenths]
  | succ n ih =>
    intro f hf
    unfold Fixed.tenths
    rw [Int.tdiv_eq_ediv_of_nonneg hf, ih _ (Int.ediv_nonneg hf (by omega)), Int.ediv_ediv_of_nonneg (by omega), Int.pow_succ, Int.mul_comm]

/-- What is read from a text with a point and a sign or none. -/
theorem fixed_read {N : Nat} {sign ds fs : List Char} (hs : sign = [] ∨ sign = ['-'] ∨ sign = ['+']) (hd : ds.all isDigit = true) (hf : fs.all isDigit = true)
    (hdn : ds ≠ []) (hfn : fs ≠ []) (hi : decimal ds * 2 ^ N ≤ 2147483647) (hfr : decimal fs * 2 ^ N ≤ 2147483647)
    (hsum : inS32 ((if sign = ['-'] then -1 else 1) * decimal ds * 2 ^ N + decimal fs * 2 ^ N / 10 ^ fs.length) = true) :
    Fixed.fromText N (sign ++ ds ++ '.' :: fs) = .ok ((if sign = ['-'] then -1 else 1) * decimal ds * 2 ^ N + decimal fs * 2 ^ N / 10 ^ fs.length) := by
  have hp := pow2_pos N
  have hd0 := decimal_nonneg hd
  have hf0 := decimal_nonneg hf
  have b1 : decimal ds * 1 ≤ decimal ds * 2 ^ N := Int.mul_le_mul_of_nonneg_left (by omega) hd0
  have b2 : decimal fs * 1 ≤ decimal fs * 2 ^ N := Int.mul_le_mul_of_nonneg_left (by omega) hf0
  have b3 : 0 ≤ decimal ds * 2 ^ N := Int.mul_nonneg hd0 (by omega)
  have b4 : 0 ≤ decimal fs * 2 ^ N := Int.mul_nonneg hf0 (by omega)
  have hnp := signed_no_point hs hd
  have hnf : '.' ∉ fs := fun hc => absurd (List.all_eq_true.mp hf _ hc) (by decide)
  have p1 : Str.fromText s32 (sign ++ ds) = .ok ((if sign = ['-'] then -1 else 1) * decimal ds) := by
    obtain ⟨f1, f2⟩ := fromText_digits s32_ok.1 hdn hd
    have f3 := fromText_negative s32_ok.1 hdn hd
    rw [if_pos (by show decimal ds ≤ 2147483647; omega)] at f1 f2
    rw [if_pos (⟨rfl, by show -2147483648 ≤ -decimal ds; omega⟩)] at f3
    rcases hs with hs | hs | hs <;> subst hs
    · rw [List.nil_append, f1, if_neg (by simp), Int.one_mul]
    · rw [List.singleton_append, f3, if_pos rfl]
      congr 1; omega
    · rw [List.singleton_append, f2, if_neg (by decide), Int.one_mul]
  have p2 : Str.fromText s32 fs = .ok (decimal fs) := by
    obtain ⟨f1, -⟩ := fromText_digits s32_ok.1 hfn hf
    rw [if_pos (by show decimal fs ≤ 2147483647; omega)] at f1
    exact f1
  unfold Fixed.fromText
  rw [split_point hnp hnf]
  simp only []
  unfold Fixed.combine
  rw [p1]
  simp only []
  unfold Fixed.ofInt
  rw [int32_id (x := (if sign = ['-'] then -1 else 1) * decimal ds * 2 ^ N)]
  · simp only []
    rw [p2]
    simp only []
    rw [int32_id (by rw [inS32_iff]; omega)]
    simp only []
    rw [tenths_spec _ _ b4]
    unfold Fixed.add
    rw [int32_id hsum]
  · rw [inS32_iff]
    rw [Int.mul_assoc]
    split <;> omega

/-- A text without a minus is read as the number, rounded down to a multiple of `2 ^ -N`, as long as the digits before the point, the digits after it taken as an integer, and the sum are in range. -/
theorem fixed_from_text_partial {N : Nat} {ds fs : List Char} (hd : ds.all isDigit = true) (hf : fs.all isDigit = true) (hdn : ds ≠ []) (hfn : fs ≠ [])
    (hi : (decimal ds + 1) * 2 ^ N ≤ 2147483648) (hfr : decimal fs * 2 ^ N ≤ 2147483647) :
    ∃ v, Fixed.fromText N (ds ++ '.' :: fs) = .ok v ∧ v * 10 ^ fs.length ≤ decimal (ds ++ fs) * 2 ^ N ∧ decimal (ds ++ fs) * 2 ^ N < (v + 1) * 10 ^ fs.length := by
  have hp := pow2_pos N
  have hf0 := decimal_nonneg hf
  have hd0 := decimal_nonneg hd
  have hlt := decimal_lt hf
  have hq := pow10_pos fs.length
  have e1 := Int.emod_add_mul_ediv (decimal fs * 2 ^ N) (10 ^ fs.length)
  have e2 := Int.emod_nonneg (decimal fs * 2 ^ N) (by omega : (10 : Int) ^ fs.length ≠ 0)
  have e3 := Int.emod_lt_of_pos (decimal fs * 2 ^ N) hq
  have e4 : 0 ≤ decimal fs * 2 ^ N / 10 ^ fs.length := Int.ediv_nonneg (Int.mul_nonneg hf0 (by omega)) (by omega)
  have e5 : decimal fs * 2 ^ N / 10 ^ fs.length < 2 ^ N := by
    have : decimal fs * 2 ^ N < 10 ^ fs.length * 2 ^ N := Int.mul_lt_mul_of_pos_right hlt hp
    exact Int.ediv_lt_of_lt_mul hq (by rw [Int.mul_comm (2 ^ N)]; exact this)
  have b3 : 0 ≤ decimal ds * 2 ^ N := Int.mul_nonneg hd0 (by omega)
  rw [Int.add_mul, Int.one_mul] at hi
  have h1 := fixed_read (N := N) (sign := []) (Or.inl rfl) hd hf hdn hfn (by omega) hfr (by rw [if_neg (by simp), Int.one_mul, inS32_iff]; omega)
  rw [if_neg (by simp), Int.one_mul, List.nil_append] at h1
  refine ⟨_, h1, ?_, ?_⟩
  · rw [decimal_append]
    generalize decimal fs * 2 ^ N / 10 ^ fs.length = q at *
    rw [Int.add_mul, Int.add_mul]
    have : decimal ds * 2 ^ N * 10 ^ fs.length = decimal ds * 10 ^ fs.length * 2 ^ N := by simp only [Int.mul_assoc, Int.mul_comm, Int.mul_left_comm]
    rw [this, Int.mul_comm q]; omega
  · rw [decimal_append]
    generalize decimal fs * 2 ^ N / 10 ^ fs.length = q at *
    rw [Int.add_mul, Int.add_mul, Int.add_mul]
    have : decimal ds * 2 ^ N * 10 ^ fs.length = decimal ds * 10 ^ fs.length * 2 ^ N := by simp only [Int.mul_assoc, Int.mul_comm, Int.mul_left_comm]
    rw [this, Int.mul_comm q]; omega

/-- With a minus, the digits after the point are added instead of subtracted: what is read is above the integral part, as -0.5 for "-1.5". -/
theorem fixed_negative_violated {N : Nat} {ds fs : List Char} (hd : ds.all isDigit = true) (hf : fs.all isDigit = true) (hdn : ds ≠ []) (hfn : fs ≠ [])
    (hi : decimal ds * 2 ^ N ≤ 2147483647) (hfr : decimal fs * 2 ^ N ≤ 2147483647) (hpos : 10 ^ fs.length ≤ decimal fs * 2 ^ N) :
    ∃ v, Fixed.fromText N ('-' :: ds ++ '.' :: fs) = .ok v ∧ -(decimal ds * 2 ^ N) < v := by
  have hp := pow2_pos N
  have hf0 := decimal_nonneg hf
  have hd0 := decimal_nonneg hd
  have hq := pow10_pos fs.length
  have b3 : 0 ≤ decimal ds * 2 ^ N := Int.mul_nonneg hd0 (by omega)
  have b4 : 0 ≤ decimal fs * 2 ^ N := Int.mul_nonneg hf0 (by omega)
  have e4 : 1 ≤ decimal fs * 2 ^ N / 10 ^ fs.length := Int.le_ediv_of_mul_le hq (by omega)
  have e5 : decimal fs * 2 ^ N / 10 ^ fs.length ≤ decimal fs * 2 ^ N := Int.ediv_le_self _ b4
  have h1 := fixed_read (N := N) (sign := ['-']) (Or.inr (Or.inl rfl)) hd hf hdn hfn hi hfr (by rw [if_pos rfl, inS32_iff, Int.mul_assoc]; omega)
  rw [if_pos rfl, List.singleton_append] at h1
  refine ⟨_, h1, ?_⟩
  rw [Int.mul_assoc]; omega

/-- Printed and read again, numbers change; and more than four digits after the point overflow with 16 binary places. -/
theorem fixed_text_violated :
    Fixed.toText 8 269 = some ['1', '.', '5', '0'] ∧ Fixed.fromText 8 ['1', '.', '5', '0'] = .ok 384 ∧
    Fixed.toText 8 (-384) = some ['-', '1', '.', '-', '5', '0', '0'] ∧ Fixed.fromText 8 ['-', '1', '.', '5'] = .ok (-128) ∧
    Fixed.fromText 16 ['0', '.', '5', '0', '0', '0', '0'] = .undefined ∧ Fixed.sqrt 16 4 = some 65535 := by decide +kernel

-- 1.5 * 2.25 = 3.375, 1.5 / 0.75 = 2, the root of 2 with 8 places is 362 / 256, and 3.625
example : Fixed.mul 8 384 576 = some 864 ∧ Fixed.div 8 384 192 = some 512 ∧ Fixed.sqrt 8 2 = some 362 ∧ Fixed.toText 8 928 = some ['3', '.', '6', '2', '5'] ∧
    Fixed.fromText 8 ['3', '.', '6', '2', '5'] = .ok 928 ∧ Fixed.assign 8 4 24 = some 384 ∧ Fixed.assign 4 8 391 = some 24 ∧ (2 : Nat) * 2 ^ (2 * 8) < 2 ^ 32 := by decide +kernel

end Verif.Num

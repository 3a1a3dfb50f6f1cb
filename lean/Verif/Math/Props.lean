import Verif.Math.Model
/-
Property C35: alignment, gcd, lcm and powers.
-/
namespace Verif.Math

/-- `r` is the smallest multiple of `b` not below `v`. -/
def Spec.LeastMultipleAbove (v b r : Nat) : Prop := b ∣ r ∧ v ≤ r ∧ ∀ m, b ∣ m → v ≤ m → r ≤ m
/-- `r` is the greatest multiple of `b` not above `v`. -/
def Spec.GreatestMultipleBelow (v b r : Nat) : Prop := b ∣ r ∧ r ≤ v ∧ ∀ m, b ∣ m → m ≤ v → m ≤ r
/-- The same over the integers. -/
def Spec.LeastMultipleAboveZ (v b r : Int) : Prop := b ∣ r ∧ v ≤ r ∧ ∀ m, b ∣ m → v ≤ m → r ≤ m
def Spec.GreatestMultipleBelowZ (v b r : Int) : Prop := b ∣ r ∧ r ≤ v ∧ ∀ m, b ∣ m → m ≤ v → m ≤ r

open Spec

theorem above_spec (v b : Nat) (hb : 0 < b) : LeastMultipleAbove v b (b * ((v + b - 1) / b)) := by
  have h1 := Nat.div_add_mod (v + b - 1) b
  have h2 := Nat.mod_lt (v + b - 1) hb
  refine ⟨Nat.dvd_mul_right _ _, by omega, ?_⟩
  rintro m ⟨k, rfl⟩ hm
  refine Nat.mul_le_mul_left b ?_
  have : (v + b - 1) / b < k + 1 := by
    refine Nat.div_lt_of_lt_mul ?_
    rw [Nat.mul_add]
    omega
  omega

/-- C35, alignment of unsigned values of `w` bits: exact unless `value + boundary - 1` overflows the type; a zero boundary is rejected. -/
theorem align_exact {w value boundary : Nat} (hb : 0 < boundary) (hv : value < 2 ^ w) :
    (value + boundary - 1 < 2 ^ w → ∃ r, alignUp w value boundary = .ok r ∧ LeastMultipleAbove value boundary r) ∧
    (∃ r, alignDown value boundary = .ok r ∧ GreatestMultipleBelow value boundary r) ∧
    alignUp w value 0 = .error .argument ∧ alignDown value 0 = .error .argument := by
  refine ⟨fun h => ?_, ?_, rfl, rfl⟩
  · unfold alignUp
    rw [if_neg (by omega), Nat.mod_eq_of_lt h]
    have hlt : boundary * ((value + boundary - 1) / boundary) < 2 ^ w := by
      have := Nat.mul_div_le (value + boundary - 1) boundary
      omega
    rw [Nat.mod_eq_of_lt hlt]
    exact ⟨_, rfl, above_spec value boundary hb⟩
  · unfold alignDown
    rw [if_neg (by omega)]
    refine ⟨_, rfl, Nat.dvd_mul_right _ _, Nat.mul_div_le _ _, ?_⟩
    rintro m ⟨k, rfl⟩ hm
    refine Nat.mul_le_mul_left _ ?_
    exact (Nat.le_div_iff_mul_le hb).mpr (by rw [Nat.mul_comm]; exact hm)

/-- C35, alignment of signed values: exact for non-negative values and a positive boundary. -/
theorem align_signed_partial {value boundary : Nat} (hb : 0 < boundary) :
    (∃ r : Nat, alignUpS value boundary = .ok r ∧ LeastMultipleAbove value boundary r) ∧ (∃ r : Nat, alignDownS value boundary = .ok r ∧ GreatestMultipleBelow value boundary r) := by
  constructor
  · unfold alignUpS
    rw [if_neg (by omega)]
    have e : ((value : Int) + boundary - 1) = ((value + boundary - 1 : Nat) : Int) := by omega
    rw [e, ← Int.ofNat_tdiv, ← Int.natCast_mul]
    exact ⟨_, rfl, above_spec value boundary hb⟩
  · unfold alignDownS
    rw [if_neg (by omega), ← Int.ofNat_tdiv, ← Int.natCast_mul]
    obtain ⟨_, ⟨r, h1, h2⟩, _⟩ := align_exact (w := value + 1) (value := value) hb (Nat.lt_of_lt_of_le (Nat.lt_two_pow_self) (Nat.pow_le_pow_right (by omega) (by omega)))
    unfold alignDown at h1
    rw [if_neg (by omega)] at h1
    injection h1 with h1
    exact ⟨_, rfl, h1 ▸ h2⟩

/-- C35 refuted for negative values (an aligned value is moved, and the result of `AlignDown` lies above the value) and for unsigned values near the end of the type
although the aligned value is representable. -/
theorem align_violated :
    (alignUpS (-4) 4 = .ok 0 ∧ ¬ LeastMultipleAboveZ (-4) 4 0) ∧ (alignDownS (-5) 4 = .ok (-4) ∧ ¬ GreatestMultipleBelowZ (-5) 4 (-4)) ∧
    (alignUp 64 (2 ^ 62 + 5) (3 * 2 ^ 62) = .ok 0 ∧ LeastMultipleAbove (2 ^ 62 + 5) (3 * 2 ^ 62) (3 * 2 ^ 62) ∧ 3 * 2 ^ 62 < 2 ^ 64) := by
  refine ⟨⟨rfl, ?_⟩, ⟨rfl, ?_⟩, rfl, ?_, by omega⟩
  · intro h
    have := h.2.2 (-4) ⟨-1, by omega⟩ (by omega)
    omega
  · intro h
    have := h.2.1
    omega
  · refine ⟨Nat.dvd_refl _, by omega, ?_⟩
    rintro m ⟨k, rfl⟩ hm
    have : k ≠ 0 := by intro e; subst e; omega
    exact Nat.le_mul_of_pos_right _ (by omega)

theorem gcd_spec : ∀ (b a : Nat), gcd a b ∣ a ∧ gcd a b ∣ b ∧ ∀ d, d ∣ a → d ∣ b → d ∣ gcd a b := by
  intro b
  induction b using Nat.strongRecOn with
  | _ b ih =>
    intro a
    rw [gcd.eq_def]
    by_cases h : b = 0
    · rw [dif_pos h, h]
      exact ⟨Nat.dvd_refl _, Nat.dvd_zero _, fun d h1 _ => h1⟩
    · rw [dif_neg h]
      obtain ⟨h1, h2, h3⟩ := ih (a % b) (Nat.mod_lt _ (by omega)) b
      refine ⟨?_, h1, fun d hd1 hd2 => h3 d hd2 ((Nat.dvd_mod_iff hd2).mpr hd1)⟩
      exact (Nat.dvd_mod_iff h1).mp h2

/-- C35, `Gcd`: the greatest common divisor, divisible by every other common divisor. -/
theorem gcd_exact (a b : Nat) : gcd a b ∣ a ∧ gcd a b ∣ b ∧ (∀ d, d ∣ a → d ∣ b → d ∣ gcd a b) ∧ (a ≠ 0 ∨ b ≠ 0 → ∀ d, d ∣ a → d ∣ b → d ≤ gcd a b) := by
  obtain ⟨h1, h2, h3⟩ := gcd_spec b a
  refine ⟨h1, h2, h3, fun h d hd1 hd2 => Nat.le_of_dvd ?_ (h3 d hd1 hd2)⟩
  rcases h with h | h
  · exact Nat.pos_of_dvd_of_pos h1 (by omega)
  · exact Nat.pos_of_dvd_of_pos h2 (by omega)

/-- C35, `Lcm`: the least common multiple if it fits into the type; undefined for two zeroes. -/
theorem lcm_exact {w a b : Nat} :
    (a ≠ 0 ∨ b ≠ 0 → ∃ m, a ∣ m ∧ b ∣ m ∧ (∀ n, a ∣ n → b ∣ n → m ∣ n) ∧ (m < 2 ^ w → lcm w a b = some m)) ∧ (a = 0 ∧ b = 0 → lcm w a b = none) := by
  obtain ⟨h1, h2, h3, _⟩ := gcd_exact a b
  constructor
  · intro h
    have hpos : 0 < gcd a b := by
      rcases h with h | h
      · exact Nat.pos_of_dvd_of_pos h1 (by omega)
      · exact Nat.pos_of_dvd_of_pos h2 (by omega)
    have hl : a / gcd a b * b = Nat.lcm a b := by
      have e : gcd a b = Nat.gcd a b := Nat.dvd_antisymm (Nat.dvd_gcd h1 h2) (h3 _ (Nat.gcd_dvd_left a b) (Nat.gcd_dvd_right a b))
      rw [Nat.lcm, e, Nat.mul_comm a b, Nat.mul_comm, Nat.mul_div_assoc _ (Nat.gcd_dvd_left a b)]
    refine ⟨Nat.lcm a b, Nat.dvd_lcm_left a b, Nat.dvd_lcm_right a b, fun n => Nat.lcm_dvd, ?_⟩
    intro hm
    unfold lcm
    rw [if_neg (by omega), hl, Nat.mod_eq_of_lt hm]
  · rintro ⟨rfl, rfl⟩
    unfold lcm
    rw [if_pos]
    rw [gcd.eq_def]; rfl

theorem mem_powersFrom {w n : Nat} (hn : 2 ≤ n) : ∀ (fuel j : Nat), n ^ j < 2 ^ w → w < fuel + j → ∀ t, t < 2 ^ w → (t ∈ powersFrom w n fuel (n ^ j) ↔ ∃ k, j ≤ k ∧ t = n ^ k)
  | 0, j, hj, hf, t, ht => by
    have : 2 ^ j ≤ n ^ j := Nat.pow_le_pow_left hn j
    have h2 : 2 ^ w ≤ 2 ^ j := Nat.pow_le_pow_right (by omega) (by omega)
    omega
  | fuel + 1, j, hj, hf, t, ht => by
    rw [powersFrom]
    have hstep : n ^ j ≤ (2 ^ w - 1) / n ↔ n ^ (j + 1) < 2 ^ w := by
      rw [Nat.le_div_iff_mul_le (by omega), Nat.pow_succ]
      have : 0 < 2 ^ w := Nat.pow_pos (by omega)
      omega
    by_cases h : n ^ j ≤ (2 ^ w - 1) / n
    · rw [if_pos h, ← Nat.pow_succ, List.mem_cons, mem_powersFrom hn fuel (j + 1) (hstep.mp h) (by omega) t ht]
      constructor
      · rintro (h1 | ⟨k, h1, h2⟩)
        · exact ⟨j, Nat.le_refl _, h1⟩
        · exact ⟨k, by omega, h2⟩
      · rintro ⟨k, h1, h2⟩
        by_cases hk : k = j
        · left; rw [h2, hk]
        · right; exact ⟨k, by omega, h2⟩
    · rw [if_neg h, List.mem_singleton]
      constructor
      · intro h1; exact ⟨j, Nat.le_refl _, h1⟩
      · rintro ⟨k, h1, h2⟩
        by_cases hk : k = j
        · rw [h2, hk]
        · have h3 : n ^ (j + 1) ≤ n ^ k := Nat.pow_le_pow_right (by omega) (by omega)
          have h4 : ¬ n ^ (j + 1) < 2 ^ w := fun h5 => h (hstep.mpr h5)
          omega

theorem sorted_powersFrom {w n : Nat} (hn : 2 ≤ n) : ∀ (fuel cur : Nat), 0 < cur → (powersFrom w n fuel cur).Pairwise (· < ·) ∧ ∀ t ∈ powersFrom w n fuel cur, cur ≤ t
  | 0, _, _ => ⟨List.Pairwise.nil, by simp [powersFrom]⟩
  | fuel + 1, cur, hc => by
    have h1 : cur * 2 ≤ cur * n := Nat.mul_le_mul_left _ hn
    obtain ⟨h2, h3⟩ := sorted_powersFrom (w := w) hn fuel (cur * n) (by omega)
    rw [powersFrom]
    split
    · refine ⟨List.pairwise_cons.mpr ⟨fun t ht => ?_, h2⟩, ?_⟩
      · have := h3 t ht; omega
      · intro t ht
        rcases List.mem_cons.mp ht with h | h
        · omega
        · have := h3 t h; omega
    · exact ⟨by simp, by simp⟩

/-- C35, `IsPowerOfNumber<n>` decides whether a value of `w` bits is a power of `n` (and the array it searches is increasing, as the binary search requires). -/
theorem isPower_exact {w n t : Nat} (hw : 0 < w) (hn : 2 ≤ n) (ht : t < 2 ^ w) :
    (isPower w n t = true ↔ ∃ k, t = n ^ k) ∧ (powersFrom w n (w + 1) 1).Pairwise (· < ·) := by
  refine ⟨?_, (sorted_powersFrom hn _ 1 (by omega)).1⟩
  unfold isPower
  rw [List.contains_iff_mem]
  have h1 : 2 ^ 1 ≤ 2 ^ w := Nat.pow_le_pow_right (by omega) hw
  have := mem_powersFrom hn (w + 1) 0 (by simpa using by omega) (by omega) t ht
  rw [Nat.pow_zero] at this
  rw [this]
  constructor
  · rintro ⟨k, _, h⟩; exact ⟨k, h⟩
  · rintro ⟨k, h⟩; exact ⟨k, by omega, h⟩

/-! Non-vacuity. -/
example : alignUp 64 13 8 = .ok 16 ∧ alignUp 64 16 8 = .ok 16 ∧ alignDown 13 8 = .ok 8 ∧ lcm 64 4 6 = some 12 ∧ isPower 64 3 81 = true ∧ isPower 64 3 80 = false := by
  refine ⟨rfl, rfl, rfl, by simp [lcm, gcd], by decide +kernel, by decide +kernel⟩

end Verif.Math

import Verif.Num.Random
/-
What a user of Random relies on: results in range, all of them equally often, and no cycle shorter than all the numbers.
-/
namespace Verif.Num.Random

section

attribute [local irreducible] next

/-- The seed after `n` calls. -/
def after (seed : Nat) : Nat → Nat
  | 0 => seed
  | n + 1 => next (after seed n)

theorem after_succ (s : Nat) : ∀ n, after s (n + 1) = after (next s) n
  | 0 => by simp only [after]
  | n + 1 => by rw [after, after_succ s n, ← after]

theorem after_add (s m : Nat) : ∀ n, after s (m + n) = after (after s m) n
  | 0 => by simp only [after, Nat.add_zero]
  | n + 1 => by rw [← Nat.add_assoc, after, after_add s m n, ← after]

theorem nexts_eq (n : Nat) : ∀ (s : Nat), nexts s n = (List.range n).map (fun i => after s (i + 1)) := by
  induction n with
  | zero => intro s; rfl
  | succ n ih =>
    intro s
    rw [nexts, ih (next s), List.range_succ_eq_map, List.map_cons, List.map_map]
    have h0 : after s (0 + 1) = next s := by rw [after_succ, after]
    rw [h0]
    congr 1
    apply List.map_congr_left
    intro i _
    rw [Function.comp, Nat.succ_eq_add_one, after_succ s (i + 1)]

/-- Two numbers are the same in their last `k` binary digits. -/
def Same (k x y : Nat) : Prop := x % 2 ^ k = y % 2 ^ k

/-- The multiplier and the increment of `2 ^ k` calls together. -/
def mult : Nat → Nat
  | 0 => 1664525
  | k + 1 => mult k * mult k

def incr : Nat → Nat
  | 0 => 1013904223
  | k + 1 => incr k * mult k + incr k

theorem mult_mod : ∀ k, ∃ q, mult k = q * 2 ^ (k + 2) + 1
  | 0 => ⟨416131, by decide⟩
  | k + 1 => by
    obtain ⟨q, hq⟩ := mult_mod k
    refine ⟨q * q * 2 ^ (k + 1) + q, ?_⟩
    rw [mult, hq]
    have : 2 ^ (k + 2) = 2 ^ (k + 1) * 2 := by rw [Nat.pow_succ]
    have h3 : 2 ^ (k + 1 + 2) = 2 ^ (k + 1) * 4 := by rw [Nat.pow_add]
    rw [this, h3]
    generalize 2 ^ (k + 1) = p
    grind

theorem incr_odd : ∀ k, ∃ q, incr k = 2 ^ k * (2 * q + 1)
  | 0 => ⟨506952111, by decide⟩
  | k + 1 => by
    obtain ⟨q, hq⟩ := incr_odd k
    obtain ⟨r, hr⟩ := mult_mod k
    refine ⟨(2 * q + 1) * r * 2 ^ k + q, ?_⟩
    rw [incr, hq, hr]
    have h2 : 2 ^ (k + 2) = 2 ^ k * 4 := by rw [Nat.pow_add]
    have h1 : 2 ^ (k + 1) = 2 ^ k * 2 := by rw [Nat.pow_succ]
    rw [h2, h1]
    generalize 2 ^ k = p
    grind

theorem next_mod (s : Nat) : next s % size = (s * 1664525 + 1013904223) % size := by
  simp only [next, Nat.mod_mod, Nat.mod_add_mod]

/-- In the last 32 digits, `2 ^ k` calls are a multiplication and an addition. -/
theorem after_pow : ∀ (k s : Nat), after s (2 ^ k) % size = (s * mult k + incr k) % size
  | 0, s => by
    show next s % size = _
    rw [next_mod]
    rfl
  | k + 1, s => by
    have h : 2 ^ (k + 1) = 2 ^ k + 2 ^ k := by rw [Nat.pow_succ]; omega
    rw [h, after_add, after_pow k, Nat.add_mod, Nat.mul_mod, after_pow k s, ← Nat.mul_mod, ← Nat.add_mod, mult, incr]
    congr 1
    generalize mult k = a
    generalize incr k = b
    grind

theorem same_of_size {k x y : Nat} (hk : k ≤ 32) (h : x % size = y % size) : Same k x y := by
  have hd : 2 ^ k ∣ size := ⟨2 ^ (32 - k), by rw [← Nat.pow_add, show k + (32 - k) = 32 by omega]; rfl⟩
  unfold Same
  rw [← Nat.mod_mod_of_dvd x hd, h, Nat.mod_mod_of_dvd y hd]

/-- `2 ^ k` calls change digit `k`, and none before it. -/
theorem after_step {k : Nat} (hk : k < 32) (s : Nat) : Same (k + 1) (after s (2 ^ k)) (s + 2 ^ k) := by
  have h := same_of_size (k := k + 1) hk (after_pow k s)
  obtain ⟨q, hq⟩ := mult_mod k
  obtain ⟨r, hr⟩ := incr_odd k
  unfold Same at h ⊢
  rw [h, hq, hr]
  have h2 : 2 ^ (k + 2) = 2 ^ k * 4 := by rw [Nat.pow_add]
  have h1 : 2 ^ (k + 1) = 2 ^ k * 2 := by rw [Nat.pow_succ]
  rw [h2, h1]
  generalize 2 ^ k = p
  have : s * (q * (p * 4) + 1) + p * (2 * r + 1) = s + p + p * 2 * (s * q * 2 + r) := by grind
  rw [this, Nat.add_mul_mod_self_left]

theorem Same.le {k j x y : Nat} (h : Same k x y) (hj : j ≤ k) : Same j x y := by
  have hd : 2 ^ j ∣ 2 ^ k := Nat.pow_dvd_pow 2 hj
  unfold Same at h ⊢
  rw [← Nat.mod_mod_of_dvd x hd, h, Nat.mod_mod_of_dvd y hd]

/-- `m` times `2 ^ k` calls. -/
theorem after_steps {k : Nat} (hk : k < 32) (s : Nat) : ∀ m, Same (k + 1) (after s (2 ^ k * m)) (s + 2 ^ k * m)
  | 0 => rfl
  | m + 1 => by
    have h1 := after_step hk (after s (2 ^ k * m))
    have h2 := after_steps hk s m
    unfold Same at h1 h2 ⊢
    rw [Nat.mul_succ, after_add, h1, Nat.add_mod, h2, ← Nat.add_mod, Nat.add_assoc]

/-- C190.  The last `k` binary digits of the seed are back exactly after a multiple of `2 ^ k` calls, for every seed and every k up to 32. -/
theorem digits_period : ∀ (k : Nat), k ≤ 32 → ∀ (s n : Nat), after s n % 2 ^ k = s % 2 ^ k ↔ 2 ^ k ∣ n
  | 0, _, s, n => by simp [Nat.mod_one]
  | k + 1, hk, s, n => by
    have ih := digits_period k (by omega) s n
    have hp : 2 ^ (k + 1) = 2 ^ k * 2 := by rw [Nat.pow_succ]
    have h0 : 0 < 2 ^ k := Nat.pow_pos (by omega)
    constructor
    · intro h
      obtain ⟨m, rfl⟩ := ih.mp (Same.le (j := k) h (by omega))
      have h2 := after_steps (k := k) (by omega) s m
      unfold Same at h2
      rw [h2] at h
      have h3 : (2 ^ k * m) % 2 ^ (k + 1) = 0 := by
        have := Nat.sub_mod_eq_zero_of_mod_eq h
        rwa [Nat.add_sub_cancel_left] at this
      exact Nat.dvd_of_mod_eq_zero h3
    · rintro ⟨m, rfl⟩
      rw [show 2 ^ (k + 1) * m = 2 ^ k * (2 * m) by rw [hp, Nat.mul_assoc]]
      have h2 := after_steps (k := k) (by omega) s (2 * m)
      unfold Same at h2
      rw [h2, show 2 ^ k * (2 * m) = 2 ^ (k + 1) * m by rw [hp, Nat.mul_assoc], Nat.add_mul_mod_self_left]

theorem next_lt (s : Nat) : next s < 2 ^ 32 := by
  rw [next]
  exact Nat.mod_lt _ (by decide)

theorem after_lt {s : Nat} (hs : s < 2 ^ 32) (n : Nat) : after s n < 2 ^ 32 := by
  cases n with
  | zero => exact hs
  | succ n => rw [after]; exact next_lt _

/-- C190.  The seed is back exactly after a multiple of 2^32 calls. -/
theorem period {s : Nat} (hs : s < 2 ^ 32) (n : Nat) : after s n = s ↔ 2 ^ 32 ∣ n := by
  rw [← digits_period 32 (by omega) s n]
  have h1 : after s n < 2 ^ 32 := after_lt hs n
  rw [Nat.mod_eq_of_lt h1, Nat.mod_eq_of_lt hs]

/-- Every number is reached. -/
theorem reached : ∀ (k : Nat), k ≤ 32 → ∀ (s y : Nat), ∃ n, n < 2 ^ k ∧ Same k (after s n) y
  | 0, _, s, y => ⟨0, by simp, by simp [Same, Nat.mod_one]⟩
  | k + 1, hk, s, y => by
    obtain ⟨n, hn, h⟩ := reached k (by omega) s y
    have hp : 2 ^ (k + 1) = 2 ^ k * 2 := by rw [Nat.pow_succ]
    have hst := after_step (k := k) (by omega) (after s n)
    rw [← after_add] at hst
    unfold Same at h hst
    have h0 : 0 < 2 ^ k := Nat.pow_pos (by omega)
    by_cases he : Same (k + 1) (after s n) y
    · exact ⟨n, by omega, he⟩
    · refine ⟨n + 2 ^ k, by omega, ?_⟩
      unfold Same at he ⊢
      rw [hst]
      generalize after s n = x at h he ⊢
      rw [hp] at he ⊢
      generalize 2 ^ k = p at h he h0 ⊢
      have hr : y % p < p := Nat.mod_lt _ h0
      obtain ⟨a, ha⟩ : ∃ a, x = p * a + y % p := ⟨x / p, by rw [← h]; exact (Nat.div_add_mod x p).symm⟩
      obtain ⟨b, hb⟩ : ∃ b, y = p * b + y % p := ⟨y / p, (Nat.div_add_mod y p).symm⟩
      generalize y % p = r at *
      subst ha hb
      have key : ∀ (d : Nat), (p * d + r) % (p * 2) = p * (d % 2) + r := by
        intro d
        rw [Nat.mod_mul, Nat.mul_add_mod, Nat.mod_eq_of_lt hr, Nat.mul_add_div h0, Nat.div_eq_of_lt hr, Nat.add_zero, Nat.add_comm]
      rw [show p * a + r + p = p * (a + 1) + r by rw [Nat.mul_add, Nat.mul_one]; omega]
      rw [key, key] at he
      rw [key, key]
      have : (a + 1) % 2 = b % 2 := by
        apply Decidable.byContradiction
        intro hc
        exact he (by rw [show a % 2 = b % 2 by omega])
      rw [this]

theorem after_below {s N : Nat} (hs : s < N) (hl : ∀ x, next x < N) (n : Nat) : after s n < N := by
  cases n with
  | zero => exact hs
  | succ n => rw [after]; exact hl _

theorem full_aux {N : Nat} (hp : ∀ x, x < N → ∀ n, after x n = x ↔ N ∣ n) (hl : ∀ x, next x < N) (hr : ∀ x y, x < N → y < N → ∃ n, n < N ∧ after x n = y) {s : Nat} (hs : s < N) :
    (nexts s N).Nodup ∧ ∀ v, v ∈ nexts s N ↔ v < N := by
  have inj : ∀ i j, i < j → j < N → after s (i + 1) ≠ after s (j + 1) := by
    intro i j hij hj he
    have : j + 1 = (i + 1) + (j - i) := by omega
    rw [this, after_add s (i + 1) (j - i)] at he
    have hlt := after_below hs hl (i + 1)
    generalize after s (i + 1) = x at he hlt
    have hd := (hp x hlt (j - i)).mp he.symm
    have := Nat.le_of_dvd (by omega) hd
    omega
  constructor
  · rw [nexts_eq, List.Nodup, List.pairwise_map]
    refine List.Pairwise.imp_of_mem ?_ (List.pairwise_lt_range (n := N))
    intro i j _ hj hij
    exact inj i j hij (List.mem_range.mp hj)
  · intro v
    rw [nexts_eq, List.mem_map]
    constructor
    · rintro ⟨i, _, rfl⟩
      exact after_below hs hl _
    · intro hv
      obtain ⟨n, hn, h⟩ := hr (next s) v (hl s) hv
      exact ⟨n, List.mem_range.mpr hn, by rw [after_succ, h]⟩

/-- C190.  2^32 calls of Next, from any seed, give every 32-bit number, and none twice. -/
theorem full_period {s : Nat} (hs : s < 2 ^ 32) : (nexts s (2 ^ 32)).Nodup ∧ ∀ v, v ∈ nexts s (2 ^ 32) ↔ v < 2 ^ 32 := by
  refine full_aux (fun x hx n => period hx n) next_lt (fun x y hx hy => ?_) hs
  obtain ⟨n, hn, h⟩ := reached 32 (Nat.le_refl _) x y
  refine ⟨n, hn, ?_⟩
  unfold Same at h
  have h1 := after_lt hx n
  rwa [Nat.mod_eq_of_lt h1, Nat.mod_eq_of_lt hy] at h

/-- The high half of a product of two u32. -/
theorem nextMax_eq {s m : Nat} (hm : m < 2 ^ 32) : nextMax s m = (next s, next s * m / 2 ^ 32) := by
  have h1 := next_lt s
  have h2 : next s * m < 2 ^ 32 * 2 ^ 32 := Nat.mul_lt_mul'' h1 hm
  have h3 : next s * m / 2 ^ 32 < 2 ^ 32 := Nat.div_lt_of_lt_mul h2
  have hs : size = 2 ^ 32 := rfl
  unfold nextMax
  rw [hs, Nat.mod_eq_of_lt (a := next s * m) h2, Nat.shiftRight_eq_div_pow, Nat.mod_eq_of_lt h3]

/-- C190.  Next(maxValue) is below maxValue, which must not be 0. -/
theorem below_max {s m : Nat} (hm : m < 2 ^ 32) (h0 : 0 < m) : (nextMax s m).2 < m := by
  rw [nextMax_eq hm]
  refine Nat.div_lt_of_lt_mul ?_
  exact (Nat.mul_lt_mul_right h0).mpr (next_lt s)

/-- C190.  Next(minValue, maxValue) is at least minValue and below maxValue; it is minValue if they are equal. -/
theorem in_range_partial {s lo hi : Nat} (hh : hi < 2 ^ 32) (h : lo ≤ hi) :
    lo ≤ (nextRange s lo hi).2 ∧ (lo < hi → (nextRange s lo hi).2 < hi) ∧ (lo = hi → (nextRange s lo hi).2 = lo) := by
  have he : (hi + size - lo) % size = hi - lo := by
    unfold size
    omega
  unfold nextRange
  rw [he]
  simp only
  have h1 : (nextMax s (hi - lo)).2 ≤ hi - lo ∧ (lo < hi → (nextMax s (hi - lo)).2 < hi - lo) := by
    by_cases hl : lo < hi
    · have := below_max (s := s) (m := hi - lo) (by omega) (by omega)
      exact ⟨by omega, fun _ => this⟩
    · rw [nextMax_eq (by omega), show hi - lo = 0 by omega]
      simp [hl]
  generalize (nextMax s (hi - lo)).2 = r at h1
  have h2 : (lo + r) % size = lo + r := by
    unfold size
    omega
  rw [h2]
  refine ⟨by omega, fun k => ?_, fun k => by omega⟩
  have := h1.2 k
  omega

theorem nextMaxes_eq {m : Nat} (hm : m < 2 ^ 32) (n : Nat) : ∀ s, nextMaxes s m n = (nexts s n).map (fun x => x * m / 2 ^ 32) := by
  induction n with
  | zero => intro s; rfl
  | succ n ih =>
    intro s
    rw [nextMaxes, nexts, List.map_cons, nextMax_eq hm, ih]

theorem countP_lt_range (k : Nat) : ∀ n, (List.range n).countP (fun x => decide (x < k)) = min k n
  | 0 => by simp
  | n + 1 => by
    rw [List.range_succ, List.countP_append, countP_lt_range k n, List.countP_singleton]
    split
    · next h => simp at h; omega
    · next h => simp at h; omega

theorem lt_ceil {x m c : Nat} (hm : 0 < m) : x * m < c ↔ x < (c + m - 1) / m := by
  rw [Nat.lt_div_iff_mul_lt hm]
  generalize x * m = a
  omega

/-- Of the numbers below `N`, as many are taken to `v` as `N / m` says, rounded down or up. -/
theorem count_scaled {N m v : Nat} (hm : 0 < m) (hmN : m ≤ N) (hv : v < m) : N / m ≤ (List.range N).countP (fun x => decide (x * m / N = v)) ∧ (List.range N).countP (fun x => decide (x * m / N = v)) ≤ N / m + 1 := by
  have hN : 0 < N := by omega
  have hsplit : ∀ (l : List Nat), l.countP (fun x => decide (x * m / N = v)) + l.countP (fun x => decide (x * m < v * N)) = l.countP (fun x => decide (x * m < (v + 1) * N)) := by
    intro l
    induction l with
    | nil => rfl
    | cons x l ih =>
      simp only [List.countP_cons]
      have e : x * m / N = v ↔ v * N ≤ x * m ∧ x * m < (v + 1) * N := by
        rw [Nat.div_eq_iff hN, Nat.add_mul, Nat.one_mul]
        omega
      have e2 : v * N ≤ (v + 1) * N := Nat.mul_le_mul_right N (by omega)
      by_cases h1 : x * m < v * N
      · have h3 : ¬ (x * m / N = v) := fun k => by have := e.mp k; omega
        have h4 : x * m < (v + 1) * N := by omega
        simp [h1, h3, h4]
        omega
      · by_cases h2 : x * m < (v + 1) * N
        · have h3 : x * m / N = v := e.mpr ⟨by omega, h2⟩
          simp [h1, h2, h3]
          omega
        · have h3 : ¬ (x * m / N = v) := fun k => by have := e.mp k; omega
          simp [h1, h2, h3]
          omega
  have hc : ∀ c, c ≤ m * N → (List.range N).countP (fun x => decide (x * m < c)) = (c + m - 1) / m := by
    intro c hcc
    have : (fun x => decide (x * m < c)) = (fun x => decide (x < (c + m - 1) / m)) := by
      funext x
      simp only [lt_ceil hm]
    rw [this, countP_lt_range]
    have : (c + m - 1) / m < N + 1 := by
      apply Nat.div_lt_of_lt_mul
      rw [Nat.mul_add]
      omega
    omega
  have hs := hsplit (List.range N)
  have hle : (v + 1) * N ≤ m * N := Nat.mul_le_mul_right N (by omega)
  rw [hc _ hle, hc _ (by rw [Nat.add_mul] at hle; omega)] at hs
  rw [Nat.add_mul, Nat.one_mul] at hs
  generalize v * N = a at hs
  have h1 := Nat.div_add_mod (a + m - 1) m
  have h2 := Nat.div_add_mod (a + N + m - 1) m
  have h3 := Nat.div_add_mod N m
  have h4 := Nat.mod_lt (a + m - 1) hm
  have h5 := Nat.mod_lt (a + N + m - 1) hm
  have h6 := Nat.mod_lt N hm
  generalize (a + m - 1) / m = p at *
  generalize (a + N + m - 1) / m = q at *
  generalize N / m = r at *
  generalize (List.range N).countP (fun x => decide (x * m / N = v)) = c at *
  have hq : q = c + p := by omega
  subst hq
  have e1 : m * (c + p) = m * c + m * p := Nat.mul_add ..
  constructor
  · apply Nat.le_of_lt_succ
    apply Nat.lt_of_mul_lt_mul_left (a := m)
    rw [Nat.succ_eq_add_one, Nat.mul_add]
    omega
  · apply Nat.le_of_lt_succ
    apply Nat.lt_of_mul_lt_mul_left (a := m)
    rw [show (r + 1).succ = r + 2 from rfl, Nat.mul_add]
    omega

theorem uniform_aux {N m v : Nat} (hm : 0 < m) (hmN : m ≤ N) (hv : v < m) {l : List Nat} (hd : l.Nodup) (hl : ∀ x, x ∈ l ↔ x < N) :
    N / m ≤ (l.map (fun x => x * m / N)).count v ∧ (l.map (fun x => x * m / N)).count v ≤ N / m + 1 := by
  have hp : l.Perm (List.range N) := (List.perm_ext_iff_of_nodup hd List.nodup_range).mpr (fun x => by rw [hl, List.mem_range])
  have : (l.map (fun x => x * m / N)).count v = (List.range N).countP (fun x => decide (x * m / N = v)) := by
    rw [(hp.map _).count_eq, List.count, List.countP_map]
    congr 1
  rw [this]
  exact count_scaled hm hmN hv

/-- C190.  Next(maxValue) is fair: among the results of 2^32 calls every number below maxValue comes equally often, up to one. -/
theorem uniform {s m v : Nat} (hs : s < 2 ^ 32) (hm : m < 2 ^ 32) (hv : v < m) :
    2 ^ 32 / m ≤ (nextMaxes s m (2 ^ 32)).count v ∧ (nextMaxes s m (2 ^ 32)).count v ≤ 2 ^ 32 / m + 1 := by
  rw [nextMaxes_eq hm]
  obtain ⟨h1, h2⟩ := full_period hs
  exact uniform_aux (by omega) (by omega) hv h1 h2

end

/-- C190 does not hold for a range the wrong way round: the result is neither between the bounds nor near them. -/
theorem reversed_violated : (nextRange 0 10 5).2 = 1013904231 := by decide +kernel

/-- C190 does not hold of the last digits: results of Next are even and odd in turn, and the last k digits repeat after 2^k calls (`digits_period`). -/
theorem parity_violated (s : Nat) : next s % 2 ≠ s % 2 := by
  have := digits_period 1 (by omega) s 1
  intro h
  have h1 : after s 1 % 2 ^ 1 = s % 2 ^ 1 := by rw [after, after]; exact h
  have := this.mp h1
  omega

example : nexts 1 3 = [1015568748, 1586005467, 2165703038] ∧ nextMaxes 1 6 3 = [1, 2, 3] ∧ (nextRange 1 10 20).2 = 12 := by decide +kernel

/-- C190.  Next(minValue, maxValue) takes one number of the sequence, as every call does. -/
theorem range_advances (s lo hi : Nat) : (nextRange s lo hi).1 = (s * 1664525 + 1013904223) % 4294967296 := by
  show (s * 1664525 % 4294967296 + 1013904223) % 4294967296 = _
  omega

/-- C190.  Next(minValue, maxValue) is the lower bound plus the high half of the next number times the size of the range. -/
theorem range_value {s lo hi : Nat} (hh : hi < 2 ^ 32) (h : lo ≤ hi) : (nextRange s lo hi).2 = lo + (s * 1664525 + 1013904223) % 4294967296 * (hi - lo) / 4294967296 := by
  have he : (hi + size - lo) % size = hi - lo := by
    unfold size
    omega
  have h0 := in_range_partial (s := s) hh h
  have hn : next s = (s * 1664525 + 1013904223) % 4294967296 := by
    show (s * 1664525 % 4294967296 + 1013904223) % 4294967296 = _
    omega
  unfold nextRange at h0 ⊢
  rw [he, nextMax_eq (by omega), hn] at *
  simp only at h0 ⊢
  have hd : (s * 1664525 + 1013904223) % 4294967296 * (hi - lo) / 4294967296 ≤ hi - lo := by
    refine Nat.div_le_of_le_mul (Nat.mul_le_mul_right _ ?_)
    omega
  show (lo + (s * 1664525 + 1013904223) % 4294967296 * (hi - lo) / 2 ^ 32) % 4294967296 = _
  omega

example : (nextRange 0 10 20).2 = 12 := by decide +kernel

end Verif.Num.Random

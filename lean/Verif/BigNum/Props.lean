import Verif.BigNum.Lemmas
/-
Property C33: arithmetic of `BigUnsignedInteger`. `w` is the width of a block (at least one bit; the theorems hold for every
width). `Blocks w l`: all blocks fit; `Norm l`: no leading zero block (every number the library computes; `BigUnsignedInteger(0)` is the one exception, see the
`_violated` theorems).
-/
namespace Verif.BigNum
open Spec

theorem add_value {w : Nat} {a b : List Nat} (ha : Blocks w a) (hb : Blocks w b) :
    ∃ r, add w a b = some r ∧ Blocks w r ∧ value w r = value w a + value w b ∧ (Norm a → Norm b ∨ (a ≠ [] ∧ b.length ≤ a.length) → Norm r) := by
  unfold add
  by_cases h1 : a = []
  · subst h1; rw [if_pos rfl]; exact ⟨b, rfl, hb, by simp [value], fun _ h => h.elim id (fun h => absurd rfl h.1)⟩
  rw [if_neg h1]
  by_cases h2 : b = []
  · subst h2; rw [if_pos rfl]; exact ⟨a, rfl, ha, by simp [value], fun h _ => h⟩
  rw [if_neg h2]
  have key : ∀ (x y : List Nat), Blocks w x → Blocks w y → x ≠ [] → y.length ≤ x.length →
      ∃ r, (addBlocks w x y false).map (fun r => if r.2 then r.1 ++ [1] else r.1) = some r ∧ Blocks w r ∧ value w r = value w x + value w y ∧ (Norm x → Norm r) := by
    intro x y hx hy hx0 hl
    obtain ⟨r, co, g1, g2, g3, g4⟩ := addBlocks_spec x y false hx hy hl
    rw [g1]
    cases co
    · simp only [Bool.toNat_false, Nat.mul_zero, Nat.add_zero] at g4
      refine ⟨r, rfl, g2, by omega, fun hn => norm_of_ge g2 (Or.inr ?_)⟩
      have := norm_ge (w := w) hn hx0
      rw [g3]; omega
    · simp only [Bool.toNat_true, Nat.mul_one, Bool.toNat_false, Nat.add_zero] at g4
      refine ⟨r ++ [1], rfl, ?_, ?_, ?_⟩
      · refine blocks_append g2 (blocks_cons ?_ (blocks_nil w))
        by_cases hw : w = 0
        · subst hw
          have := value_lt hx; have := value_lt hy
          have := value_lt g2
          simp at *; omega
        · have : 2 ^ 1 ≤ 2 ^ w := Nat.pow_le_pow_right (by omega) (by omega)
          omega
      · rw [value_append, g3]; simp only [value]; omega
      · intro _; simp [Norm]
  by_cases h3 : a.length < b.length
  · simp only [if_pos h3]
    obtain ⟨r, g1, g2, g3, g4⟩ := key b a hb ha h2 (by omega)
    exact ⟨r, g1, g2, by omega, fun _ h => g4 (h.elim id (fun h => absurd h.2 (by omega)))⟩
  · simp only [if_neg h3]
    obtain ⟨r, g1, g2, g3, g4⟩ := key a b ha hb h1 (by omega)
    exact ⟨r, g1, g2, by omega, fun h _ => g4 h⟩

/-- C33, addition: exact for operands of any length. -/
theorem add_exact {w : Nat} {a b : List Nat} (ha : Blocks w a) (hb : Blocks w b) (na : Norm a) (nb : Norm b) :
    ∃ r, add w a b = some r ∧ Blocks w r ∧ Norm r ∧ value w r = value w a + value w b := by
  obtain ⟨r, h1, h2, h3, h4⟩ := add_value ha hb
  exact ⟨r, h1, h2, h4 na (Or.inl nb), h3⟩

/-- C33, subtraction: exact if the result is not negative, otherwise an exception. -/
theorem sub_exact {w : Nat} {a b : List Nat} (ha : Blocks w a) (hb : Blocks w b) (na : Norm a) (nb : Norm b) :
    (value w b ≤ value w a ∧ ∃ r, sub w a b = some (.ok r) ∧ Blocks w r ∧ Norm r ∧ value w r = value w a - value w b) ∨
    (value w a < value w b ∧ ∃ e, sub w a b = some (.error e)) := by
  unfold sub
  by_cases h1 : b = []
  · subst h1; rw [if_pos rfl]; left; exact ⟨by simp [value], a, rfl, ha, na, by simp [value]⟩
  rw [if_neg h1]
  by_cases h2 : b.length ≤ a.length
  · rw [if_neg (by omega)]
    obtain ⟨r, bo, g1, g2, g3, g4, g5⟩ := subBlocks_spec a b false a.length ha hb h2 (Nat.le_refl _) (value_lt ha)
    rw [g1]
    cases bo
    · left
      have := g4 rfl
      simp only [Bool.toNat_false, Nat.add_zero] at this
      exact ⟨by omega, zap r, rfl, zap_blocks g2, zap_norm r, by rw [zap_value]; omega⟩
    · right
      have := g5 rfl
      simp only [Bool.toNat_false, Nat.add_zero] at this
      exact ⟨this, .negative, rfl⟩
  · rw [if_pos h2]
    right
    refine ⟨?_, .tooLarge, rfl⟩
    have g1 := value_lt ha
    have g2 := norm_ge (w := w) nb h1
    have g3 : 2 ^ (w * a.length) ≤ 2 ^ (w * (b.length - 1)) := Nat.pow_le_pow_right (by omega) (Nat.mul_le_mul_left _ (by omega))
    omega

/-! ### Multiplication -/

theorem bit_zero_iff {w x i : Nat} (hi : i < w) : (x &&& ((1 <<< i) % 2 ^ w) = 0) ↔ x / 2 ^ i % 2 = 0 := by
  have h1 : (1 <<< i) % 2 ^ w = 2 ^ i := by
    rw [Nat.shiftLeft_eq, Nat.one_mul]
    exact Nat.mod_eq_of_lt (Nat.pow_lt_pow_right (by omega) hi)
  rw [h1]
  have hb : x.testBit i = decide (x / 2 ^ i % 2 = 1) := Nat.testBit_eq_decide_div_mod_eq
  constructor
  · intro h
    have h3 : (x &&& 2 ^ i).testBit i = false := by rw [h]; simp
    rw [Nat.testBit_and, Nat.testBit_two_pow_self, Bool.and_true, hb, decide_eq_false_iff_not] at h3
    omega
  · intro h
    apply Nat.eq_of_testBit_eq
    intro j
    rw [Nat.testBit_and, Nat.zero_testBit]
    by_cases hj : j = i
    · subst hj
      rw [hb, decide_eq_false (by omega), Bool.false_and]
    · rw [Nat.testBit_two_pow_of_ne (fun e => hj e.symm), Bool.and_false]

theorem mulBit_spec {w : Nat} {a b us : List Nat} {index i2 : Nat} (hb : Blocks w b) (hu : Blocks w us) (hi : i2 < w) (hidx : index < a.length)
    (hlen : us.length = a.length + b.length)
    (hbound : value w us + a.getD index 0 / 2 ^ i2 % 2 * 2 ^ i2 * 2 ^ (w * index) * value w b < 2 ^ (w * us.length)) :
    ∃ r, mulBit w a b index i2 us = some r ∧ Blocks w r ∧ r.length = us.length ∧
      value w r = value w us + a.getD index 0 / 2 ^ i2 % 2 * 2 ^ i2 * 2 ^ (w * index) * value w b := by
  unfold mulBit
  by_cases h0 : a.getD index 0 / 2 ^ i2 % 2 = 0
  · rw [if_pos ((bit_zero_iff hi).mpr h0), h0]
    exact ⟨us, rfl, hu, rfl, by simp⟩
  · rw [if_neg (fun h => h0 ((bit_zero_iff hi).mp h))]
    have h1 : a.getD index 0 / 2 ^ i2 % 2 = 1 := by omega
    rw [h1, Nat.one_mul] at hbound ⊢
    obtain ⟨s1, s2, s3⟩ := shiftedFrom_spec hi hb
    obtain ⟨r, co, g1, g2, g3, g4⟩ := addBlocks_spec (us.drop index) (shiftedFrom w b 0 i2) false (blocks_drop hu index) s1 (by rw [s2, List.length_drop]; omega)
    rw [g1]
    have hsplit := value_take_drop w (k := index) (l := us) (by omega)
    have hpow : 2 ^ (w * us.length) = 2 ^ (w * index) * 2 ^ (w * (us.drop index).length) := by
      rw [← Nat.pow_add, ← Nat.mul_add, List.length_drop]
      congr 2; omega
    have hnc : co = false := by
      cases co
      · rfl
      · exfalso
        simp only [Bool.toNat_true, Nat.mul_one, Bool.toNat_false, Nat.add_zero] at g4
        have h5 : 2 ^ (w * index) * 2 ^ (w * (us.drop index).length) ≤ 2 ^ (w * index) * (value w (us.drop index) + value w (shiftedFrom w b 0 i2)) :=
          Nat.mul_le_mul_left _ (by omega)
        rw [Nat.mul_add, s3, ← hpow] at h5
        have h6 : 2 ^ (w * index) * (value w b * 2 ^ i2) = 2 ^ i2 * 2 ^ (w * index) * value w b := by
          rw [Nat.mul_comm (value w b), ← Nat.mul_assoc, Nat.mul_comm (2 ^ (w * index))]
        omega
    subst hnc
    refine ⟨us.take index ++ r, rfl, blocks_append (blocks_take hu index) g2, by rw [List.length_append, g3, List.length_take, List.length_drop]; omega, ?_⟩
    simp only [Bool.toNat_false, Nat.mul_zero, Nat.add_zero] at g4
    rw [value_append, List.length_take, Nat.min_eq_left (by omega), g4, Nat.mul_add, s3, hsplit]
    have h6 : 2 ^ (w * index) * (value w b * 2 ^ i2) = 2 ^ i2 * 2 ^ (w * index) * value w b := by
      rw [Nat.mul_comm (value w b), ← Nat.mul_assoc, Nat.mul_comm (2 ^ (w * index))]
    omega

theorem mulBits_spec {w : Nat} {a b us : List Nat} {index : Nat} (hb : Blocks w b) (hu : Blocks w us) (hidx : index < a.length)
    (hlen : us.length = a.length + b.length) : ∀ n, n ≤ w →
    value w us + a.getD index 0 % 2 ^ n * 2 ^ (w * index) * value w b < 2 ^ (w * us.length) →
    ∃ r, mulBits w a b index n us = some r ∧ Blocks w r ∧ r.length = us.length ∧ value w r = value w us + a.getD index 0 % 2 ^ n * 2 ^ (w * index) * value w b := by
  intro n
  induction n with
  | zero => intro _ _; exact ⟨us, rfl, hu, rfl, by simp [Nat.mod_one]⟩
  | succ n ih =>
    intro hn hbd
    have hm : a.getD index 0 % 2 ^ (n + 1) = a.getD index 0 % 2 ^ n + a.getD index 0 / 2 ^ n % 2 * 2 ^ n := by rw [Nat.mod_pow_succ, Nat.mul_comm]
    have e : a.getD index 0 % 2 ^ (n + 1) * 2 ^ (w * index) * value w b =
        a.getD index 0 % 2 ^ n * 2 ^ (w * index) * value w b + a.getD index 0 / 2 ^ n % 2 * 2 ^ n * 2 ^ (w * index) * value w b := by
      rw [hm, Nat.add_mul, Nat.add_mul]
    rw [e] at hbd ⊢
    obtain ⟨r, h1, h2, h3, h4⟩ := ih (by omega) (by omega)
    obtain ⟨r', g1, g2, g3, g4⟩ := mulBit_spec (a := a) (us := r) (index := index) (i2 := n) hb h2 (by omega) hidx (by omega) (by rw [h4, h3]; omega)
    refine ⟨r', by rw [mulBits, h1]; exact g1, g2, by omega, by omega⟩

theorem mulLoop_spec {w : Nat} {a b us : List Nat} (ha : Blocks w a) (hb : Blocks w b) (hu : Blocks w us) (h0 : value w us = 0)
    (hlen : us.length = a.length + b.length) : ∀ n, n ≤ a.length →
    ∃ r, mulLoop w a b n us = some r ∧ Blocks w r ∧ r.length = us.length ∧ value w r = value w (a.take n) * value w b := by
  have hbound : ∀ n, value w (a.take n) * value w b < 2 ^ (w * us.length) := by
    intro n
    have h1 : value w (a.take n) ≤ value w a := by
      by_cases hn : n ≤ a.length
      · rw [value_take_drop w hn]; omega
      · rw [List.take_of_length_le (by omega)]; exact Nat.le_refl _
    have h2 := value_lt ha
    have h3 := value_lt hb
    rw [hlen, Nat.mul_add, Nat.pow_add]
    calc value w (a.take n) * value w b ≤ value w a * value w b := Nat.mul_le_mul_right _ h1
      _ < 2 ^ (w * a.length) * 2 ^ (w * b.length) := Nat.mul_lt_mul'' h2 h3
  intro n
  induction n with
  | zero => intro _; exact ⟨us, rfl, hu, rfl, by simp [value, h0]⟩
  | succ n ih =>
    intro hn
    obtain ⟨r, h1, h2, h3, h4⟩ := ih (by omega)
    have hlt : n < a.length := by omega
    have g : a.getD n 0 = a[n] := by rw [List.getD_eq_getElem?_getD, List.getElem?_eq_getElem hlt]; rfl
    have hx : a[n] < 2 ^ w := ha _ (List.getElem_mem hlt)
    have hv : value w (a.take (n + 1)) = value w (a.take n) + 2 ^ (w * n) * a[n] := by
      rw [List.take_succ_eq_append_getElem hlt, value_append, List.length_take, Nat.min_eq_left (by omega)]; simp [value]
    have e : value w (a.take (n + 1)) * value w b = value w (a.take n) * value w b + a.getD n 0 % 2 ^ w * 2 ^ (w * n) * value w b := by
      rw [hv, Nat.add_mul, g, Nat.mod_eq_of_lt hx, Nat.mul_comm (2 ^ (w * n))]
    have hbd := hbound (n + 1)
    rw [e] at hbd
    obtain ⟨r', g1, g2, g3, g4⟩ := mulBits_spec (a := a) (us := r) (index := n) hb h2 hlt (by omega) w (Nat.le_refl _) (by rw [h4, h3]; exact hbd)
    exact ⟨r', by rw [mulLoop, h1]; exact g1, g2, by omega, by rw [g4, h4, e]⟩

/-- C33, multiplication: exact for operands of any length; no carry is ever lost and no block outside the result is touched. -/
theorem mul_exact {w : Nat} {a b : List Nat} (ha : Blocks w a) (hb : Blocks w b) :
    ∃ r, mul w a b = some r ∧ Blocks w r ∧ Norm r ∧ value w r = value w a * value w b := by
  unfold mul
  by_cases h : a = [] ∨ b = []
  · rw [if_pos h]
    refine ⟨[], rfl, blocks_nil w, by simp [Norm], ?_⟩
    rcases h with rfl | rfl <;> simp [value]
  · rw [if_neg h]
    obtain ⟨r, h1, h2, h3, h4⟩ := mulLoop_spec ha hb (blocks_replicate w (a.length + b.length)) (value_replicate w _) (by simp) a.length (Nat.le_refl _)
    rw [h1]
    exact ⟨zap r, rfl, zap_blocks h2, zap_norm r, by rw [zap_value, h4, List.take_length]⟩

/-! ### Division -/

theorem value_set {w : Nat} : ∀ (l : List Nat) (k y : Nat), k < l.length → value w (l.set k y) + 2 ^ (w * k) * l.getD k 0 = value w l + 2 ^ (w * k) * y := by
  intro l
  induction l with
  | nil => intro k y h; simp at h
  | cons x l ih =>
    intro k y h
    cases k with
    | zero => simp [value]; omega
    | succ k =>
      have := ih k y (by simpa using h)
      have e : 2 ^ w * (value w (l.set k y) + 2 ^ (w * k) * l.getD k 0) = 2 ^ w * (value w l + 2 ^ (w * k) * y) := by rw [this]
      rw [Nat.mul_add, Nat.mul_add, ← Nat.mul_assoc, ← Nat.mul_assoc, ← Nat.pow_add] at e
      simp only [List.set_cons_succ, value, List.getD_cons_succ]
      rw [show w * (k + 1) = w + w * k by rw [Nat.mul_add, Nat.mul_one, Nat.add_comm]]
      omega

/-- The invariant of the division: quotient so far times divisor plus the remainder is the dividend; the remainder is below the divisor shifted to the current
position; lower bits of the quotient are not yet set. -/
structure DivInv (w : Nat) (a d : List Nat) (orig qlen index n : Nat) (s : List Nat × List Nat) : Prop where
  blocks : Blocks w s.1
  length : s.1.length = orig + 1
  small : value w s.1 < 2 ^ (w * orig)
  qblocks : Blocks w s.2
  qlength : s.2.length = qlen
  inv : value w a = value w s.2 * value w d + value w s.1
  bound : value w s.1 < value w d * 2 ^ (w * index + n)
  qlow : s.2.getD index 0 % 2 ^ n = 0
  qzero : ∀ k, k < index → s.2.getD k 0 = 0

theorem divBit_spec {w : Nat} {a d : List Nat} {orig qlen index n : Nat} {s : List Nat × List Nat} (hd : Blocks w d) (hn : n < w) (hidx : index < qlen)
    (hq : qlen + d.length = orig + 1) (h : DivInv w a d orig qlen index (n + 1) s) : ∃ s', divBit w d orig index n s = some s' ∧ DivInv w a d orig qlen index n s' := by
  unfold divBit
  obtain ⟨s1, s2, s3⟩ := shiftedFrom_spec hn hd
  have hl := h.length
  have hsplit := value_take_drop w (k := index) (l := s.1) (by omega)
  have hsm : value w (s.1.drop index) < 2 ^ (w * (orig - index)) := by
    have h1 := h.small
    have h2 : 2 ^ (w * orig) = 2 ^ (w * index) * 2 ^ (w * (orig - index)) := by
      rw [← Nat.pow_add, ← Nat.mul_add]; congr 2; omega
    rw [h2] at h1
    exact Nat.lt_of_mul_lt_mul_left (a := 2 ^ (w * index)) (by omega)
  obtain ⟨r, bo, g1, g2, g3, g4, g5⟩ := subBlocks_spec (s.1.drop index) (shiftedFrom w d 0 n) false (orig - index) (blocks_drop h.blocks index) s1
    (by rw [s2, List.length_drop]; omega) (by rw [List.length_drop]; omega) hsm
  rw [g1]
  have hmul : 2 ^ (w * index) * (value w d * 2 ^ n) = value w d * 2 ^ (w * index + n) := by
    rw [Nat.pow_add, Nat.mul_left_comm]
  have htake := value_lt (blocks_take h.blocks index)
  rw [List.length_take, Nat.min_eq_left (by omega)] at htake
  have hqlow : s.2.getD index 0 % 2 ^ n = 0 ∧ s.2.getD index 0 / 2 ^ n % 2 = 0 := by
    have := h.qlow
    rw [Nat.mod_pow_succ] at this
    have hp : 0 < 2 ^ n := Nat.pow_pos (by omega)
    have h2 : 2 ^ n * (s.2.getD index 0 / 2 ^ n % 2) = 0 := by omega
    refine ⟨by omega, ?_⟩
    rcases Nat.mul_eq_zero.mp h2 with h3 | h3
    · omega
    · exact h3
  cases bo
  · -- the subtraction succeeded
    have hval := g4 rfl
    simp only [Bool.toNat_false, Nat.add_zero] at hval
    have hge : 2 ^ (w * index) * value w r + value w d * 2 ^ (w * index + n) = 2 ^ (w * index) * value w (s.1.drop index) := by
      rw [← hval, Nat.mul_add, s3, hmul]
    have hnew : value w (s.1.take index ++ r) + value w d * 2 ^ (w * index + n) = value w s.1 := by
      rw [value_append, List.length_take, Nat.min_eq_left (by omega), hsplit]; omega
    have hb1 : (1 <<< n) % 2 ^ w = 2 ^ n := by
      rw [Nat.shiftLeft_eq, Nat.one_mul]; exact Nat.mod_eq_of_lt (Nat.pow_lt_pow_right (by omega) hn)
    have hqi : s.2.getD index 0 < 2 ^ w := by
      rw [List.getD_eq_getElem?_getD, List.getElem?_eq_getElem (by rw [h.qlength]; exact hidx)]
      exact h.qblocks _ (List.getElem_mem _)
    have hor : s.2.getD index 0 ||| 2 ^ n = s.2.getD index 0 + 2 ^ n := by
      have e1 : s.2.getD index 0 = (s.2.getD index 0 / 2 ^ (n + 1)) <<< (n + 1) := by
        rw [Nat.shiftLeft_eq]
        have := h.qlow
        have h3 := Nat.div_add_mod (s.2.getD index 0) (2 ^ (n + 1))
        rw [this, Nat.add_zero, Nat.mul_comm] at h3
        exact h3.symm
      rw [e1, ← Nat.shiftLeft_add_eq_or_of_lt (Nat.pow_lt_pow_right (by omega) (by omega))]
    refine ⟨_, rfl, ?_⟩
    constructor
    · exact blocks_append (blocks_take h.blocks index) g2
    · simp only [List.length_append, g3, List.length_take, List.length_drop]; omega
    · simp only; have := h.small; omega
    · simp only [hb1]
      intro y hy
      rcases List.mem_or_eq_of_mem_set hy with hy | rfl
      · exact h.qblocks y hy
      · exact Nat.or_lt_two_pow hqi (Nat.pow_lt_pow_right (by omega) hn)
    · simp [h.qlength]
    · simp only [hb1, hor]
      have h1 := value_set (w := w) s.2 index (s.2.getD index 0 + 2 ^ n) (by rw [h.qlength]; exact hidx)
      rw [Nat.mul_add] at h1
      have h2 : value w (s.2.set index (s.2.getD index 0 + 2 ^ n)) = value w s.2 + 2 ^ (w * index) * 2 ^ n := by omega
      rw [h2, Nat.add_mul, h.inv, ← Nat.pow_add, Nat.mul_comm (2 ^ (w * index + n))]
      omega
    · simp only
      have h1 := h.bound
      have h2 : value w d * 2 ^ (w * index + (n + 1)) = value w d * 2 ^ (w * index + n) + value w d * 2 ^ (w * index + n) := by
        rw [show w * index + (n + 1) = (w * index + n) + 1 by omega, Nat.pow_succ, ← Nat.mul_assoc]; omega
      omega
    · simp only [hb1, hor]
      rw [List.getD_eq_getElem?_getD, List.getElem?_set_self (by rw [h.qlength]; exact hidx), Option.getD_some, Nat.add_mod_right]
      exact hqlow.1
    · intro k hk
      simp only
      rw [List.getD_eq_getElem?_getD, List.getElem?_set_ne (by omega), ← List.getD_eq_getElem?_getD]
      exact h.qzero k hk
  · -- it failed
    have hlt := g5 rfl
    simp only [Bool.toNat_false, Nat.add_zero] at hlt
    refine ⟨s, rfl, ?_⟩
    refine ⟨h.blocks, h.length, h.small, h.qblocks, h.qlength, h.inv, ?_, hqlow.1, h.qzero⟩
    rw [s3] at hlt
    have h1 : 2 ^ (w * index) * (value w (s.1.drop index) + 1) ≤ 2 ^ (w * index) * (value w d * 2 ^ n) := Nat.mul_le_mul_left _ hlt
    rw [hmul, Nat.mul_add] at h1
    omega

theorem divBits_spec {w : Nat} {a d : List Nat} {orig qlen index : Nat} (hd : Blocks w d) (hidx : index < qlen) (hq : qlen + d.length = orig + 1) :
    ∀ (n : Nat) (s : List Nat × List Nat), n ≤ w → DivInv w a d orig qlen index n s → ∃ s', divBits w d orig index n s = some s' ∧ DivInv w a d orig qlen index 0 s' := by
  intro n
  induction n with
  | zero => intro s _ h; exact ⟨s, rfl, h⟩
  | succ n ih =>
    intro s hn h
    obtain ⟨s', h1, h2⟩ := divBit_spec hd (by omega) hidx hq h
    obtain ⟨s'', g1, g2⟩ := ih s' (by omega) h2
    exact ⟨s'', by rw [divBits, h1]; exact g1, g2⟩

theorem divLoop_spec {w : Nat} {a d : List Nat} {orig qlen : Nat} (hd : Blocks w d) (hq : qlen + d.length = orig + 1) :
    ∀ (n : Nat) (s : List Nat × List Nat), n ≤ qlen → DivInv w a d orig qlen n 0 s → ∃ s', divLoop w d orig n s = some s' ∧ DivInv w a d orig qlen 0 0 s' := by
  intro n
  induction n with
  | zero => intro s _ h; exact ⟨s, rfl, h⟩
  | succ n ih =>
    intro s hn h
    have hz := h.qzero n (by omega)
    have hset : s.2.set n 0 = s.2 := by
      have hlt : n < s.2.length := by rw [h.qlength]; omega
      rw [List.getD_eq_getElem?_getD, List.getElem?_eq_getElem hlt, Option.getD_some] at hz
      rw [← hz]; exact List.set_getElem_self hlt
    have h' : DivInv w a d orig qlen n w (s.1, s.2.set n 0) := by
      rw [hset]
      refine ⟨h.blocks, h.length, h.small, h.qblocks, h.qlength, h.inv, ?_, ?_, fun k hk => h.qzero k (by omega)⟩
      · have := h.bound
        rw [Nat.add_zero, show w * (n + 1) = w * n + w by rw [Nat.mul_add, Nat.mul_one]] at this
        exact this
      · rw [hz, Nat.zero_mod]
    obtain ⟨s', h1, h2⟩ := divBits_spec hd (by omega) hq w _ (Nat.le_refl _) h'
    obtain ⟨s'', g1, g2⟩ := ih s' (by omega) h2
    exact ⟨s'', by rw [divLoop, h1]; exact g1, g2⟩

theorem divMod_value {w : Nat} {a d : List Nat} (ha : Blocks w a) (hd : Blocks w d) (nd : Norm d) (hd0 : d ≠ []) :
    ∃ r q, divMod w a d = some (r, q) ∧ Blocks w r ∧ Blocks w q ∧ (Norm a → Norm r) ∧ Norm q ∧ value w q = value w a / value w d ∧ value w r = value w a % value w d ∧
      (d.length ≤ a.length → Norm r) := by
  unfold divMod
  rw [if_neg hd0]
  have hge := norm_ge (w := w) nd hd0
  have hdpos : 0 < value w d := Nat.lt_of_lt_of_le (Nat.pow_pos (by omega)) hge
  by_cases hlt : a.length < d.length
  · rw [if_pos hlt]
    have h1 := value_lt ha
    have h2 : 2 ^ (w * a.length) ≤ 2 ^ (w * (d.length - 1)) := Nat.pow_le_pow_right (by omega) (Nat.mul_le_mul_left _ (by omega))
    have h3 : value w a < value w d := by omega
    exact ⟨a, [], rfl, ha, blocks_nil w, id, by simp [Norm], by rw [Nat.div_eq_of_lt h3]; rfl, by rw [Nat.mod_eq_of_lt h3], fun h => by omega⟩
  · rw [if_neg hlt]
    have hdl : 1 ≤ d.length := List.length_pos_iff.mpr hd0
    have hva : value w (a ++ [0]) = value w a := by rw [value_append]; simp [value]
    have h0 : DivInv w a d a.length (a.length - d.length + 1) (a.length - d.length + 1) 0 (a ++ [0], List.replicate (a.length - d.length + 1) 0) := by
      constructor
      · exact blocks_append ha (blocks_replicate w 1)
      · simp
      · simp only [hva]; exact value_lt ha
      · exact blocks_replicate w _
      · simp
      · simp only [value_replicate, hva]; omega
      · simp only [hva, Nat.add_zero]
        have h1 := value_lt ha
        have h2 : 2 ^ (w * a.length) = 2 ^ (w * (d.length - 1)) * 2 ^ (w * (a.length - d.length + 1)) := by
          rw [← Nat.pow_add, ← Nat.mul_add]; congr 2; omega
        have h3 := Nat.mul_le_mul_right (2 ^ (w * (a.length - d.length + 1))) hge
        omega
      · exact Nat.mod_one _
      · intro k hk
        simp [List.getD_eq_getElem?_getD, List.getElem?_replicate, hk]
    obtain ⟨s', h1, h2⟩ := divLoop_spec hd (by omega) _ _ (Nat.le_refl _) h0
    rw [h1]
    have hb := h2.bound
    simp only [Nat.mul_zero, Nat.add_zero, Nat.pow_zero, Nat.mul_one] at hb
    have hinv := h2.inv
    have hdm : value w a / value w d = value w s'.2 ∧ value w a % value w d = value w s'.1 := by
      rw [hinv, Nat.mul_comm (value w s'.2)]
      constructor
      · rw [Nat.mul_add_div hdpos, Nat.div_eq_of_lt hb, Nat.add_zero]
      · rw [Nat.mul_add_mod_self_left, Nat.mod_eq_of_lt hb]
    exact ⟨zap s'.1, zap s'.2, rfl, zap_blocks h2.blocks, zap_blocks h2.qblocks, fun _ => zap_norm _, zap_norm _, by rw [zap_value, hdm.1], by rw [zap_value, hdm.2], fun _ => zap_norm _⟩

/-- C33, division with remainder: exact for operands of any length; division by (the empty) zero throws. -/
theorem div_mod_exact {w : Nat} {a d : List Nat} (ha : Blocks w a) (hd : Blocks w d) (na : Norm a) (nd : Norm d) :
    (value w d = 0 ∧ div w a d = some (.error .divisionByZero) ∧ mod w a d = some (.error .divisionByZero)) ∨
    (0 < value w d ∧ ∃ q r, div w a d = some (.ok q) ∧ mod w a d = some (.ok r) ∧ Blocks w q ∧ Norm q ∧ Blocks w r ∧ Norm r ∧
      value w q = value w a / value w d ∧ value w r = value w a % value w d) := by
  unfold div mod
  by_cases hd0 : d = []
  · left; subst hd0; exact ⟨rfl, rfl, rfl⟩
  · right
    have hge := norm_ge (w := w) nd hd0
    have hdpos : 0 < value w d := Nat.lt_of_lt_of_le (Nat.pow_pos (by omega)) hge
    obtain ⟨r, q, h1, h2, h3, h4, h5, h6, h7, -⟩ := divMod_value ha hd nd hd0
    rw [if_neg hd0, if_neg hd0, h1]
    exact ⟨hdpos, q, r, rfl, rfl, h3, h5, h2, h4 na, h6, h7⟩

/-! ### Bitwise operations -/

theorem value_testBit {w x : Nat} {l : List Nat} (hx : x < 2 ^ w) (i : Nat) :
    (value w (x :: l)).testBit i = if i < w then x.testBit i else (value w l).testBit (i - w) := by
  rw [value, Nat.add_comm]
  exact Nat.testBit_two_pow_mul_add _ hx i

theorem longerTail_nil_left (b : List Nat) : longerTail [] b = b := by
  unfold longerTail
  rcases b with _ | ⟨y, b⟩ <;> simp

theorem longerTail_nil_right (a : List Nat) : longerTail a [] = a := by
  unfold longerTail
  rcases a with _ | ⟨y, a⟩ <;> simp

theorem longerTail_cons (x y : Nat) (a b : List Nat) : longerTail (x :: a) (y :: b) = longerTail a b := by
  unfold longerTail
  simp only [List.length_cons, Nat.add_min_add_right, List.drop_succ_cons, gt_iff_lt, Nat.add_lt_add_iff_right]

theorem and_value {w : Nat} : ∀ {a b : List Nat}, Blocks w a → Blocks w b → Blocks w (List.zipWith (fun x y => x &&& y) a b) ∧
    value w (List.zipWith (fun x y => x &&& y) a b) = value w a &&& value w b
  | [], b, _, _ => by simp [value, blocks_nil]
  | x :: a, [], _, _ => by simp [value, blocks_nil]
  | x :: a, y :: b, ha, hb => by
    obtain ⟨hx, ha'⟩ := ha.cons
    obtain ⟨hy, hb'⟩ := hb.cons
    obtain ⟨h1, h2⟩ := and_value ha' hb'
    have hxy : x &&& y < 2 ^ w := Nat.and_lt_two_pow x hy
    refine ⟨blocks_cons hxy h1, ?_⟩
    refine Nat.eq_of_testBit_eq fun i => ?_
    rw [Nat.testBit_and, List.zipWith_cons_cons, value_testBit hxy, value_testBit hx, value_testBit hy, h2]
    by_cases hi : i < w
    · simp [hi]
    · simp [hi]

theorem or_value {w : Nat} : ∀ {a b : List Nat}, Blocks w a → Blocks w b → Blocks w (bitOr a b) ∧ value w (bitOr a b) = value w a ||| value w b
  | [], b, _, hb => by simp [bitOr, longerTail_nil_left, value, hb]
  | x :: a, [], ha, _ => by simp [bitOr, longerTail_nil_right, value, ha]
  | x :: a, y :: b, ha, hb => by
    obtain ⟨hx, ha'⟩ := ha.cons
    obtain ⟨hy, hb'⟩ := hb.cons
    obtain ⟨h1, h2⟩ := or_value ha' hb'
    have hxy : x ||| y < 2 ^ w := Nat.or_lt_two_pow hx hy
    have e : bitOr (x :: a) (y :: b) = (x ||| y) :: bitOr a b := by unfold bitOr; rw [longerTail_cons]; rfl
    rw [e]
    refine ⟨blocks_cons hxy h1, ?_⟩
    refine Nat.eq_of_testBit_eq fun i => ?_
    rw [Nat.testBit_or, value_testBit hxy, value_testBit hx, value_testBit hy, h2]
    by_cases hi : i < w
    · simp [hi]
    · simp [hi]

theorem xor_value {w : Nat} : ∀ {a b : List Nat}, Blocks w a → Blocks w b → Blocks w (List.zipWith (fun x y => x ^^^ y) a b ++ longerTail a b) ∧
    value w (List.zipWith (fun x y => x ^^^ y) a b ++ longerTail a b) = value w a ^^^ value w b
  | [], b, _, hb => by simp [longerTail_nil_left, value, hb]
  | x :: a, [], ha, _ => by simp [longerTail_nil_right, value, ha]
  | x :: a, y :: b, ha, hb => by
    obtain ⟨hx, ha'⟩ := ha.cons
    obtain ⟨hy, hb'⟩ := hb.cons
    obtain ⟨h1, h2⟩ := xor_value ha' hb'
    have hxy : x ^^^ y < 2 ^ w := Nat.xor_lt_two_pow hx hy
    rw [longerTail_cons, List.zipWith_cons_cons, List.cons_append]
    refine ⟨blocks_cons hxy h1, ?_⟩
    refine Nat.eq_of_testBit_eq fun i => ?_
    rw [Nat.testBit_xor, value_testBit hxy, value_testBit hx, value_testBit hy, h2]
    by_cases hi : i < w
    · simp [hi]
    · simp [hi]

theorem or_norm : ∀ (a b : List Nat), Norm a → Norm b → Norm (bitOr a b)
  | [], b, _, hb => by simpa [bitOr, longerTail_nil_left] using hb
  | x :: a, [], ha, _ => by simpa [bitOr, longerTail_nil_right] using ha
  | x :: a, y :: b, ha, hb => by
    have e : bitOr (x :: a) (y :: b) = (x ||| y) :: bitOr a b := by unfold bitOr; rw [longerTail_cons]; rfl
    rw [e]
    have na : a ≠ [] → Norm a := by
      intro h
      rcases a with _ | ⟨z, a⟩
      · exact absurd rfl h
      · simpa [Norm, List.getLast?_cons_cons] using ha
    have nb : b ≠ [] → Norm b := by
      intro h
      rcases b with _ | ⟨z, b⟩
      · exact absurd rfl h
      · simpa [Norm, List.getLast?_cons_cons] using hb
    have nn : Norm [] := by simp [Norm]
    have na' : Norm a := by
      by_cases h : a = []
      · rw [h]; exact nn
      · exact na h
    have nb' : Norm b := by
      by_cases h : b = []
      · rw [h]; exact nn
      · exact nb h
    have ih := or_norm a b na' nb'
    rcases hab : bitOr a b with _ | ⟨z, l⟩
    · have hlen := congrArg List.length hab
      have ha0 : a = [] := by
        rcases a with _ | ⟨p, a⟩
        · rfl
        · rcases b with _ | ⟨q, b⟩ <;> simp [bitOr, longerTail] at hab
      have hb0 : b = [] := by
        rcases b with _ | ⟨p, b⟩
        · rfl
        · subst ha0; simp [bitOr, longerTail] at hab
      subst ha0 hb0
      simp only [Norm, List.getLast?_singleton, ne_eq, Option.some.injEq] at ha hb ⊢
      intro h0
      have := Nat.left_le_or (m := y) (n := x)
      omega
    · rw [hab] at ih
      simpa [Norm, List.getLast?_cons_cons] using ih

/-- C33, bitwise operations: those of the natural numbers, for operands of any length. -/
theorem bitwise_exact {w : Nat} {a b : List Nat} (ha : Blocks w a) (hb : Blocks w b) (na : Norm a) (nb : Norm b) :
    (Blocks w (bitAnd a b) ∧ Norm (bitAnd a b) ∧ value w (bitAnd a b) = value w a &&& value w b) ∧
    (Blocks w (bitOr a b) ∧ Norm (bitOr a b) ∧ value w (bitOr a b) = value w a ||| value w b) ∧
    (Blocks w (bitXor a b) ∧ Norm (bitXor a b) ∧ value w (bitXor a b) = value w a ^^^ value w b) := by
  refine ⟨⟨zap_blocks (and_value ha hb).1, zap_norm _, ?_⟩, ⟨(or_value ha hb).1, or_norm a b na nb, (or_value ha hb).2⟩, ⟨zap_blocks (xor_value ha hb).1, zap_norm _, ?_⟩⟩
  · unfold bitAnd; rw [zap_value]; exact (and_value ha hb).2
  · unfold bitXor; rw [zap_value]; exact (xor_value ha hb).2

/-! ### Shifts -/

theorem shl_value {w : Nat} (hw : 0 < w) {a : List Nat} (ha : Blocks w a) (bits : Nat) : Blocks w (shl w a bits) ∧ Norm (shl w a bits) ∧ value w (shl w a bits) = value w a * 2 ^ bits := by
  obtain ⟨s1, s2, s3⟩ := shiftedFrom_spec (w := w) (bits := bits % w) (Nat.mod_lt _ hw) ha
  unfold shl
  refine ⟨zap_blocks (blocks_append (blocks_replicate w _) s1), zap_norm _, ?_⟩
  rw [zap_value, value_append, value_replicate, List.length_replicate, s3, Nat.zero_add, Nat.mul_left_comm, ← Nat.pow_add, Nat.div_add_mod]

theorem shr_value {w : Nat} (hw : 0 < w) {a : List Nat} (ha : Blocks w a) (bits : Nat) : Blocks w (shr w a bits) ∧ Norm (shr w a bits) ∧ value w (shr w a bits) = value w a / 2 ^ bits := by
  have hc1 : bits ≤ w * ceilingDiv bits w := by
    unfold ceilingDiv
    have h1 := Nat.div_add_mod (bits + w - 1) w
    have h2 := Nat.mod_lt (bits + w - 1) hw
    omega
  have hc2 : w * ceilingDiv bits w < bits + w := by
    unfold ceilingDiv
    have h1 := Nat.div_add_mod (bits + w - 1) w
    omega
  unfold shr
  generalize ceilingDiv bits w = k at *
  by_cases hk : k ≥ a.length + 1
  · rw [if_pos hk]
    refine ⟨blocks_nil w, by simp [Norm], ?_⟩
    have h1 := value_lt ha
    have h2 : 2 ^ (w * a.length) ≤ 2 ^ bits := by
      refine Nat.pow_le_pow_right (by omega) ?_
      have h3 : w * (a.length + 1) ≤ w * k := Nat.mul_le_mul_left _ hk
      rw [Nat.mul_add, Nat.mul_one] at h3
      omega
    rw [Nat.div_eq_of_lt (by omega)]; rfl
  · rw [if_neg hk]
    generalize hlb : w * k - bits = lb at *
    have hlbw : lb < w := by omega
    rw [shiftedFrom_cons w lb a k (by omega)]
    have hprev : (if k = 0 then 0 else a.getD (k - 1) 0) < 2 ^ w := by
      by_cases h0 : k = 0
      · rw [if_pos h0]; exact Nat.pow_pos (by omega)
      · rw [if_neg h0, List.getD_eq_getElem?_getD, List.getElem?_eq_getElem (by omega)]
        exact ha _ (List.getElem_mem _)
    obtain ⟨h1, h2, h3⟩ := shiftRec_spec hlbw (a.drop k) _ hprev (blocks_drop ha k)
    refine ⟨zap_blocks h1, zap_norm _, ?_⟩
    rw [zap_value, h3, value_take_drop w (k := k) (l := a) (by omega)]
    have hpow : 2 ^ (w * k) = 2 ^ bits * 2 ^ lb := by rw [← Nat.pow_add]; congr 1; omega
    rw [hpow, Nat.mul_assoc, Nat.add_mul_div_left _ _ (Nat.pow_pos (by omega))]
    congr 1
    by_cases h0 : lb = 0
    · rw [if_pos h0]
      have h4 := value_lt (blocks_take ha k)
      rw [List.length_take, Nat.min_eq_left (by omega), hpow, h0, Nat.pow_zero, Nat.mul_one] at h4
      rw [Nat.div_eq_of_lt h4]
    · rw [if_neg h0]
      have hk0 : k ≠ 0 := by
        intro h; subst h; omega
      rw [if_neg hk0, Nat.shiftRight_eq_div_pow]
      have hlt : k - 1 < a.length := by omega
      have hg : a.getD (k - 1) 0 = a[k - 1] := by rw [List.getD_eq_getElem?_getD, List.getElem?_eq_getElem hlt]; rfl
      have ht : value w (a.take k) = value w (a.take (k - 1)) + 2 ^ (w * (k - 1)) * a[k - 1] := by
        have e : a.take k = a.take (k - 1) ++ [a[k - 1]] := by
          rw [← List.take_succ_eq_append_getElem hlt]; congr 1; omega
        rw [e, value_append, List.length_take, Nat.min_eq_left (by omega)]; simp [value]
      have hsm := value_lt (blocks_take ha (k - 1))
      rw [List.length_take, Nat.min_eq_left (by omega)] at hsm
      have hbits : bits = w * (k - 1) + (w - lb) := by
        have : w * k = w * (k - 1) + w := by
          obtain ⟨j, rfl⟩ : ∃ j, k = j + 1 := ⟨k - 1, by omega⟩
          rw [Nat.add_sub_cancel, Nat.mul_add, Nat.mul_one]
        omega
      rw [ht, hbits, Nat.pow_add, ← Nat.div_div_eq_div_mul, Nat.add_mul_div_left _ _ (Nat.pow_pos (by omega)), Nat.div_eq_of_lt hsm, Nat.zero_add, hg]

/-- C33, shifts: multiplication and division by powers of two, a negative count shifting the other way. -/
theorem shift_exact {w : Nat} (hw : 0 < w) {a : List Nat} (ha : Blocks w a) (bits : Nat) :
    value w (shiftLeft w a bits) = value w a * 2 ^ bits ∧ value w (shiftRight w a bits) = value w a / 2 ^ bits ∧
    value w (shiftLeft w a (-bits)) = value w a / 2 ^ bits ∧ value w (shiftRight w a (-bits)) = value w a * 2 ^ bits ∧
    Norm (shiftLeft w a bits) ∧ Norm (shiftRight w a bits) ∧ Blocks w (shiftLeft w a bits) ∧ Blocks w (shiftRight w a bits) := by
  have e1 : ∀ a : List Nat, shiftLeft w a bits = shl w a bits := fun a => by unfold shiftLeft; rw [if_neg (by omega)]; rfl
  have e2 : ∀ a : List Nat, shiftRight w a bits = shr w a bits := fun a => by unfold shiftRight; rw [if_neg (by omega)]; rfl
  obtain ⟨l1, l2, l3⟩ := shl_value hw ha bits
  obtain ⟨r1, r2, r3⟩ := shr_value hw ha bits
  rw [e1, e2]
  refine ⟨l3, r3, ?_, ?_, l2, r2, l1, r1⟩
  · unfold shiftLeft
    by_cases h0 : bits = 0
    · subst h0
      rw [if_neg (by omega), show (-((0 : Nat) : Int)).toNat = 0 from rfl]
      rw [(shl_value hw ha 0).2.2]; simp
    · rw [if_pos (by omega), show (-(-(bits : Int))).toNat = bits by omega]; exact r3
  · unfold shiftRight
    by_cases h0 : bits = 0
    · subst h0
      rw [if_neg (by omega), show (-((0 : Nat) : Int)).toNat = 0 from rfl]
      rw [(shr_value hw ha 0).2.2]; simp
    · rw [if_pos (by omega), show (-(-(bits : Int))).toNat = bits by omega]; exact l3

/-- C33 refuted for `BigUnsignedInteger(0)`, whose single zero block the library does not recognise as zero: dividing by it does not throw but returns a quotient
with all bits set, and subtracting it from the empty zero throws although the result is not negative. -/
theorem zero_block_violated : ofNat 0 = [0] ∧ value 64 [0] = 0 ∧ div 64 [5] (ofNat 0) = some (.ok [2 ^ 64 - 1]) ∧ sub 64 [] (ofNat 0) = some (.error .tooLarge) ∧
    sub 64 [7] [7] = some (.ok []) := by
  refine ⟨rfl, rfl, ?_, rfl, rfl⟩
  with_unfolding_all rfl

/-! Non-vacuity (64-bit blocks). -/
example : Blocks 64 [2 ^ 64 - 1, 5] ∧ Norm [2 ^ 64 - 1, 5] ∧ add 64 [2 ^ 64 - 1, 2 ^ 64 - 1] [1] = some [0, 0, 1] ∧ sub 64 [0, 0, 1] [1] = some (.ok [2 ^ 64 - 1, 2 ^ 64 - 1]) ∧
    sub 64 [1] [2] = some (.error .negative) ∧ mul 8 [255, 255] [255, 3] = some [1, 252, 254, 3] ∧ divMod 8 [1, 252, 254, 3] [255, 3] = some ([], [255, 255]) ∧
    shiftLeft 8 [3] 15 = [0, 128, 1] ∧ shiftRight 8 [0, 128, 1] 15 = [3] := by
  refine ⟨?_, by simp [Norm], by decide +kernel, by rfl, by rfl, by decide +kernel, by decide +kernel, by decide +kernel, by decide +kernel⟩
  intro x hx
  simp only [List.mem_cons, List.not_mem_nil, or_false] at hx
  omega

end Verif.BigNum

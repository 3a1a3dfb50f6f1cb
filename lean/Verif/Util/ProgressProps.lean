import Verif.Util.Progress

namespace Verif.Util

namespace Spec

/-- A sensible progress: something between nothing and all. -/
def Sensible (p : Progress) : Prop := 0 ≤ p.current ∧ p.current ≤ p.total ∧ 100 * p.total < 2 ^ 63

/-- `x` is `n / d` rounded down. -/
def Floor (x n d : Int) : Prop := x * d ≤ n ∧ n < (x + 1) * d

end Spec

open Spec

/-- The percents of a sensible progress are the percentage rounded down: between 0 and 100, and 100 exactly at the end. -/
theorem percents_partial {p : Progress} (h : Sensible p) (ht : p.total ≠ 0) :
    ∃ x, p.percents = some x ∧ Floor x (100 * p.current) p.total ∧ 0 ≤ x ∧ x ≤ 100 ∧ (x = 100 ↔ p.current = p.total) := by
  obtain ⟨h1, h2, h3⟩ := h
  have hp : 0 < p.total := by omega
  have hq : 0 ≤ 100 * p.current := by omega
  have e : (100 * p.current).tdiv p.total = 100 * p.current / p.total := Int.tdiv_eq_ediv_of_nonneg hq
  have lo : 0 ≤ 100 * p.current / p.total := Int.ediv_nonneg hq (by omega)
  have hi : 100 * p.current / p.total ≤ 100 := by
    apply Int.ediv_le_of_le_mul hp; omega
  have ei := Int.emod_add_mul_ediv (100 * p.current) p.total
  have m0 := Int.emod_nonneg (100 * p.current) ht
  have m1 := Int.emod_lt_of_pos (100 * p.current) hp
  refine ⟨100 * p.current / p.total, ?_, ⟨?_, ?_⟩, lo, hi, ?_⟩
  · unfold Progress.percents
    rw [if_neg ht, if_pos ⟨by omega, by omega⟩, e]
    unfold toInt32
    rw [Int.emod_eq_of_lt (by omega) (by omega)]
    congr 1; omega
  · rw [Int.mul_comm]; omega
  · rw [Int.add_mul, Int.mul_comm (100 * p.current / p.total)]; omega
  · constructor
    · intro h4
      rw [h4] at ei
      omega
    · intro h4
      rw [h4]
      have : (100 : Int) * p.total / p.total = 100 := Int.mul_ediv_cancel _ ht
      exact this

/-- Without a total there is no progress. -/
theorem percents_nothing (c : Int) : Progress.percents ⟨c, 0⟩ = some 0 := rfl

/-- Progress of the same action does not go back. -/
theorem percents_monotone {a b : Progress} (ha : Sensible a) (hb : Sensible b) (ht : a.total = b.total) (h : a.current ≤ b.current) :
    ∃ x y, a.percents = some x ∧ b.percents = some y ∧ x ≤ y := by
  by_cases e : a.total = 0
  · refine ⟨0, 0, ?_, ?_, Int.le_refl _⟩
    · unfold Progress.percents; rw [if_pos e]
    · unfold Progress.percents; rw [if_pos (by omega)]
  · obtain ⟨x, h1, ⟨f1, f2⟩, -⟩ := percents_partial ha e
    obtain ⟨y, h2, ⟨g1, g2⟩, -⟩ := percents_partial hb (by omega)
    refine ⟨x, y, h1, h2, ?_⟩
    rw [← ht] at g1 g2
    have hp : 0 < a.total := by have := ha.1; have := ha.2.1; omega
    have : x * a.total < (y + 1) * a.total := by omega
    have := Int.lt_of_mul_lt_mul_right this (by omega)
    omega

/-- Above about 2^63 / 100 the multiplication overflows. -/
theorem percents_violated : Progress.percents ⟨2 ^ 60, 2 ^ 61⟩ = none := by decide +kernel

/-- Full statement, violated: percents that do not fit into an `int` wrap, and a progress beyond the end may show as none. -/
theorem percents_wrap_violated : Progress.percents ⟨2 ^ 40, 1⟩ = some 0 ∧ Progress.percents ⟨2147483648, 100⟩ = some (-2147483648) := by decide +kernel

/-- `<` compares percents, `==` the numbers: different progresses with the same percents are neither equal nor ordered. -/
theorem progress_order_violated : Progress.less ⟨1, 2⟩ ⟨50, 100⟩ = some false ∧ Progress.less ⟨50, 100⟩ ⟨1, 2⟩ = some false ∧ (⟨1, 2⟩ : Progress) ≠ ⟨50, 100⟩ ∧
    Progress.less ⟨1, 1000⟩ ⟨2, 1000⟩ = some false := by decide +kernel

/-- A part of the whole: actions from `index` on, `size` of them, out of `count`. -/
def Part (a : Aggregate) : Prop := 0 < a.count ∧ a.index + a.size ≤ a.count ∧ 100 * a.count < 2 ^ 63

/-- The first constructor makes exactly the parts of one action. -/
theorem aggregate_one (index count : Nat) : Aggregate.one index count = if index + 1 ≤ count then some ⟨index, 1, count⟩ else none := by
  unfold Aggregate.one
  by_cases h : index < count
  · rw [if_pos h]; exact (if_pos h).symm
  · rw [if_neg h]; exact (if_neg h).symm

/-- The second constructor makes exactly the parts of at least one action, as long as the numbers do not wrap. -/
theorem aggregate_many_partial {index size count : Nat} (h : 0 < size) (hs : index + size ≤ 2 ^ 64) :
    Aggregate.many index size count = if index + size ≤ count then some ⟨index, size, count⟩ else none := by
  unfold Aggregate.many
  have e : (index + size + (2 ^ 64 - 1)) % 2 ^ 64 = index + size - 1 := by
    have : index + size + (2 ^ 64 - 1) = index + size - 1 + 2 ^ 64 := by omega
    rw [this, Nat.add_mod_right, Nat.mod_eq_of_lt (by omega)]
  rw [e]
  by_cases h : index + size ≤ count
  · rw [if_pos (by omega), if_pos h]
  · rw [if_neg (by omega), if_neg h]

/-- The check of the second constructor wraps: parts far beyond the end are accepted, and nothing at the start is refused. -/
theorem aggregate_many_violated : Aggregate.many 5 (2 ^ 64 - 4) 10 = some ⟨5, 2 ^ 64 - 4, 10⟩ ∧ Aggregate.many 0 0 10 = none := by decide +kernel

theorem percents_hundred {k : Int} (h1 : 0 ≤ k) (h2 : k ≤ 100) : Progress.percents ⟨k, 100⟩ = some k := by
  unfold Progress.percents
  have e : ¬ (100 : Int) = 0 := by decide
  rw [if_neg e, if_pos (show -2 ^ 63 ≤ 100 * k ∧ 100 * k < 2 ^ 63 by omega)]
  have e1 : (100 * k).tdiv 100 = k := by
    rw [Int.tdiv_eq_ediv_of_nonneg (by omega), Int.mul_ediv_cancel_left _ (by decide)]
  have e2 : toInt32 k = k := by
    unfold toInt32
    rw [Int.emod_eq_of_lt (by omega) (by omega)]; omega
  show some (toInt32 ((100 * k).tdiv 100)) = some k
  rw [e1, e2]

/-- What is reported for `x` percent of a part is the percentage of the whole, rounded down: between the percentage before the part and the one after it. -/
theorem aggregate_partial {a : Aggregate} {p : Progress} (ha : Part a) (hp : Sensible p) :
    ∃ x r : Int, p.percents = some x ∧ a.report p = some ⟨r, 100⟩ ∧ Floor r (a.index * 100 + a.size * x) a.count ∧ 0 ≤ r ∧ r ≤ 100 ∧
      (a.index * 100 : Int) / a.count ≤ r ∧ r ≤ ((a.index + a.size) * 100 : Int) / a.count ∧ Progress.percents ⟨r, 100⟩ = some r := by
  obtain ⟨hc, hi, hl⟩ := ha
  obtain ⟨x, hx, x0, x1⟩ : ∃ x, p.percents = some x ∧ 0 ≤ x ∧ x ≤ 100 := by
    by_cases ht : p.total = 0
    · exact ⟨0, by unfold Progress.percents; rw [if_pos ht], by omega, by omega⟩
    · obtain ⟨x, h1, -, h2, h3, -⟩ := percents_partial hp ht
      exact ⟨x, h1, h2, h3⟩
  obtain ⟨n, rfl⟩ : ∃ n : Nat, x = n := ⟨x.toNat, by omega⟩
  have hn : n ≤ 100 := by omega
  have b1 : a.size * n ≤ a.size * 100 := Nat.mul_le_mul_left _ hn
  have hle : a.index * 100 + a.size * n ≤ a.count * 100 := by omega
  have e1 : ((n : Int) % 2 ^ 64).toNat = n := by
    rw [Int.emod_eq_of_lt (by omega) (by omega)]; omega
  have e2 : (a.index * 100 + a.size * n) % 2 ^ 64 = a.index * 100 + a.size * n := Nat.mod_eq_of_lt (by omega)
  have hr : (a.index * 100 + a.size * n) / a.count ≤ 100 := by
    apply Nat.div_le_of_le_mul; omega
  have dm : (a.index * 100 + a.size * n) / a.count * a.count ≤ a.index * 100 + a.size * n := Nat.div_mul_le_self _ _
  have ml : a.index * 100 + a.size * n < ((a.index * 100 + a.size * n) / a.count + 1) * a.count := by
    have h1 := Nat.div_add_mod (a.index * 100 + a.size * n) a.count
    have h2 := Nat.mod_lt (a.index * 100 + a.size * n) hc
    rw [Nat.add_mul, Nat.mul_comm ((a.index * 100 + a.size * n) / a.count)]; omega
  have l1 : a.index * 100 / a.count ≤ (a.index * 100 + a.size * n) / a.count := Nat.div_le_div_right (by omega)
  have l2 : (a.index * 100 + a.size * n) / a.count ≤ (a.index + a.size) * 100 / a.count := Nat.div_le_div_right (by rw [Nat.add_mul]; omega)
  have hrep : a.report p = some ⟨((((a.index * 100 + a.size * n) / a.count : Nat) : Int) + 2 ^ 63) % 2 ^ 64 - 2 ^ 63, 100⟩ := by
    unfold Aggregate.report
    rw [hx]
    simp only []
    rw [if_neg (by omega), e1, e2]
  generalize (a.index * 100 + a.size * n) / a.count = k at *
  have e3 : ((k : Int) + 2 ^ 63) % 2 ^ 64 - 2 ^ 63 = k := by
    rw [Int.emod_eq_of_lt (by omega) (by omega)]; omega
  rw [e3] at hrep
  refine ⟨n, k, hx, hrep, ⟨?_, ?_⟩, by omega, by omega, ?_, ?_, ?_⟩
  · exact_mod_cast dm
  · exact_mod_cast ml
  · exact_mod_cast l1
  · exact_mod_cast l2
  · exact percents_hundred (by omega) (by omega)

/-- The progress of the whole does not go back: not within a part, and not from the end of a part to the start of the next. -/
theorem aggregate_monotone {a b : Aggregate} {p q : Progress} (ha : Part a) (hb : Part b) (hc : a.count = b.count) (hp : Sensible p) (hq : Sensible q)
    (h : (a = b ∧ p.total = q.total ∧ p.current ≤ q.current) ∨ a.index + a.size ≤ b.index) :
    ∃ x y : Int, a.report p = some ⟨x, 100⟩ ∧ b.report q = some ⟨y, 100⟩ ∧ x ≤ y := by
  obtain ⟨m, x, pm, rx, ⟨f1, f2⟩, -, -, -, x1, -⟩ := aggregate_partial ha hp
  obtain ⟨n, y, pn, ry, ⟨g1, g2⟩, -, -, y0, -, -⟩ := aggregate_partial hb hq
  refine ⟨x, y, rx, ry, ?_⟩
  have pos : (0 : Int) < a.count := by have := ha.1; omega
  rcases h with ⟨rfl, ht, hle⟩ | h
  · obtain ⟨m', n', h1, h2, h3⟩ := percents_monotone hp hq ht hle
    rw [pm] at h1; cases h1
    rw [pn] at h2; cases h2
    have : (a.size : Int) * m ≤ a.size * n := Int.mul_le_mul_of_nonneg_left h3 (by omega)
    have : x * a.count < (y + 1) * a.count := by omega
    have := Int.lt_of_mul_lt_mul_right this (by omega)
    omega
  · rw [← hc] at y0
    have : ((a.index + a.size) * 100 : Int) / a.count ≤ (b.index * 100 : Int) / a.count := Int.ediv_le_ediv pos (by omega)
    omega

/-- When the last part is finished, the whole is reported as finished. -/
theorem aggregate_finished {a : Aggregate} (ha : Part a) (hl : a.index + a.size = a.count) {p : Progress} (hp : Sensible p) (ht : p.total ≠ 0) (hc : p.current = p.total) :
    a.report p = some ⟨100, 100⟩ := by
  obtain ⟨m, x, pm, rx, ⟨f1, f2⟩, -⟩ := aggregate_partial ha hp
  obtain ⟨m', h1, -, -, -, h2⟩ := percents_partial hp ht
  rw [pm] at h1; cases h1
  have := h2.mpr hc
  subst this
  have pos : (0 : Int) < a.count := by have := ha.1; omega
  have e : (a.index * 100 + a.size * 100 : Int) = 100 * a.count := by omega
  rw [e] at f1 f2
  have l1 : x ≤ 100 := Int.le_of_mul_le_mul_right f1 pos
  have l2 := Int.lt_of_mul_lt_mul_right f2 (by omega : (0 : Int) ≤ a.count)
  have : x = 100 := by omega
  rw [rx, this]

example : Sensible ⟨3, 7⟩ ∧ Progress.percents ⟨3, 7⟩ = some 42 ∧ Part ⟨2, 3, 6⟩ ∧ Aggregate.report ⟨2, 3, 6⟩ ⟨3, 7⟩ = some ⟨54, 100⟩ := by
  refine ⟨⟨by decide, by decide, by decide⟩, by decide +kernel, ⟨by decide, by decide, by decide⟩, by decide +kernel⟩

end Verif.Util

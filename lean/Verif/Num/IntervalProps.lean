import Verif.Num.Interval
/-
Ranges as sets: from the start up to, but not including, the end.
-/
namespace Verif.Num.Spec

/-- The numbers of a range: `start ≤ t < stop`. -/
def In (t : Int) (r : Interval) : Prop := r.start ≤ t ∧ t < r.stop

/-- Every number of one range is one of the other. -/
def Within (a b : Interval) : Prop := ∀ t, In t a → In t b

end Verif.Num.Spec

namespace Verif.Num
open Spec

/-- The constructor only makes ranges whose end is not before their start. -/
theorem make_ordered {s e : Int} {r : Interval} : Interval.make s e = some r ↔ s ≤ e ∧ r = ⟨s, e⟩ := by
  unfold Interval.make
  by_cases h : s ≤ e
  · rw [if_pos h]; simp [h, eq_comm]
  · rw [if_neg h]; simp [h]

/-- `IsEmpty` tells whether the range has no numbers. -/
theorem isEmpty_spec {r : Interval} (h : r.start ≤ r.stop) : r.isEmpty = true ↔ ∀ t, ¬ In t r := by
  unfold Interval.isEmpty In
  rw [decide_eq_true_eq]
  constructor
  · intro e t ⟨h1, h2⟩; omega
  · intro h3; have := h3 r.start; omega

/-- The intersection of two ranges has exactly the numbers that are in both, and it is never refused; `IsIntersecting` tells whether there is any such number. -/
theorem intersect_spec {a b : Interval} (ha : a.start ≤ a.stop) (hb : b.start ≤ b.stop) :
    (∃ r, a.intersect b = some r ∧ r.start ≤ r.stop ∧ ∀ t, In t r ↔ In t a ∧ In t b) ∧ (a.isIntersecting b = true ↔ ∃ t, In t a ∧ In t b) := by
  unfold Interval.intersect Interval.isIntersecting Interval.make Interval.isEmpty Interval.empty In
  by_cases he : a.start = a.stop ∨ b.start = b.stop
  · have : (decide (a.start = a.stop) || decide (b.start = b.stop)) = true := by simpa using he
    rw [this]
    simp only [if_true]
    constructor
    · exact ⟨_, rfl, by simp, fun t => ⟨fun h => by simp only [] at h; omega, fun h => by omega⟩⟩
    · constructor
      · intro h; exact absurd h (by simp)
      · rintro ⟨t, h1, h2⟩; omega
  · have : (decide (a.start = a.stop) || decide (b.start = b.stop)) = false := by simpa using he
    rw [this]
    simp only [Bool.false_eq_true, if_false]
    constructor
    · by_cases h1 : max a.start b.start ≥ min a.stop b.stop
      · rw [if_pos h1]
        exact ⟨_, rfl, by simp, fun t => ⟨fun h => by simp only [] at h; omega, fun h => by omega⟩⟩
      · rw [if_neg h1, if_pos (by omega)]
        exact ⟨_, rfl, by simp only []; omega, fun t => by simp only []; omega⟩
    · rw [Bool.and_eq_true, decide_eq_true_eq, decide_eq_true_eq]
      constructor
      · intro h
        exact ⟨max a.start b.start, by omega⟩
      · rintro ⟨t, h⟩; omega

/-- The union is the smallest range that has all numbers of both. -/
theorem union_spec {a b : Interval} (ha : a.start ≤ a.stop) (hb : b.start ≤ b.stop) :
    ∃ r, a.union b = some r ∧ r.start ≤ r.stop ∧ Within a r ∧ Within b r ∧ ∀ c, Within a c → Within b c → Within r c := by
  unfold Interval.union Interval.make Interval.isEmpty
  by_cases h1 : a.start = a.stop
  · rw [if_pos (by simpa using h1)]
    exact ⟨b, rfl, hb, fun t h => by unfold In at *; omega, fun t h => h, fun c _ h => h⟩
  · rw [if_neg (by simpa using h1)]
    by_cases h2 : b.start = b.stop
    · rw [if_pos (by simpa using h2)]
      exact ⟨a, rfl, ha, fun t h => h, fun t h => by unfold In at *; omega, fun c h _ => h⟩
    · rw [if_neg (by simpa using h2), if_pos (by omega)]
      refine ⟨_, rfl, by simp only []; omega, fun t h => by unfold In at *; simp only []; omega, fun t h => by unfold In at *; simp only []; omega, ?_⟩
      intro c hac hbc t ht
      have i1 := hac a.start (by unfold In; omega)
      have i2 := hac (a.stop - 1) (by unfold In; omega)
      have i3 := hbc b.start (by unfold In; omega)
      have i4 := hbc (b.stop - 1) (by unfold In; omega)
      unfold In at *
      simp only [] at ht
      omega

/-- Nothing is added to two ranges that meet. -/
theorem union_exact {a b r : Interval} (ha : a.start ≤ a.stop) (hb : b.start ≤ b.stop) (h : a.union b = some r) (h1 : a.start ≤ b.stop) (h2 : b.start ≤ a.stop) :
    ∀ t, In t r ↔ In t a ∨ In t b := by
  unfold Interval.union Interval.make Interval.isEmpty at h
  intro t
  unfold In
  by_cases e1 : a.start = a.stop
  · rw [if_pos (by simpa using e1)] at h
    cases h; omega
  · rw [if_neg (by simpa using e1)] at h
    by_cases e2 : b.start = b.stop
    · rw [if_pos (by simpa using e2)] at h
      cases h; omega
    · rw [if_neg (by simpa using e2), if_pos (by omega)] at h
      cases h
      simp only []
      omega

/-- `Clamp` gives the number between the two ends that is nearest. -/
theorem clamp_spec {r : Interval} (h : r.start ≤ r.stop) (t : Int) :
    (r.start ≤ r.clamp t ∧ r.clamp t ≤ r.stop) ∧ ∀ u, r.start ≤ u → u ≤ r.stop → (r.clamp t - t).natAbs ≤ (u - t).natAbs := by
  unfold Interval.clamp
  refine ⟨by omega, fun u h1 h2 => by omega⟩

/-- `ContainsStrict` is between the ends; `Contains` is the numbers of the range and, unless it is empty, its end. -/
theorem contains_spec {r : Interval} (h : r.start ≤ r.stop) (t : Int) :
    (r.contains t = true ↔ In t r ∨ (r.start < r.stop ∧ t = r.stop)) ∧ (r.containsStrict t = true ↔ In t r ∧ t ≠ r.start) := by
  unfold Interval.contains Interval.containsStrict Interval.isEmpty In
  simp only [Bool.and_eq_true, Bool.not_eq_true', decide_eq_false_iff_not, decide_eq_true_eq]
  omega

theorem duration_spec {r : Interval} (h : r.start ≤ r.stop) : 0 ≤ r.duration ∧ (r.duration = 0 ↔ r.isEmpty = true) := by
  unfold Interval.duration Interval.isEmpty
  rw [decide_eq_true_eq]
  omega

/-- Two ranges contain the same number, but do not intersect: every pair of ranges that touch. -/
theorem touching_violated {a b : Interval} (ha : a.start < a.stop) (hb : b.start < b.stop) (h : a.stop = b.start) :
    a.contains a.stop = true ∧ b.contains a.stop = true ∧ a.isIntersecting b = false ∧ ∃ r, a.intersect b = some r ∧ r.contains a.stop = false := by
  have h1 := (contains_spec (r := a) (by omega) a.stop).1
  have h2 := (contains_spec (r := b) (by omega) a.stop).1
  refine ⟨h1.mpr (Or.inr ⟨ha, rfl⟩), h2.mpr (Or.inl ⟨by omega, by omega⟩), ?_, ?_⟩
  · obtain ⟨-, h3⟩ := intersect_spec (a := a) (b := b) (by omega) (by omega)
    cases hc : a.isIntersecting b with
    | false => rfl
    | true =>
      obtain ⟨t, h4, h5⟩ := h3.mp hc
      unfold In at *; omega
  · refine ⟨.empty, ?_, by simp [Interval.contains, Interval.isEmpty, Interval.empty]⟩
    unfold Interval.intersect
    by_cases he : (a.isEmpty || b.isEmpty) = true
    · rw [if_pos he]
    · rw [if_neg he, if_pos (by omega)]

/-- The setters make ranges the constructor refuses: such a range is not empty though it contains nothing, clamps to a number outside, and its union with another one may throw. -/
theorem setters_violated : ∃ r, Interval.make 1 3 = some r ∧ (r.setStart 5).isEmpty = false ∧ (∀ t, (r.setStart 5).contains t = false) ∧ (r.setStart 5).clamp 3 = 5 ∧
    (r.setStart 5).union ((r.setStart 6).setEnd 4) = none := by
  refine ⟨⟨1, 3⟩, by decide, by decide, ?_, by decide, by decide⟩
  intro t
  cases hc : Interval.contains (Interval.setStart ⟨1, 3⟩ 5) t with
  | false => rfl
  | true =>
    unfold Interval.contains Interval.setStart at hc
    rw [Bool.and_eq_true, Bool.and_eq_true, decide_eq_true_eq, decide_eq_true_eq] at hc
    obtain ⟨-, h1, h2⟩ := hc
    simp only [] at h1 h2
    omega

example : Interval.intersect ⟨1, 5⟩ ⟨3, 9⟩ = some ⟨3, 5⟩ ∧ Interval.union ⟨1, 5⟩ ⟨7, 9⟩ = some ⟨1, 9⟩ ∧ Interval.isIntersecting ⟨1, 5⟩ ⟨3, 9⟩ = true ∧
    Interval.intersect ⟨1, 3⟩ ⟨3, 5⟩ = some ⟨0, 0⟩ ∧ Interval.clamp ⟨1, 5⟩ 9 = 5 := by decide

end Verif.Num

import Verif.Util.Rect
import Verif.Util.CompareProps
/-
C138: rectangles.
-/
namespace Verif.Rect

open Verif.Util

namespace Spec

/-- The points of a rectangle: left and top edges belong to it, right and bottom edges do not. -/
def Has (r : Rect) (x y : Int) : Prop := r.x1 ≤ x ∧ x < r.x2 ∧ r.y1 ≤ y ∧ y < r.y2

/-- The points with all edges. -/
def HasClosed (r : Rect) (x y : Int) : Prop := r.x1 ≤ x ∧ x ≤ r.x2 ∧ r.y1 ≤ y ∧ y ≤ r.y2

end Spec

open Spec

/-- **C138.**  A rectangle is valid exactly if it has a point, and then exactly if its size is valid. -/
theorem valid_spec (r : Rect) : (r.valid = true ↔ ∃ x y, Has r x y) ∧ r.valid = r.size.valid := by
  constructor
  · simp only [Rect.valid, Bool.and_eq_true, decide_eq_true_eq]
    constructor
    · rintro ⟨h1, h2⟩; exact ⟨r.x1, r.y1, by omega, by omega, by omega, by omega⟩
    · rintro ⟨x, y, h1, h2, h3, h4⟩; omega
  · rw [Bool.eq_iff_iff]
    simp only [Rect.valid, Rect.size, Size.valid, Bool.and_eq_true, decide_eq_true_eq]
    constructor
    · rintro ⟨h1, h2⟩; exact ⟨decide_eq_true (Int.sub_pos_of_lt h1), decide_eq_true (Int.sub_pos_of_lt h2)⟩
    · rintro ⟨h1, h2⟩; exact ⟨Int.lt_of_sub_pos (of_decide_eq_true h1), Int.lt_of_sub_pos (of_decide_eq_true h2)⟩

/-- **C138.**  The points of the intersection are the common points; the order does not matter, and a rectangle intersected with itself is unchanged. -/
theorem intersect_spec (r o : Rect) : (∀ x y, Has (r.intersect o) x y ↔ Has r x y ∧ Has o x y) ∧ r.intersect o = o.intersect r ∧ r.intersect r = r := by
  refine ⟨?_, ?_, ?_⟩
  · intro x y; simp only [Has, Rect.intersect]; omega
  · simp only [Rect.intersect, Rect.mk.injEq]; omega
  · cases r; simp only [Rect.intersect, Rect.mk.injEq]; omega

/-- **C138.**  The intersection is valid exactly if there is a common point. -/
theorem intersect_valid (r o : Rect) : (r.intersect o).valid = true ↔ ∃ x y, Has r x y ∧ Has o x y := by
  rw [(valid_spec _).1]
  constructor
  · rintro ⟨x, y, h⟩; exact ⟨x, y, ((intersect_spec r o).1 x y).mp h⟩
  · rintro ⟨x, y, h⟩; exact ⟨x, y, ((intersect_spec r o).1 x y).mpr h⟩

/-- **C138.**  Moving moves all points and keeps the size; moving back restores the rectangle. -/
theorem move_spec (r : Rect) (p : Position) : (∀ x y, Has (r.move p) (x + p.x) (y + p.y) ↔ Has r x y) ∧ (r.move p).size = r.size ∧ (r.move p).move ⟨-p.x, -p.y⟩ = r := by
  refine ⟨?_, ?_, ?_⟩
  · intro x y; simp only [Has, Rect.move]; omega
  · simp only [Rect.size, Rect.move, Size.mk.injEq]; omega
  · cases r; simp only [Rect.move, Rect.mk.injEq]; omega

/-- **C138.**  A rectangle made from a size has this size and the corner at the origin. -/
theorem ofSize_spec (s : Size) : (Rect.ofSize s).size = s ∧ (∀ x y, Has (Rect.ofSize s) x y ↔ 0 ≤ x ∧ x < s.width ∧ 0 ≤ y ∧ y < s.height) := by
  refine ⟨?_, ?_⟩
  · cases s; simp only [Rect.ofSize, Rect.size, Size.mk.injEq]; omega
  · intro x y; simp only [Has, Rect.ofSize]

/-- **C138.**  `Intersects` of valid rectangles tells whether they have a common point, edges included. -/
theorem intersects_closed_partial (r o : Rect) (hr : r.valid = true) (ho : o.valid = true) : r.intersects o = true ↔ ∃ x y, HasClosed r x y ∧ HasClosed o x y := by
  simp only [Rect.valid, Bool.and_eq_true, decide_eq_true_eq] at hr ho
  simp only [Rect.intersects, Bool.and_eq_true, decide_eq_true_eq, HasClosed]
  constructor
  · rintro ⟨⟨⟨h1, h2⟩, h3⟩, h4⟩
    exact ⟨max r.x1 o.x1, max r.y1 o.y1, by omega, by omega⟩
  · rintro ⟨x, y, h1, h2⟩; omega

/-- **C138.**  If there is a common point, `Intersects` says so. -/
theorem intersects_complete (r o : Rect) (h : (r.intersect o).valid = true) : r.intersects o = true := by
  simp only [Rect.valid, Rect.intersect, Bool.and_eq_true, decide_eq_true_eq] at h
  obtain ⟨h1, h2⟩ := h
  replace h1 := of_decide_eq_true h1
  replace h2 := of_decide_eq_true h2
  simp only [Rect.intersects, Bool.and_eq_true, decide_eq_true_eq]
  refine ⟨⟨⟨?_, ?_⟩, ?_⟩, ?_⟩ <;> omega

/-- `Intersects` says yes for neighbours that only share an edge, although the intersection is not valid and they have no common point. -/
theorem intersects_touching_violated : ∃ r o : Rect, r.valid = true ∧ o.valid = true ∧ r.intersects o = true ∧ (r.intersect o).valid = false := by
  exact ⟨⟨0, 0, 1, 1⟩, ⟨1, 0, 2, 1⟩, by decide, by decide, by decide, by decide⟩

/-- `Intersects` says yes for an empty rectangle inside a valid one. -/
theorem intersects_empty_violated : ∃ r o : Rect, r.intersects o = true ∧ o.valid = false := by
  exact ⟨⟨0, 0, 3, 3⟩, ⟨1, 1, 1, 1⟩, by decide, by decide⟩

/-- **C138.**  Sizes and rectangles are ordered by their members, the first one that differs decides. -/
theorem less_spec : (∀ a b : Size, a.less b = true ↔ a.width < b.width ∨ a.width = b.width ∧ a.height < b.height) ∧
    (∀ a b : Rect, a.less b = true ↔ a.x1 < b.x1 ∨ a.x1 = b.x1 ∧ (a.y1 < b.y1 ∨ a.y1 = b.y1 ∧ (a.x2 < b.x2 ∨ a.x2 = b.x2 ∧ a.y2 < b.y2))) := by
  have hc : ∀ {α : Type} (f : α → Int) (a b : α), coordinate f a b = if f a < f b then -1 else if f b < f a then 1 else 0 := by
    intro α f a b; simp [coordinate, lessToCmp]
  constructor
  · intro a b
    simp only [Size.less, cmpToLess, memberCmp, hc, decide_eq_true_eq]
    repeat' split
    all_goals omega
  · intro a b
    simp only [Rect.less, cmpToLess, memberCmp, hc, decide_eq_true_eq]
    repeat' split
    all_goals omega

example : Has ⟨0, 0, 4, 3⟩ 3 2 ∧ (Rect.intersect ⟨0, 0, 4, 3⟩ ⟨2, 1, 9, 9⟩) = ⟨2, 1, 4, 3⟩ := by
  refine ⟨⟨?_, ?_, ?_, ?_⟩, ?_⟩ <;> decide

end Verif.Rect

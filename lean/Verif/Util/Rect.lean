import Verif.Util.Compare
/-
Model of rectangles and sizes, Rect.h 18-108, Size.h 16-65, Size.cpp 16-29.
Simplified: coordinates are unbounded integers (overflow of `int` is undefined behaviour in the code).
-/
namespace Verif.Rect

open Verif.Util

/-- `BasicPosition`: Rect.h 18-46. -/
structure Position where
  x : Int
  y : Int
deriving DecidableEq, Repr

/-- `Size`: Size.h 16-22. -/
structure Size where
  width : Int
  height : Int
deriving DecidableEq, Repr

/-- `BasicRect`: Rect.h 50-63. -/
structure Rect where
  x1 : Int
  y1 : Int
  x2 : Int
  y2 : Int
deriving DecidableEq, Repr

/-- Comparison of one coordinate by `<`: MemberListComparer.h through Rect.h 76, Size.cpp 17. -/
def coordinate {α : Type} (f : α → Int) : Cmp α := lessToCmp (fun a b => decide (f a < f b))

/-- `Size::operator <`: Size.cpp 16-17. -/
def Size.less (a b : Size) : Bool := cmpToLess (memberCmp [coordinate Size.width, coordinate Size.height]) a b

/-- `BasicRect::operator <`: Rect.h 75-76. -/
def Rect.less (a b : Rect) : Bool := cmpToLess (memberCmp [coordinate Rect.x1, coordinate Rect.y1, coordinate Rect.x2, coordinate Rect.y2]) a b

/-- `Size::Valid`: Size.h 24. -/
def Size.valid (s : Size) : Bool := decide (s.width > 0) && decide (s.height > 0)

/-- The constructor from a size: Rect.h 61. -/
def Rect.ofSize (s : Size) : Rect := ⟨0, 0, s.width, s.height⟩

/-- `Valid`: Rect.h 65. -/
def Rect.valid (r : Rect) : Bool := decide (r.x1 < r.x2) && decide (r.y1 < r.y2)

/-- `GetSize`: Rect.h 67-70. -/
def Rect.size (r : Rect) : Size := ⟨r.x2 - r.x1, r.y2 - r.y1⟩

/-- `Move`: Rect.h 79-80. -/
def Rect.move (r : Rect) (p : Position) : Rect := ⟨r.x1 + p.x, r.y1 + p.y, r.x2 + p.x, r.y2 + p.y⟩

/-- `Intersect`: Rect.h 82-83. -/
def Rect.intersect (r o : Rect) : Rect := ⟨max r.x1 o.x1, max r.y1 o.y1, min r.x2 o.x2, min r.y2 o.y2⟩

/-- `Intersects`: Rect.h 85-86. -/
def Rect.intersects (r o : Rect) : Bool := decide (r.x1 ≤ o.x2) && decide (r.x2 ≥ o.x1) && decide (r.y1 ≤ o.y2) && decide (r.y2 ≥ o.y1)

end Verif.Rect

/-
Model of `EditDistance`, string/StringUtils.cpp 13-41.
-/
namespace Verif.Str

/-- One cell, StringUtils.cpp 35: `left` is `v1[j]`, `diag` is `v0[j]`, `up` is `v0[j + 1]`. -/
def editCell (left diag up : Nat) (same : Bool) : Nat :=
  min (min (left + 1) (up + 1)) (diag + if same then 0 else 1)

/-- The inner loop, StringUtils.cpp 34-35: the cells of `v1` right of `left`; `v0` is given from `j` on. -/
def editRow (c : Char) : List Char → List Nat → Nat → List Nat
  | b :: bs, diag :: up :: v0, left =>
    editCell left diag up (c = b) :: editRow c bs (up :: v0) (editCell left diag up (c = b))
  | _, _, _ => []

/-- The outer loop, StringUtils.cpp 30-38; `i` counts. -/
def editLoop (s2 : List Char) : List Char → Nat → List Nat → List Nat
  | [], _, v0 => v0
  | c :: cs, i, v0 => editLoop s2 cs (i + 1) ((i + 1) :: editRow c s2 v0 (i + 1))

/-- `EditDistance`, StringUtils.cpp 13-41; the access `v1[s2.size()]` outside the vector would be `none`. -/
def editDistance (s1 s2 : List Char) : Option Nat :=
  if s1 = s2 then some 0
  else if s1 = [] then some s2.length
  else if s2 = [] then some s1.length
  else (editLoop s2 s1 0 (List.range (s2.length + 1)))[s2.length]?

end Verif.Str

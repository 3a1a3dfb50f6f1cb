/-
Model of `basic_string_view` (stingraykit/string/string_view.h 28-265, string_view.cpp).  A view is the list of its characters; a
character is its value as `unsigned char`, as `std::char_traits<char>::compare` sees it.  `size_type` has 64 bits, `int` 32.  Reading outside
of the view is the outcome `ub`, `StringViewCheckRange` fails with `outOfRange`.
-/
namespace Verif.Str.View

/-- The outcome of an operation, string_view.h 63-100. -/
inductive Res (α : Type)
  | ok (a : α)
  | outOfRange
  | ub
  deriving DecidableEq

/-- `npos`, string_view.h 46. -/
def npos : Nat := 2 ^ 64 - 1

/-- The difference of two sizes, modulo 2^64, string_view.h 105. -/
def sizeSub (a b : Nat) : Nat := (a + 2 ^ 64 - b) % 2 ^ 64

/-- Conversion from `size_type` to `int`, string_view.h 105. -/
def toInt (n : Nat) : Int := if n % 2 ^ 32 < 2 ^ 31 then ((n % 2 ^ 32 : Nat) : Int) else ((n % 2 ^ 32 : Nat) : Int) - 2 ^ 32

/-- `Traits::compare` of `n` characters, string_view.h 104. -/
def traitsCompare : Nat → List Nat → List Nat → Int
  | 0, _, _ => 0
  | n + 1, x :: a, y :: b => if x < y then -1 else if y < x then 1 else traitsCompare n a b
  | _ + 1, _, _ => 0

/-- `compare`, string_view.h 102-106. -/
def compare (d v : List Nat) : Int :=
  if traitsCompare (min d.length v.length) d v = 0 then toInt (sizeSub d.length v.length) else traitsCompare (min d.length v.length) d v

/-- `at`, string_view.h 63. -/
def charAt (d : List Nat) (pos : Nat) : Res Nat :=
  match d[pos]? with
  | some c => .ok c
  | none => .outOfRange

/-- `remove_prefix`, string_view.h 74-79. -/
def removePrefix (d : List Nat) (n : Nat) : Res (List Nat) := if n < d.length + 1 then .ok (d.drop n) else .outOfRange

/-- `remove_suffix`, string_view.h 81-85. -/
def removeSuffix (d : List Nat) (n : Nat) : Res (List Nat) := if n < d.length + 1 then .ok (d.take (d.length - n)) else .outOfRange

/-- `substr`, string_view.h 96-100. -/
def substr (d : List Nat) (pos count : Nat) : Res (List Nat) :=
  if pos < d.length + 1 then .ok ((d.drop pos).take (min count (d.length - pos))) else .outOfRange

/-- `compare` of a part, string_view.h 108. -/
def compareSub (d : List Nat) (pos count : Nat) (v : List Nat) : Res Int :=
  match substr d pos count with
  | .ok s => .ok (compare s v)
  | .outOfRange => .outOfRange
  | .ub => .ub

/-- `compare` of parts of both, string_view.h 109. -/
def compareSubs (d : List Nat) (pos1 count1 : Nat) (v : List Nat) (pos2 count2 : Nat) : Res Int :=
  match substr v pos2 count2 with
  | .ok s => compareSub d pos1 count1 s
  | .outOfRange => .outOfRange
  | .ub => .ub

/-- `starts_with`, string_view.h 114. -/
def startsWith (d x : List Nat) : Res Bool :=
  if x.length ≤ d.length then
    match compareSub d 0 x.length x with
    | .ok r => .ok (r == 0)
    | .outOfRange => .outOfRange
    | .ub => .ub
  else .ok false

/-- `ends_with`, string_view.h 118. -/
def endsWith (d x : List Nat) : Res Bool :=
  if x.length ≤ d.length then
    match compareSub d (d.length - x.length) npos x with
    | .ok r => .ok (r == 0)
    | .outOfRange => .outOfRange
    | .ub => .ub
  else .ok false

/-- Is `v` at `pos`?  `pos + v.size() <= size()` wherever it is called.  string_view.h 134 and 155. -/
def hit (d v : List Nat) (pos : Nat) : Bool := compare ((d.drop pos).take v.length) v == 0

/-- The loop of `find`, `n` rounds to go, string_view.h 133-137. -/
def findLoop (d v : List Nat) : Nat → Nat → Nat
  | 0, _ => npos
  | n + 1, pos => if hit d v pos then pos else findLoop d v n (pos + 1)

/-- `find`, string_view.h 122-138. -/
def find (d v : List Nat) (pos : Nat) : Nat :=
  if pos > d.length then npos
  else if v.isEmpty then pos
  else if v.length > d.length - pos then npos
  else findLoop d v (d.length - v.length + 1 - pos) pos

/-- The loop of `rfind`, from `pos` down to 0, string_view.h 154-158. -/
def rfindLoop (d v : List Nat) : Nat → Nat
  | 0 => if hit d v 0 then 0 else npos
  | pos + 1 => if hit d v (pos + 1) then pos + 1 else rfindLoop d v pos

/-- `rfind`, string_view.h 144-159. -/
def rfind (d v : List Nat) (pos : Nat) : Nat :=
  if v.isEmpty then (if pos > d.length then d.length else pos)
  else if v.length > d.length then npos
  else rfindLoop d v (min pos (d.length - v.length))

/-- The loop of `find_first_of` and `find_first_not_of` over the rest of the view, string_view.h 170-175 and 207-222. -/
def firstLoop (p : Nat → Bool) : List Nat → Nat → Nat
  | [], _ => npos
  | c :: d, pos => if p c then pos else firstLoop p d (pos + 1)

/-- The loop of `find_last_of` and `find_last_not_of` from `pos` down to 0, string_view.h 190-195 and 237-252.  With `pos = npos` the
condition `i <= pos` always holds; the first read is out of range anyway. -/
def lastLoop (d : List Nat) (p : Nat → Bool) : Nat → Res Nat
  | 0 =>
    match d[0]? with
    | none => .ub
    | some c => if p c then .ok 0 else .ok npos
  | pos + 1 =>
    match d[pos + 1]? with
    | none => .ub
    | some c => if p c then .ok (pos + 1) else lastLoop d p pos

/-- `find_first_of`, string_view.h 165-176. -/
def findFirstOf (d v : List Nat) (pos : Nat) : Nat := if v.isEmpty then npos else firstLoop (fun c => v.contains c) (d.drop pos) pos

/-- `find_first_not_of`, string_view.h 202-223. -/
def findFirstNotOf (d v : List Nat) (pos : Nat) : Nat := if v.isEmpty then 0 else firstLoop (fun c => !v.contains c) (d.drop pos) pos

/-- The position `find_last_of` starts with, string_view.h 187-188 and 234-235. -/
def lastStart (d : List Nat) (pos : Nat) : Nat := if pos = npos then sizeSub d.length 1 else pos

/-- `find_last_of`, string_view.h 182-196. -/
def findLastOf (d v : List Nat) (pos : Nat) : Res Nat := if v.isEmpty then .ok npos else lastLoop d (fun c => v.contains c) (lastStart d pos)

/-- `find_last_not_of`, string_view.h 229-253. -/
def findLastNotOf (d v : List Nat) (pos : Nat) : Res Nat := if v.isEmpty then .ok npos else lastLoop d (fun c => !v.contains c) (lastStart d pos)

end Verif.Str.View

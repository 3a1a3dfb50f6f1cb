/-
Model of `TranslitMatchSubstr` (stingraykit/locale/Translit.cpp 15-69): does a text contain a string
typed in Latin letters, letter by letter or through a table of transliterations?

Strings are lists of bytes.  Reading the text beyond its terminating zero is the outcome `ub`.
-/
namespace Verif.Translit

/-- `translit_mapping` (Translit.cpp 17), in UTF-8: what is typed and what it stands for. -/
def table : List (List Nat × List Nat) :=
  [([122, 104], [208, 182]),
   ([99, 104], [209, 135]),
   ([115, 104], [209, 136]),
   ([115, 99, 104], [209, 137]),
   ([121, 117], [209, 142]),
   ([121, 97], [209, 143]),
   ([97], [208, 176]),
   ([98], [208, 177]),
   ([99], [209, 134]),
   ([100], [208, 180]),
   ([101], [208, 181]),
   ([101], [209, 141]),
   ([102], [209, 132]),
   ([103], [208, 179]),
   ([104], [209, 133]),
   ([105], [208, 184]),
   ([106], [208, 185]),
   ([106], [208, 182]),
   ([107], [208, 186, 209, 131]),
   ([108], [208, 187]),
   ([109], [208, 188]),
   ([110], [208, 189]),
   ([111], [208, 190]),
   ([112], [208, 191]),
   ([113], [208, 186]),
   ([114], [209, 128]),
   ([115], [209, 129]),
   ([116], [209, 130]),
   ([117], [209, 131]),
   ([118], [208, 178]),
   ([119], [208, 178]),
   ([120], [208, 186, 209, 129]),
   ([121], [209, 139]),
   ([122], [208, 183])]

/-- The loop of `TranslitMatchChar` (Translit.cpp 22-40); the entries contain no zero, so `strncmp`
compares all their bytes. -/
def matchEntries (t s : List Nat) : List (List Nat × List Nat) → Option (Nat × Nat)
  | [] => none
  | (k, v) :: rest =>
    if k.length > t.length || v.length > s.length then matchEntries t s rest
    else if t.take k.length = k && s.take v.length = v then some (k.length, v.length)
    else matchEntries t s rest

/-- `TranslitMatchChar` (Translit.cpp 15-41): how much of both strings the first entry that fits takes. -/
def matchChar (t s : List Nat) : Option (Nat × Nat) :=
  if s.length = 0 || t.length = 0 then none else matchEntries t s table

/-- How a match ends (Translit.cpp 50-66). -/
inductive Res where
  | yes
  | no
  | ub
deriving DecidableEq, Repr

/-- The inner loop (Translit.cpp 51-64), on what is left of the typed string (from `j`) and of the text (from `j2`).  At the end
of the text `str[j2]` is the terminating zero; after that it is out of bounds.  `fuel` is the length of the typed string. -/
def matchAt : Nat → List Nat → List Nat → Res
  | _, [], _ => .yes
  | 0, _ :: _, _ => .no
  | _ + 1, c :: t, [] => if c = 0 then (if t = [] then .yes else .ub) else .no
  | fuel + 1, c :: t, d :: s =>
    if d = c then matchAt fuel t s
    else
      match matchChar (c :: t) (d :: s) with
      | some (a, b) => matchAt fuel (t.drop (a - 1)) (s.drop (b - 1))
      | none => .no

/-- The outer loop (Translit.cpp 48-68) from the position where `s` is left, with `n` positions to go. -/
def matchFrom (t : List Nat) : Nat → List Nat → Res
  | 0, _ => .no
  | n + 1, s =>
    match matchAt t.length t s with
    | .yes => .yes
    | .ub => .ub
    | .no => matchFrom t n (s.drop 1)

/-- `TranslitMatchSubstr` (Translit.cpp 43-69). -/
def matchSubstr (t s : List Nat) : Res :=
  if s.length < t.length then .no else matchFrom t (s.length - t.length + 1) s

end Verif.Translit

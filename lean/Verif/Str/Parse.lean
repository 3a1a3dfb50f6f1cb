import Verif.Str.Split
import Verif.Str.Ints

/-
Model of `StringParse`, string/StringParse.h 85-171.  The arguments are a number `args` of targets and a
predicate `reads i text`: whether `FromStringReader::Do` converts the text for the `i`-th argument (from
0).  What is assigned is recorded as pairs of argument and text.
-/
namespace Verif.Str

/-- A token of the format, StringParse.h 111. -/
inductive Tok where
  | lit (s : List Char)
  | idx (n : Nat)
deriving DecidableEq, Repr

/-- `std::numeric_limits<size_t>::max()`, the index of `%_%`.  For StringParse.h 85-171. -/
def skipIndex : Nat := 18446744073709551615

/-- The index between two markers, StringParse.h 129-130; `none` is the exception of `FromString`. -/
def tokIndex (body : List Char) : Option Nat :=
  if body = ['_'] then some skipIndex
  else
    match fromText u64 body with
    | .ok v => some v.toNat
    | _ => none

/-- The literal text before a token or at the end, StringParse.h 131-132 and 141-142. -/
def litTok (s : List Char) : List Tok := if s = [] then [] else [.lit s]

/-- The loop over the format, StringParse.h 112-142; `lit` is the text from `start_pos` to `current_pos`, `rest` what
follows; `none` is `return false` of line 120. -/
def tokenize : Nat → List Char → List Char → Option (List Tok)
  | 0, _, _ => none
  | fuel + 1, lit, rest =>
    match rest.dropWhile (· ≠ '%') with
    | [] => some (litTok (lit ++ rest))
    | _ :: after =>
      match after.dropWhile (· ≠ '%') with
      | [] => none
      | _ :: after2 =>
        if (after.takeWhile (· ≠ '%')).length + 1 > 1 then
          match tokIndex (after.takeWhile (· ≠ '%')) with
          | some n => (tokenize fuel [] after2).map (litTok (lit ++ rest.takeWhile (· ≠ '%')) ++ .idx n :: ·)
          | none => tokenize fuel (lit ++ rest.takeWhile (· ≠ '%') ++ '%' :: after.takeWhile (· ≠ '%') ++ ['%']) after2
        else tokenize fuel (lit ++ rest.takeWhile (· ≠ '%') ++ '%' :: after.takeWhile (· ≠ '%') ++ ['%']) after2

/-- How the parsing ends, with what has been assigned.  For StringParse.h 85-171. -/
inductive ParseRes where
  | yes (assigned : List (Nat × List Char))
  | no (assigned : List (Nat × List Char))
  | threw
deriving DecidableEq, Repr

/-- `TryReadArgument(text, index - 1, args...)`, StringParse.h 85-103; `none` is the exception of line 90. -/
def tryRead (args : Nat) (reads : Nat → List Char → Bool) (index : Nat) (text : List Char) : Option (Bool × List (Nat × List Char)) :=
  if index = skipIndex then some (true, [])
  else if index - 1 < args then
    if reads (index - 1) text then some (true, [(index - 1, text)]) else some (false, [])
  else none

/-- StringParse.h 170. -/
def parseEnd (args : Nat) (reads : Nat → List Char → Bool) (index : Nat) (rest : List Char) (assigned : List (Nat × List Char)) : ParseRes :=
  if index ≠ 0 then
    match tryRead args reads index rest with
    | none => .threw
    | some (true, a) => .yes (assigned ++ a)
    | some (false, a) => .no (assigned ++ a)
  else if rest = [] then .yes assigned else .no assigned

/-- The loop over the tokens, StringParse.h 144-170; `rest` is the string from `current_string_pos` on. -/
def parseLoop (args : Nat) (reads : Nat → List Char → Bool) : List Tok → Nat → List Char → List (Nat × List Char) → ParseRes
  | [], index, rest, assigned => parseEnd args reads index rest assigned
  | tok :: toks, index, rest, assigned =>
    if rest = [] then .no assigned
    else
      match tok with
      | .idx n => parseLoop args reads toks n rest assigned
      | .lit s =>
        match find rest s 0 with
        | none => .no assigned
        | some p =>
          if index ≠ 0 then
            if p > 0 then
              match tryRead args reads index (rest.take p) with
              | none => .threw
              | some (true, a) => parseLoop args reads toks 0 (rest.drop (p + s.length)) (assigned ++ a)
              | some (false, a) => .no (assigned ++ a)
            else .no assigned
          else parseLoop args reads toks 0 (rest.drop (p + s.length)) assigned

/-- `StringParse`, StringParse.h 108-171. -/
def stringParse (args : Nat) (reads : Nat → List Char → Bool) (string format : List Char) : ParseRes :=
  match tokenize (format.length + 1) [] format with
  | none => .no []
  | some toks => parseLoop args reads toks 0 string []

end Verif.Str

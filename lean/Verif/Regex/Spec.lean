/-
What a regular expression of digits, classes of digits, alternatives and one group around them all matches, and what the decimal text of
a number is.  Independent of the model.
-/
namespace Verif.Regex.Spec

/-- A decimal digit. -/
def Digit (c : Char) : Prop := '0' ≤ c ∧ c ≤ '9'

/-- A sequence of digits and classes `[a-b]` and `[ab]` matches a text. -/
inductive Seq : List Char → List Char → Prop
  | nil : Seq [] []
  | digit {c : Char} {r s : List Char} : Digit c → Seq r s → Seq (c :: r) (c :: s)
  | range {a b c : Char} {r s : List Char} : Digit a → Digit b → a ≤ c → c ≤ b → Seq r s → Seq ('[' :: a :: '-' :: b :: ']' :: r) (c :: s)
  | pair {a b c : Char} {r s : List Char} : Digit a → Digit b → c = a ∨ c = b → Seq r s → Seq ('[' :: a :: b :: ']' :: r) (c :: s)

/-- The alternatives of an expression without groups. -/
def alternatives : List Char → List (List Char)
  | [] => [[]]
  | '|' :: r => [] :: alternatives r
  | c :: r =>
    match alternatives r with
    | a :: as => (c :: a) :: as
    | [] => [[c]]

/-- What is in the group that is the whole expression, or the expression if there is no group. -/
def body : List Char → List Char
  | '(' :: '?' :: ':' :: r => r.dropLast
  | '(' :: r => r.dropLast
  | r => r

/-- An expression of this kind is well formed: a group is closed, and there are no other parentheses. -/
def WellFormed (re : List Char) : Prop :=
  ('(' ∉ body re ∧ ')' ∉ body re) ∧ (re.head? = some '(' → re.getLast? = some ')')

/-- The whole text is matched by an expression. -/
def Matches (re s : List Char) : Prop := WellFormed re ∧ ∃ a ∈ alternatives (body re), Seq a s

/-- The number a text of digits denotes. -/
def value (s : List Char) : Nat := s.foldl (fun v c => v * 10 + (c.toNat - '0'.toNat)) 0

/-- The decimal text of a number, without leading zeros. -/
def Decimal (s : List Char) (n : Nat) : Prop := s ≠ [] ∧ (∀ c ∈ s, Digit c) ∧ value s = n ∧ (s.head? = some '0' → s = ['0'])

end Verif.Regex.Spec

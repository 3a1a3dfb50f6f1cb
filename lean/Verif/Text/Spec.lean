/-
Specification for properties C31, C32 and C49–C53, independent of the model: Unicode scalar values, UTF-8, UTF-16, UTF-32 as in the Unicode standard,
with plain arithmetic.
-/
namespace Verif.Text.Spec

/-- Byte strings. -/
def Bytes (s : List Nat) : Prop := ∀ b ∈ s, b < 256

/-- Unicode scalar values. -/
def Scalar (c : Nat) : Prop := c < 0xD800 ∨ (0xE000 ≤ c ∧ c < 0x110000)

/-- The UTF-8 encoding of a scalar value. -/
def encode (c : Nat) : List Nat :=
  if c < 0x80 then [c]
  else if c < 0x800 then [0xC0 + c / 64, 0x80 + c % 64]
  else if c < 0x10000 then [0xE0 + c / 4096, 0x80 + c / 64 % 64, 0x80 + c % 64]
  else [0xF0 + c / 262144, 0x80 + c / 4096 % 64, 0x80 + c / 64 % 64, 0x80 + c % 64]

/-- UTF-8 text. -/
def text (cs : List Nat) : List Nat := cs.flatMap encode

/-- Well-formed UTF-8: the encoding of some sequence of scalar values. -/
def WellFormed (s : List Nat) : Prop := ∃ cs, (∀ c ∈ cs, Scalar c) ∧ s = text cs

/-- The shape of a UTF-8 sequence (a lead byte and the right number of continuation bytes) and its payload; this does not exclude overlong forms of three and
four bytes, surrogates, and values above 0x10FFFF. -/
inductive Shape : List Nat → Nat → Prop
  | one {a : Nat} : a < 0x80 → Shape [a] a
  | two {a b : Nat} : 0xC2 ≤ a → a < 0xE0 → 0x80 ≤ b → b < 0xC0 → Shape [a, b] ((a - 0xC0) * 64 + (b - 0x80))
  | three {a b c : Nat} : 0xE0 ≤ a → a < 0xF0 → 0x80 ≤ b → b < 0xC0 → 0x80 ≤ c → c < 0xC0 →
      Shape [a, b, c] ((a - 0xE0) * 4096 + (b - 0x80) * 64 + (c - 0x80))
  | four {a b c d : Nat} : 0xF0 ≤ a → a < 0xF5 → 0x80 ≤ b → b < 0xC0 → 0x80 ≤ c → c < 0xC0 → 0x80 ≤ d → d < 0xC0 →
      Shape [a, b, c, d] ((a - 0xF0) * 262144 + (b - 0x80) * 4096 + (c - 0x80) * 64 + (d - 0x80))

/-- The ill-formed sequences of the right shape (Unicode standard, table 3-7): overlong (E0 80..9F, F0 80..8F), surrogates (ED A0..BF), above U+10FFFF
(F4 90..BF). -/
def Lenient : List Nat → Prop
  | a :: b :: _ => (a = 0xE0 ∧ b < 0xA0) ∨ (a = 0xED ∧ 0xA0 ≤ b) ∨ (a = 0xF0 ∧ b < 0x90) ∨ (a = 0xF4 ∧ 0x90 ≤ b)
  | _ => False

/-- UTF-16 (big-endian bytes) of a scalar value. -/
def encode16be (c : Nat) : List Nat :=
  if c < 0x10000 then [c / 256, c % 256]
  else [0xD8 + (c - 0x10000) / 1024 / 256, (c - 0x10000) / 1024 % 256, 0xDC + (c - 0x10000) % 1024 / 256, (c - 0x10000) % 1024 % 256]

/-- UTF-16 (little-endian bytes) of a scalar value. -/
def encode16le (c : Nat) : List Nat :=
  if c < 0x10000 then [c % 256, c / 256]
  else [(c - 0x10000) / 1024 % 256, 0xD8 + (c - 0x10000) / 1024 / 256, (c - 0x10000) % 1024 % 256, 0xDC + (c - 0x10000) % 1024 / 256]

def encode32be (c : Nat) : List Nat := [c / 16777216, c / 65536 % 256, c / 256 % 256, c % 256]
def encode32le (c : Nat) : List Nat := [c % 256, c / 256 % 256, c / 65536 % 256, c / 16777216]

end Verif.Text.Spec

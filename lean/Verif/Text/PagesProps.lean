import Verif.Text.Pages
import Verif.Text.PagesSpec
import Verif.Text.CodecProps

/-!
# C118: single-byte encodings
-/

namespace Verif.Text

open Spec

namespace Spec
/-- The encodings by their runs -/
def runsOf : Page → List (Nat × Nat × Nat)
  | .cp1251 => runs_cp1251
  | .iso2 => runs_iso2
  | .iso3 => runs_iso3
  | .iso4 => runs_iso4
  | .iso5 => runs_iso5
  | .iso6 => runs_iso6
  | .iso7 => runs_iso7
  | .iso8 => runs_iso8
  | .iso9 => runs_iso9
  | .iso10 => runs_iso10
  | .iso11 => runs_iso11
  | .iso13 => runs_iso13
  | .iso14 => runs_iso14
  | .iso15 => runs_iso15
  | .iso16 => runs_iso16

/-- The character of a byte in an encoding, if it has one -/
def standard (p : Page) (b : Nat) : Option Nat := decodeRuns (runsOf p) b

/-- The bytes without a character for which the library does not give the replacement -/
def Odd : Page → Nat → Prop
  | .cp1251, b => b = 0x98
  | .iso7, b => b = 0xae ∨ b = 0xd2 ∨ b = 0xff
  | .iso8, b => b = 0xa1 ∨ 0xbf ≤ b ∧ b < 0xdf ∨ b = 0xfb ∨ b = 0xfc ∨ b = 0xff
  | .iso11, b => b = 0xdd ∨ 0xfc ≤ b
  | _, _ => False

instance : ∀ p b, Decidable (Odd p b)
  | .cp1251, _ => inferInstanceAs (Decidable (_ = _))
  | .iso7, _ => inferInstanceAs (Decidable (_ ∨ _))
  | .iso8, _ => inferInstanceAs (Decidable (_ ∨ _))
  | .iso11, _ => inferInstanceAs (Decidable (_ ∨ _))
  | .iso2, _ | .iso3, _ | .iso4, _ | .iso5, _ | .iso6, _ | .iso9, _ | .iso10, _ | .iso13, _ | .iso14, _ | .iso15, _ | .iso16, _ =>
    inferInstanceAs (Decidable False)
end Spec

/-- The whole table of every encoding, byte by byte -/
theorem unpackByte_standard (p : Page) {b : Nat} (hb : b < 256) (ho : ¬ Odd p b) : unpackByte p b = standard p b := by
  revert b
  cases p <;> decide +kernel

/-- The bytes left out are bytes without a character -/
theorem odd_undefined (p : Page) {b : Nat} (hb : b < 256) (ho : Odd p b) : standard p b = none := by
  revert b
  cases p <;> decide +kernel

theorem standard_lt (p : Page) {b c : Nat} (hb : b < 256) (h : standard p b = some c) : Scalar c := by
  have : ∀ b, b < 256 → ((standard p b).all fun c => c < 0xD800) = true := by
    cases p <;> decide +kernel
  have := this b hb
  rw [h] at this
  exact .inl (of_decide_eq_true this)

theorem convert_page (p : Page) (repl : Nat) (s : List Nat) (n : Nat) (hn : s.length < n) :
    convert (unpackPage p) repl n s = some (s.flatMap fun b => packUtf8 ((unpackByte p b).getD repl) repl) := by
  induction s generalizing n with
  | nil =>
    cases n with
    | zero => cases hn
    | succ n => rfl
  | cons b s ih =>
    cases n with
    | zero => cases hn
    | succ n =>
      rw [convert, if_neg (by simp)]
      show (convert (unpackPage p) repl n s).map _ = _
      rw [ih n (by simpa using hn)]
      rfl

/-- **C118.** `ToUtf8` of any byte string in a single-byte encoding is the UTF-8 text of its characters, with the replacement for the bytes that have none.
Missing from the full claim: the bytes `Odd`, which have none either (refuted below) -/
theorem page_to_utf8_partial (p : Page) {s : List Nat} (hs : Bytes s) (ho : ∀ b ∈ s, ¬ Odd p b) {repl : Nat} (hr : repl < 0x110000) :
    toUtf8Page p s repl = some (text (s.map fun b => (standard p b).getD repl)) := by
  rw [toUtf8Page, convert_page p repl s _ (by omega), text, List.flatMap_map]
  congr 1
  induction s with
  | nil => rfl
  | cons b s ih =>
    rw [List.flatMap_cons, List.flatMap_cons, ih (fun x hx => hs x (List.mem_cons_of_mem _ hx)) (fun x hx => ho x (List.mem_cons_of_mem _ hx))]
    congr 1
    have hb := hs b (List.mem_cons_self ..)
    rw [unpackByte_standard p hb (ho b (List.mem_cons_self ..))]
    apply pack_encode
    cases h : standard p b with
    | none => exact hr
    | some c => have := standard_lt p hb h; unfold Scalar at this; show c < _; omega

/-- Runs with different characters in them -/
def apartRuns (runs : List (Nat × Nat × Nat)) : Bool :=
  runs.all fun r => 0x80 ≤ r.2.2 && runs.all fun t => r == t || (r.2.2 + r.2.1 ≤ t.2.2 || t.2.2 + t.2.1 ≤ r.2.2)

theorem decodeRuns_injective {runs : List (Nat × Nat × Nat)} (h : apartRuns runs = true) {a b c : Nat} (h1 : decodeRuns runs a = some c)
    (h2 : decodeRuns runs b = some c) : a = b := by
  have key : ∀ r ∈ runs, 0x80 ≤ r.2.2 ∧ ∀ t ∈ runs, r = t ∨ r.2.2 + r.2.1 ≤ t.2.2 ∨ t.2.2 + t.2.1 ≤ r.2.2 := by
    intro r hr
    have h3 := List.all_eq_true.mp h r hr
    rw [Bool.and_eq_true] at h3
    refine ⟨of_decide_eq_true h3.1, fun t ht => ?_⟩
    have h4 := List.all_eq_true.mp h3.2 t ht
    rw [Bool.or_eq_true, Bool.or_eq_true] at h4
    rcases h4 with h4 | h4 | h4
    · exact .inl (eq_of_beq h4)
    · exact .inr (.inl (of_decide_eq_true h4))
    · exact .inr (.inr (of_decide_eq_true h4))
  have run : ∀ {x : Nat}, decodeRuns runs x = some c → (x < 0x80 ∧ c = x) ∨
      ∃ r ∈ runs, r.1 ≤ x ∧ x < r.1 + r.2.1 ∧ c = r.2.2 + (x - r.1) := by
    intro x hx
    rw [decodeRuns] at hx
    split at hx
    · rename_i hlt; cases hx; exact .inl ⟨hlt, rfl⟩
    · obtain ⟨r, hr, e⟩ := Option.map_eq_some_iff.mp hx
      have := List.find?_some hr
      rw [Bool.and_eq_true] at this
      exact .inr ⟨r, List.mem_of_find?_eq_some hr, of_decide_eq_true this.1, of_decide_eq_true this.2, e.symm⟩
  rcases run h1 with ⟨l1, e1⟩ | ⟨r, hr, a1, a2, a3⟩ <;> rcases run h2 with ⟨l2, e2⟩ | ⟨t, ht, b1, b2, b3⟩
  · omega
  · have := (key t ht).1; omega
  · have := (key r hr).1; omega
  · rcases (key r hr).2 t ht with rfl | h3 | h3 <;> omega

/-- Distinct bytes have distinct characters, so nothing is lost in the conversion -/
theorem standard_injective (p : Page) {a b c : Nat} (h1 : standard p a = some c) (h2 : standard p b = some c) : a = b :=
  decodeRuns_injective (by cases p <;> decide +kernel) h1 h2

/-- Every encoding contains ASCII -/
theorem page_ascii (p : Page) {b : Nat} (hb : b < 0x80) : unpackByte p b = some b := by
  have : ¬ Odd p b := by cases p <;> first | exact id | (simp only [Odd]; omega)
  rw [unpackByte_standard p (by omega) this, standard, decodeRuns, if_pos hb]

/-- The bytes without a character are converted to U+0000 (in CP1251 this cuts C strings), to U+FFFD, or to unassigned characters, rather than to the
replacement asked for -/
theorem page_undefined_violated :
    (standard .cp1251 0x98 = none ∧ toUtf8Page .cp1251 [0x41, 0x98, 0x42] 0x3f = some [0x41, 0, 0x42]) ∧
    (standard .iso7 0xae = none ∧ toUtf8Page .iso7 [0xae] 0x3f = some (text [0xfffd])) ∧
    (standard .iso8 0xa1 = none ∧ toUtf8Page .iso8 [0xa1] 0x3f = some (text [0xfffd])) ∧
    (standard .iso11 0xdd = none ∧ toUtf8Page .iso11 [0xdd] 0x3f = some (text [0xe3d])) := by decide +kernel

-- the hypotheses of the theorem are met, with and without replacement
example : Bytes [0x41, 0xa1, 0xa5] ∧ (∀ b ∈ [0x41, 0xa1, 0xa5], ¬ Odd .iso3 b) ∧
    toUtf8Page .iso3 [0x41, 0xa1, 0xa5] 0x3f = some (text [0x41, 0x126, 0x3f]) := by
  refine ⟨?_, ?_, ?_⟩
  · intro b hb; simp at hb; omega
  · intro b _; simp [Odd]
  · decide +kernel
-- "Привет" in CP1251
example : toUtf8Page .cp1251 [0xcf, 0xf0, 0xe8, 0xe2, 0xe5, 0xf2] 0x3f = some (text [0x41f, 0x440, 0x438, 0x432, 0x435, 0x442]) := by decide +kernel

end Verif.Text

import Verif.Regex.Numeric
import Verif.Regex.Spec
import Verif.Str.IntsProps
import Verif.Math.Props

namespace Verif.Regex
open Spec

/-- All digits. -/
def Digits (s : List Char) : Prop := ∀ c ∈ s, Digit c

theorem digits_append {a b : List Char} : Digits (a ++ b) ↔ Digits a ∧ Digits b := by simp [Digits, or_imp, forall_and]
theorem digits_cons {c : Char} {b : List Char} : Digits (c :: b) ↔ Digit c ∧ Digits b := by simp [Digits]
theorem digits_nil : Digits [] := by simp [Digits]

/-- The value of a digit. -/
def dv (c : Char) : Nat := c.toNat - 48

theorem digit_iff (c : Char) : Digit c ↔ 48 ≤ c.toNat ∧ c.toNat ≤ 57 := by
  unfold Digit
  rw [Char.le_def, Char.le_def, UInt32.le_iff_toNat_le, UInt32.le_iff_toNat_le]
  exact Iff.rfl

theorem char_le_iff (a b : Char) : a ≤ b ↔ a.toNat ≤ b.toNat := by
  rw [Char.le_def, UInt32.le_iff_toNat_le]; exact Iff.rfl

theorem digit_isDigit (c : Char) : Digit c ↔ Str.isDigit c = true := by
  rw [digit_iff]; simp [Str.isDigit]

theorem dv_lt {c : Char} (h : Digit c) : dv c < 10 := by
  have := (digit_iff c).mp h; unfold dv; omega

theorem dv_inj {a b : Char} (ha : Digit a) (hb : Digit b) (h : dv a = dv b) : a = b := by
  have := (digit_iff a).mp ha; have := (digit_iff b).mp hb
  unfold dv at h
  apply Char.ext; apply UInt32.toNat_inj.mp
  show a.toNat = b.toNat
  omega

theorem fold_eq (s : List Char) : ∀ a : Nat, s.foldl (fun v c => v * 10 + (c.toNat - '0'.toNat)) a = a * 10 ^ s.length + value s := by
  unfold value
  induction s with
  | nil => intro a; simp
  | cons c s ih =>
    intro a
    simp only [List.foldl_cons, List.length_cons]
    rw [ih, ih (0 * 10 + _), Nat.pow_succ, Nat.add_mul, Nat.mul_comm (10 ^ s.length) 10, ← Nat.mul_assoc]
    simp [Nat.add_assoc]

theorem value_cons (c : Char) (s : List Char) : value (c :: s) = dv c * 10 ^ s.length + value s := by
  have := fold_eq s (0 * 10 + (c.toNat - '0'.toNat))
  unfold value at *
  rw [List.foldl_cons, this]
  simp [dv]

theorem value_append (a b : List Char) : value (a ++ b) = value a * 10 ^ b.length + value b := by
  have := fold_eq b (value a)
  unfold value at *
  rw [List.foldl_append, this]

theorem value_nil : value [] = 0 := rfl

theorem value_lt {s : List Char} (h : Digits s) : value s < 10 ^ s.length := by
  induction s with
  | nil => simp [value_nil]
  | cons c s ih =>
    obtain ⟨hc, hs⟩ := digits_cons.mp h
    rw [value_cons, List.length_cons, Nat.pow_succ]
    have := ih hs
    have h1 : dv c * 10 ^ s.length ≤ 9 * 10 ^ s.length := Nat.mul_le_mul_right _ (by have := dv_lt hc; omega)
    omega

theorem value_inj {s t : List Char} (hs : Digits s) (ht : Digits t) (hl : s.length = t.length) (hv : value s = value t) : s = t := by
  induction s generalizing t with
  | nil => cases t with
    | nil => rfl
    | cons _ _ => simp at hl
  | cons c s ih =>
    cases t with
    | nil => simp at hl
    | cons d t =>
      obtain ⟨hc, hs⟩ := digits_cons.mp hs
      obtain ⟨hd, ht⟩ := digits_cons.mp ht
      simp only [List.length_cons, Nat.add_right_cancel_iff] at hl
      rw [value_cons, value_cons, hl] at hv
      have h1 := value_lt hs
      have h2 := value_lt ht
      rw [hl] at h1
      have e : dv c = dv d := by
        have a1 : (dv c * 10 ^ t.length + value s) / 10 ^ t.length = dv c := by
          rw [Nat.mul_comm, Nat.mul_add_div (by omega), Nat.div_eq_of_lt h1, Nat.add_zero]
        have a2 : (dv d * 10 ^ t.length + value t) / 10 ^ t.length = dv d := by
          rw [Nat.mul_comm, Nat.mul_add_div (by omega), Nat.div_eq_of_lt h2, Nat.add_zero]
        rw [← a1, ← a2, hv]
      rw [e] at hv
      rw [dv_inj hc hd e, ih hs ht hl (by omega)]

theorem digit_zero : Digit '0' := by rw [digit_iff]; decide

theorem digits_zeros (n : Nat) : Digits (List.replicate n '0') := by
  intro c hc; rw [(List.mem_replicate.mp hc).2]; exact digit_zero

theorem value_zeros (n : Nat) (s : List Char) : value (List.replicate n '0' ++ s) = value s := by
  induction n with
  | zero => rfl
  | succ n ih => rw [List.replicate_succ, List.cons_append, value_cons, ih]; simp [dv]

theorem decimal_fold (s : List Char) (h : Digits s) : ∀ a : Nat, s.foldl (fun a c => a * 10 + Str.digitVal c) (a : Int) =
    ((s.foldl (fun v c => v * 10 + (c.toNat - '0'.toNat)) a : Nat) : Int) := by
  induction s with
  | nil => intro a; rfl
  | cons c s ih =>
    intro a
    obtain ⟨hc, hs⟩ := digits_cons.mp h
    have := (digit_iff c).mp hc
    have e : '0'.toNat = 48 := by decide
    rw [List.foldl_cons, List.foldl_cons, ← ih hs]
    congr 1
    simp only [Str.digitVal]
    omega

theorem decimal_value {s : List Char} (h : Digits s) : Str.decimal s = (value s : Int) := decimal_fold s h 0

theorem text_spec {v : Nat} (hv : v ≤ maxValue) : Digits (text v) ∧ value (text v) = v ∧ text v ≠ [] ∧ ((text v).head? = some '0' → text v = ['0']) ∧
    (∀ k, v < 10 ^ k → 0 < k → (text v).length ≤ k) := by
  unfold maxValue at hv
  obtain ⟨ds, a, b, c, d, e, f⟩ := Str.insertIntegral_spec 32 v [] (by omega) (by omega)
  have ht : text v = ds := by
    unfold text Str.toText
    rw [if_neg (by omega), Int.toNat_natCast, a]; simp
  rw [ht]
  have hd : Digits ds := fun x hx => (digit_isDigit x).mpr (List.all_eq_true.mp c x hx)
  refine ⟨hd, ?_, b, fun h => (e h).2, f⟩
  rw [decimal_value hd] at d
  exact_mod_cast d

theorem text_length {v k : Nat} (hv : v ≤ maxValue) (h1 : 10 ^ k ≤ v) (h2 : v < 10 ^ (k + 1)) : (text v).length = k + 1 := by
  obtain ⟨a, b, _, _, e⟩ := text_spec hv
  have := e _ h2 (by omega)
  have h3 := value_lt a
  rw [b] at h3
  have : k < (text v).length := (Nat.pow_lt_pow_iff_right (a := 10) (by omega)).mp (by omega)
  omega

theorem text_digit {q : Nat} (h : q < 10) : ∃ c, text q = [c] ∧ Digit c ∧ dv c = q := by
  obtain ⟨a, b, c, _, e⟩ := text_spec (v := q) (by unfold maxValue; omega)
  have hl := e 1 (by omega) (by omega)
  match ht : text q, c with
  | [c], _ =>
    rw [ht] at a b
    exact ⟨c, rfl, a c (by simp), by rw [value_cons, value_nil] at b; simpa using b⟩
  | _ :: _ :: _, _ => rw [ht] at hl; simp at hl

/-! ### Matching -/

/-- Only characters that separate nothing. -/
def Plain (r : List Char) : Prop := ∀ c ∈ r, Digit c ∨ c = '[' ∨ c = ']' ∨ c = '-'

theorem plain_digits {r : List Char} (h : Digits r) : Plain r := fun c hc => .inl (h c hc)
theorem plain_append {a b : List Char} : Plain (a ++ b) ↔ Plain a ∧ Plain b := by simp [Plain, or_imp, forall_and]

theorem plain_no {r : List Char} (h : Plain r) {x : Char} (hx : x = '|' ∨ x = '(' ∨ x = ')') : x ∉ r := by
  intro hm
  have := h x hm
  rw [digit_iff] at this
  rcases hx with rfl | rfl | rfl <;> revert this <;> decide

theorem bracket_not_digit : ¬ Digit '[' := by rw [digit_iff]; decide
theorem dash_not_digit : ¬ Digit '-' := by rw [digit_iff]; decide
theorem close_not_digit : ¬ Digit ']' := by rw [digit_iff]; decide

theorem seq_nil (s : List Char) : Seq [] s ↔ s = [] :=
  ⟨fun h => by cases h; rfl, fun h => by rw [h]; exact .nil⟩

theorem seq_digit {c : Char} (hc : Digit c) (r s : List Char) : Seq (c :: r) s ↔ ∃ t, s = c :: t ∧ Seq r t := by
  constructor
  · intro h
    cases h with
    | digit _ h => exact ⟨_, rfl, h⟩
    | range => exact absurd hc bracket_not_digit
    | pair => exact absurd hc bracket_not_digit
  · rintro ⟨t, rfl, h⟩; exact .digit hc h

theorem seq_digits {d : List Char} (hd : Digits d) (r s : List Char) : Seq (d ++ r) s ↔ ∃ t, s = d ++ t ∧ Seq r t := by
  induction d generalizing s with
  | nil => simp
  | cons c d ih =>
    obtain ⟨hc, hd⟩ := digits_cons.mp hd
    rw [List.cons_append, seq_digit hc]
    constructor
    · rintro ⟨t, rfl, h⟩
      obtain ⟨u, hu, h'⟩ := (ih hd t).mp h
      exact ⟨u, by rw [hu]; rfl, h'⟩
    · rintro ⟨t, rfl, h⟩
      exact ⟨d ++ t, rfl, (ih hd _).mpr ⟨t, rfl, h⟩⟩

theorem seq_range {a b : Char} (ha : Digit a) (hb : Digit b) (r s : List Char) :
    Seq ('[' :: a :: '-' :: b :: ']' :: r) s ↔ ∃ c t, s = c :: t ∧ a ≤ c ∧ c ≤ b ∧ Seq r t := by
  constructor
  · intro h
    cases h with
    | digit hc h => exact absurd hc bracket_not_digit
    | range _ _ h1 h2 h => exact ⟨_, _, rfl, h1, h2, h⟩
    | pair => exact absurd hb close_not_digit
  · rintro ⟨c, t, rfl, h1, h2, h⟩; exact .range ha hb h1 h2 h

theorem seq_pair {a b : Char} (ha : Digit a) (hb : Digit b) (r s : List Char) :
    Seq ('[' :: a :: b :: ']' :: r) s ↔ ∃ c t, s = c :: t ∧ (c = a ∨ c = b) ∧ Seq r t := by
  constructor
  · intro h
    cases h with
    | digit hc h => exact absurd hc bracket_not_digit
    | range => exact absurd hb dash_not_digit
    | pair _ _ h1 h => exact ⟨_, _, rfl, h1, h⟩
  · rintro ⟨c, t, rfl, h1, h⟩; exact .pair ha hb h1 h

/-- A class or a digit. -/
theorem seq_quotient {a b : Nat} (hab : a ≤ b) (hb : b < 10) (r s : List Char) :
    Seq (quotientRegex a b ++ r) s ↔ ∃ c t, s = c :: t ∧ Digit c ∧ a ≤ dv c ∧ dv c ≤ b ∧ Seq r t := by
  obtain ⟨x, hx, dx, vx⟩ := text_digit (q := a) (by omega)
  obtain ⟨y, hy, dy, vy⟩ := text_digit hb
  have ix := (digit_iff x).mp dx
  have iy := (digit_iff y).mp dy
  unfold quotientRegex
  rw [hx, hy]
  unfold dv at vx vy
  by_cases e : a = b
  · rw [if_pos e, List.singleton_append, seq_digit dx]
    constructor
    · rintro ⟨t, rfl, h⟩; exact ⟨x, t, rfl, dx, by unfold dv; omega, by unfold dv; omega, h⟩
    · rintro ⟨c, t, rfl, hc, h1, h2, h⟩
      have ic := (digit_iff c).mp hc
      refine ⟨t, ?_, h⟩
      rw [dv_inj hc dx (by unfold dv at *; omega)]
  · rw [if_neg e]
    by_cases e1 : a + 1 = b
    · rw [if_pos e1]
      simp only [List.append_nil, List.cons_append, List.nil_append]
      rw [seq_pair dx dy]
      constructor
      · rintro ⟨c, t, rfl, h1, h⟩
        refine ⟨c, t, rfl, ?_⟩
        rcases h1 with rfl | rfl
        · exact ⟨dx, by unfold dv; omega, by unfold dv; omega, h⟩
        · exact ⟨dy, by unfold dv; omega, by unfold dv; omega, h⟩
      · rintro ⟨c, t, rfl, hc, h1, h2, h⟩
        refine ⟨c, t, rfl, ?_, h⟩
        have ic := (digit_iff c).mp hc
        unfold dv at h1 h2
        by_cases h3 : c.toNat = x.toNat
        · exact .inl (dv_inj hc dx (by unfold dv; omega))
        · exact .inr (dv_inj hc dy (by unfold dv; omega))
    · rw [if_neg e1]
      simp only [List.append_nil, List.cons_append, List.nil_append]
      rw [seq_range dx dy]
      simp only [char_le_iff]
      constructor
      · rintro ⟨c, t, rfl, h1, h2, h⟩
        exact ⟨c, t, rfl, (digit_iff c).mpr (by omega), by unfold dv; omega, by unfold dv; omega, h⟩
      · rintro ⟨c, t, rfl, hc, h1, h2, h⟩
        have ic := (digit_iff c).mp hc
        unfold dv at h1 h2
        exact ⟨c, t, rfl, by omega, by omega, h⟩

theorem plain_quotient {a b : Nat} (ha : a < 10) (hb : b < 10) : Plain (quotientRegex a b) := by
  obtain ⟨x, hx, dx, _⟩ := text_digit ha
  obtain ⟨y, hy, dy, _⟩ := text_digit hb
  unfold quotientRegex
  rw [hx, hy]
  intro c hc
  split at hc
  · simp at hc; rw [hc]; exact .inl dx
  · split at hc <;> simp at hc
    · rcases hc with rfl | rfl | rfl | rfl <;> simp [dx, dy]
    · rcases hc with rfl | rfl | rfl | rfl | rfl <;> simp [dx, dy]

/-- A text of digits is zeros, a digit and the rest, if its value is small. -/
theorem split_digits {t : List Char} {z k : Nat} (hd : Digits t) (hl : t.length = z + 1 + k) (hv : value t < 10 ^ (k + 1)) :
    ∃ c u, t = List.replicate z '0' ++ c :: u ∧ Digit c ∧ Digits u ∧ u.length = k := by
  have e : t = t.take z ++ t.drop z := (List.take_append_drop z t).symm
  have hl2 : (t.drop z).length = k + 1 := by rw [List.length_drop]; omega
  have hdd := hd
  rw [e, digits_append] at hdd
  have hz : t.take z = List.replicate z '0' := by
    apply value_inj hdd.1 (digits_zeros z)
    · rw [List.length_take, List.length_replicate]; omega
    · have h0 := value_zeros z []
      rw [List.append_nil] at h0
      rw [h0, value_nil]
      rw [e, value_append, hl2] at hv
      rcases Nat.eq_zero_or_pos (value (t.take z)) with h | h
      · exact h
      · exfalso
        have : 1 * 10 ^ (k + 1) ≤ value (t.take z) * 10 ^ (k + 1) := Nat.mul_le_mul_right _ h
        omega
  match h : t.drop z with
  | [] => rw [h] at hl2; simp at hl2
  | c :: u =>
    rw [h] at hl2 hdd
    obtain ⟨h1, h2⟩ := digits_cons.mp hdd.2
    exact ⟨c, u, by rw [e, hz, h], h1, h2, by simpa using hl2⟩

/-- Comparison of numbers by quotient and remainder. -/
theorem lex_le {P q a c v : Nat} (ha : a < P) (hv : v < P) : q * P + a ≤ c * P + v ↔ q < c ∨ (q = c ∧ a ≤ v) := by
  rcases Nat.lt_trichotomy q c with h | h | h
  · have : (q + 1) * P ≤ c * P := Nat.mul_le_mul_right _ h
    rw [Nat.add_mul] at this
    exact ⟨fun _ => .inl h, fun _ => by omega⟩
  · subst h; omega
  · have : (c + 1) * P ≤ q * P := Nat.mul_le_mul_right _ h
    rw [Nat.add_mul] at this
    exact ⟨fun _ => by omega, fun _ => by omega⟩

end Verif.Regex

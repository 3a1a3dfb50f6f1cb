import Verif.Regex.TwoProps

/-
C147.  The expression made by `GenerateNumericRangeRegex` matches exactly the decimal texts of the numbers of the range.
-/
namespace Verif.Regex
open Spec

theorem head_zero {s : List Char} (hd : Digits s) : Wide 0 s ↔ s ≠ [] ∧ (s.head? = some '0' → s = ['0']) := by
  constructor
  · rintro ⟨a, _, c⟩
    refine ⟨c, fun h => ?_⟩
    match s, c with
    | x :: u, _ =>
      simp only [List.head?_cons, Option.some.injEq] at h
      subst h
      cases u with
      | nil => rfl
      | cons y u =>
        exfalso
        have hu := (digits_cons.mp hd).2
        have hv := value_lt hu
        have := a (y :: u).length (by simp) (by rw [value_cons]; simpa [dv] using hv)
        simp at this
        omega
  · rintro ⟨h1, h2⟩
    refine ⟨fun j hj hv => ?_, Nat.zero_le _, h1⟩
    match s, h1 with
    | x :: u, _ =>
      by_cases hx : x = '0'
      · subst hx
        rw [h2 rfl]
        simp; omega
      · have hxd := (digits_cons.mp hd).1
        have hpos : 1 ≤ dv x := by
          rcases Nat.eq_zero_or_pos (dv x) with h | h
          · exact absurd (dv_inj hxd digit_zero (by rw [h]; decide)) hx
          · exact h
        rw [value_cons] at hv
        have : 1 * 10 ^ u.length ≤ dv x * 10 ^ u.length := Nat.mul_le_mul_right _ hpos
        have : u.length < j := (Nat.pow_lt_pow_iff_right (a := 10) (by omega)).mp (by omega)
        simp; omega

theorem alternatives_plain {r : Text} (h : '|' ∉ r) : alternatives r = [r] := by
  induction r with
  | nil => rfl
  | cons c r ih =>
    rw [List.mem_cons, not_or] at h
    rw [alternatives]
    · rw [ih h.2]
    · exact fun hc => h.1 hc.symm

theorem alternatives_bar {r : Text} (h : '|' ∉ r) (q : List Char) : alternatives (r ++ '|' :: q) = r :: alternatives q := by
  induction r with
  | nil => rfl
  | cons c r ih =>
    rw [List.mem_cons, not_or] at h
    rw [List.cons_append, alternatives]
    · rw [ih h.2]
    · exact fun hc => h.1 hc.symm

theorem alternatives_joined : ∀ {rs : List Text}, rs ≠ [] → (∀ r ∈ rs, Plain r) → alternatives (joined rs) = rs
  | [r], _, h => by rw [joined]; exact alternatives_plain (plain_no (h r (by simp)) (by simp))
  | r :: q :: rs, _, h => by
    rw [joined, alternatives_bar (plain_no (h r (by simp)) (by simp)), alternatives_joined (by simp) (fun r hr => h r (by simp [hr]))]
    simp

theorem joined_no {rs : List Text} (h : ∀ r ∈ rs, Plain r) {x : Char} (hx : x = '(' ∨ x = ')' ∨ x = '?') : x ∉ joined rs := by
  have hno : ∀ {r : Text}, Plain r → x ∉ r := by
    intro r hr hm
    have := hr x hm
    rw [digit_iff] at this
    rcases hx with rfl | rfl | rfl <;> revert this <;> decide
  match rs with
  | [] => simp [joined]
  | [r] => rw [joined]; exact hno (h r (by simp))
  | r :: q :: rs =>
    rw [joined]
    · intro hm
      rcases List.mem_append.mp hm with hm | hm
      · exact hno (h r (by simp)) hm
      · rcases List.mem_cons.mp hm with hm | hm
        · rcases hx with rfl | rfl | rfl <;> simp at hm
        · exact joined_no (fun r hr => h r (by simp [hr])) hx hm
    · simp
termination_by rs.length

theorem body_capture {b : List Char} (h : '?' ∉ b) : body ('(' :: (b ++ [')'])) = b := by
  rw [body]
  · simp
  · intro r hr
    cases b with
    | nil => simp at hr
    | cons x b =>
      simp only [List.cons_append, List.cons.injEq] at hr
      exact h (by rw [hr.1]; simp)

theorem body_plain {b : List Char} (h : '(' ∉ b) : body b = b := by
  unfold body
  split
  · simp at h
  · simp at h
  · rfl

/-- What is generated: alternatives for exactly the numbers of the range, longer texts first. -/
theorem generated {start last : Nat} (group : Bool) (h : start ≤ last) (hl : last < 2 ^ 64) :
    ∃ re as, generate start last group = some re ∧ alternatives (body re) = as ∧ WellFormed re ∧
      (re.head? = some '(' → (group = true → re[1]? ≠ some '?') ∧ (group = false → re[1]? = some '?')) ∧
      (group = true → re.head? = some '(') ∧
      (∀ s, (∃ a ∈ as, Seq a s) ↔ ∃ n, start ≤ n ∧ n ≤ last ∧ Decimal s n) ∧
      (as.Pairwise fun a b => ∀ x y, Seq a x → Seq b y → y.length ≤ x.length) := by
  obtain ⟨rs, a, b, c, d, f⟩ := one_top (two := stageTwo 20) h (by unfold maxValue; omega) (fun j hj => two_ok 20 j (by omega) hj)
  have hlang : ∀ s, (∃ a ∈ rs.reverse, Seq a s) ↔ ∃ n, start ≤ n ∧ n ≤ last ∧ Decimal s n := by
    intro s
    have : (∃ a ∈ rs.reverse, Seq a s) ↔ Lang rs s := by simp [Lang]
    rw [this, d]
    constructor
    · rintro ⟨h1, h2, h3, h4⟩
      obtain ⟨h5, h6⟩ := (head_zero h1).mp h2
      exact ⟨value s, h3, h4, h5, h1, rfl, h6⟩
    · rintro ⟨n, h1, h2, h3, h4, h5, h6⟩
      exact ⟨h4, (head_zero h4).mpr ⟨h3, h6⟩, by omega, by omega⟩
  have hpw : rs.reverse.Pairwise fun a b => ∀ x y, Seq a x → Seq b y → y.length ≤ x.length := by
    rw [List.pairwise_reverse]
    exact f.imp (fun {a b} hab x y hx hy => hab y x hy hx)
  have hpr : ∀ r ∈ rs.reverse, Plain r := fun r hr => c r (by simpa using hr)
  have hne : rs.reverse ≠ [] := by simpa using b
  unfold generate
  rw [if_neg (by omega), a]
  simp only []
  by_cases h1 : rs.length = 1 ∧ group = false
  · rw [if_pos h1]
    match rs, h1.1 with
    | [r], _ =>
      have hp := c r (by simp)
      have hb : body r = r := body_plain (plain_no hp (by simp))
      have hh : r.head? ≠ some '(' := fun hh => plain_no hp (x := '(') (by simp) (List.mem_of_mem_head? (by rw [hh]; rfl))
      refine ⟨r, [r], rfl, ?_, ⟨by rw [hb]; exact ⟨plain_no hp (by simp), plain_no hp (by simp)⟩, fun h => absurd h hh⟩, fun h => absurd h hh,
        fun hg => by rw [hg] at h1; simp at h1, ?_, hpw⟩
      · rw [hb]; exact alternatives_plain (plain_no hp (by simp))
      · exact hlang
  · rw [if_neg h1]
    have n1 := joined_no hpr (x := '(') (by simp)
    have n2 := joined_no hpr (x := ')') (by simp)
    have n3 := joined_no hpr (x := '?') (by simp)
    cases group with
    | true =>
      refine ⟨_, rs.reverse, rfl, ?_, ⟨?_, fun _ => List.getLast?_concat⟩, fun _ => ⟨fun _ hc => ?_, by simp⟩, fun _ => by simp, hlang, hpw⟩
      · simp only [if_true, List.cons_append, List.nil_append]
        rw [body_capture n3]
        exact alternatives_joined hne hpr
      · simp only [if_true, List.cons_append, List.nil_append]
        rw [body_capture n3]
        exact ⟨n1, n2⟩
      · simp only [if_true, List.cons_append, List.nil_append, List.getElem?_cons_succ] at hc
        have := List.mem_of_getElem? hc
        simp at this
        exact n3 this
    | false =>
      refine ⟨_, rs.reverse, rfl, ?_, ⟨?_, fun _ => List.getLast?_concat⟩, fun _ => ⟨by simp, fun _ => by simp⟩, by simp, hlang, hpw⟩
      · simp only [Bool.false_eq_true, if_false, List.cons_append, List.nil_append, body, List.dropLast_concat]
        exact alternatives_joined hne hpr
      · simp only [Bool.false_eq_true, if_false, List.cons_append, List.nil_append, body, List.dropLast_concat]
        exact ⟨n1, n2⟩

/-- C147.  For every range of 64-bit numbers there is an expression, and it matches exactly the decimal texts of the numbers in it. -/
theorem matches_range {start last : Nat} (group : Bool) (h : start ≤ last) (hl : last < 2 ^ 64) :
    ∃ re, generate start last group = some re ∧ ∀ s, Matches re s ↔ ∃ n, start ≤ n ∧ n ≤ last ∧ Decimal s n := by
  obtain ⟨re, as, a, b, c, _, _, d, _⟩ := generated group h hl
  exact ⟨re, a, fun s => by unfold Matches; rw [b, d]; exact ⟨fun h => h.2, fun h => ⟨c, h⟩⟩⟩

/-- C147.  An alternative that can match a longer text comes before: a search finds the longest number there is, not the beginning of it. -/
theorem longest_first {start last : Nat} (group : Bool) (h : start ≤ last) (hl : last < 2 ^ 64) :
    ∃ re, generate start last group = some re ∧
      ∀ (i j : Nat) (a b x y : List Char), i < j → (alternatives (body re))[i]? = some a → (alternatives (body re))[j]? = some b → Seq a x → Seq b y → y.length ≤ x.length := by
  obtain ⟨re, as, a, b, _, _, _, _, d⟩ := generated group h hl
  refine ⟨re, a, fun i j p q x y hij hp hq hx hy => ?_⟩
  rw [b] at hp hq
  obtain ⟨hi, rfl⟩ := List.getElem?_eq_some_iff.mp hp
  obtain ⟨hj, rfl⟩ := List.getElem?_eq_some_iff.mp hq
  exact (List.pairwise_iff_getElem.mp d) i j hi hj hij x y hx hy

/-- C147.  The whole is a capturing group exactly if that is asked for; a range that ends before it begins is refused. -/
theorem group_and_refusal {start last : Nat} (group : Bool) :
    (start ≤ last → last < 2 ^ 64 → ∃ re, generate start last group = some re ∧ ((∃ r, re = '(' :: r ∧ r.head? ≠ some '?') ↔ group = true)) ∧
    (last < start → generate start last group = none) := by
  refine ⟨fun h hl => ?_, fun h => by unfold generate; rw [if_pos (by omega)]⟩
  obtain ⟨re, as, a, _, _, b, c, _, _⟩ := generated group h hl
  refine ⟨re, a, ?_, ?_⟩
  · rintro ⟨r, rfl, hr⟩
    cases group with
    | true => rfl
    | false =>
      have := (b rfl).2 rfl
      rw [List.getElem?_cons_succ, ← List.head?_eq_getElem?] at this
      exact absurd this hr
  · intro hg
    have h1 := c hg
    cases re with
    | nil => simp at h1
    | cons x r =>
      simp only [List.head?_cons, Option.some.injEq] at h1
      subst h1
      refine ⟨r, rfl, ?_⟩
      have := (b rfl).1 hg
      rw [List.getElem?_cons_succ, ← List.head?_eq_getElem?] at this
      exact this

set_option maxRecDepth 100000 in
example : generate 105 9047 false = some "(?:904[0-7]|90[0-3][0-9]|[1-8][0-9][0-9][0-9]|[2-9][0-9][0-9]|1[1-9][0-9]|10[5-9])".toList := by decide
set_option maxRecDepth 100000 in
example : generate 18446744073709551614 18446744073709551615 true = some "(1844674407370955161[45])".toList := by decide
example : Decimal "9001".toList 9001 := ⟨by decide, by simp [Digit], by decide, by decide⟩

end Verif.Regex

import Verif.Regex.Lemmas

namespace Verif.Regex
open Spec

/-- One of the expressions matches. -/
def Lang (rs : List Text) (t : List Char) : Prop := ∃ r ∈ rs, Seq r t

theorem lang_append (a b : List Text) (t : List Char) : Lang (a ++ b) t ↔ Lang a t ∨ Lang b t := by
  simp only [Lang, List.mem_append, or_and_right, exists_or]
theorem lang_nil (t : List Char) : ¬ Lang [] t := by simp [Lang]
theorem lang_one (r : Text) (t : List Char) : Lang [r] t ↔ Seq r t := by simp [Lang]

/-- `base` in round `j`. -/
def bs (j : Nat) : Nat := if j ≤ 19 then 10 ^ j else maxValue
/-- `normalizedBase` in round `j`. -/
def nb (j : Nat) : Nat := if j = 0 then 0 else bs j
/-- The least number with `j + 1` digits. -/
def lw (j : Nat) : Nat := if j = 0 then 0 else 10 ^ j

theorem bs_small {j : Nat} (h : j ≤ 19) : bs j = 10 ^ j := if_pos h
theorem pow19 {j : Nat} (h : j ≤ 19) : 10 ^ j ≤ 10000000000000000000 :=
  Nat.le_trans (Nat.pow_le_pow_right (by omega) h) (by decide)

theorem after_bs {j : Nat} (h : j ≤ 19) : after (bs j) = bs (j + 1) := by
  unfold after bs maxBase maxValue
  rw [if_pos h]
  by_cases h1 : j + 1 ≤ 19
  · rw [if_pos h1]
    have : 10 ^ j ≤ 10 ^ 18 := Nat.pow_le_pow_right (by omega) (by omega)
    rw [if_pos (by omega), Nat.pow_succ]
  · have : j = 19 := by omega
    subst this
    decide

/-- What the second stage does. -/
def TwoOK (two : Nat → Nat → Nat → Nat → Option (List Text)) (k : Nat) : Prop :=
  ∀ md s e, k + 1 ≤ md → s ≤ e → e < 10 ^ (k + 1) → e ≤ maxValue → (s = 0 ∨ lw k ≤ s) → lw k ≤ e →
    ∃ rs, two md (10 ^ k) s e = some rs ∧ rs ≠ [] ∧ (∀ r ∈ rs, Plain r) ∧
      (∀ t, Lang rs t ↔ Digits t ∧ t.length = md ∧ s ≤ value t ∧ value t ≤ e) ∧ (s = 0 → e + 1 = 10 ^ (k + 1) → rs.length = 1)

/-- No more zeros in front than to have `m` digits. -/
def Wide (m : Nat) (t : List Char) : Prop := (∀ j, 1 ≤ j → value t < 10 ^ j → t.length ≤ max m j) ∧ m ≤ t.length ∧ t ≠ []

theorem wide_exact {m j : Nat} {t : List Char} (hd : Digits t) (h1 : lw j ≤ value t) (h2 : value t < 10 ^ (j + 1)) :
    Wide m t ↔ t.length = max m (j + 1) := by
  have hl := value_lt hd
  constructor
  · rintro ⟨a, b, c⟩
    have := a (j + 1) (by omega) h2
    have hp := List.length_pos_iff.mpr c
    rcases Nat.eq_zero_or_pos j with h | h
    · subst h; omega
    · rw [lw, if_neg (by omega)] at h1
      have : j < t.length := (Nat.pow_lt_pow_iff_right (a := 10) (by omega)).mp (by omega)
      omega
  · intro h
    refine ⟨fun i hi hv => ?_, by omega, by intro h0; rw [h0] at h; simp at h; omega⟩
    rcases Nat.eq_zero_or_pos j with h' | h'
    · subst h'; omega
    · rw [lw, if_neg (by omega)] at h1
      have : j < i := (Nat.pow_lt_pow_iff_right (a := 10) (by omega)).mp (by omega)
      omega

theorem wide_small {m : Nat} {t : List Char} (hm : 1 ≤ m) (h : value t < 10 ^ m) : Wide m t ↔ t.length = m := by
  constructor
  · rintro ⟨a, b, _⟩
    have := a m hm h
    omega
  · intro h
    exact ⟨fun i _ _ => by omega, by omega, by intro h0; rw [h0] at h; simp at h; omega⟩

theorem nb_succ (j : Nat) : nb (j + 1) = bs (j + 1) := if_neg (by omega)
theorem lw_succ (j : Nat) : lw (j + 1) = 10 ^ (j + 1) := if_neg (by omega)
theorem nb_lw {j : Nat} (h : j ≤ 19) : nb j = lw j := by unfold nb lw; rw [bs_small h]
theorem lw_lt (j : Nat) : lw j < 10 ^ (j + 1) := by
  have h2 : (10 : Nat) ^ (j + 1) = 10 ^ j * 10 := Nat.pow_succ ..
  have h3 : 0 < 10 ^ j := Nat.pow_pos (by omega)
  unfold lw; split <;> omega

/-- The loop from round `j` on. -/
theorem loop_ok {two : Nat → Nat → Nat → Nat → Option (List Text)} {m s e : Nat} (hse : s ≤ e) (he : e ≤ maxValue) (hm : m ≤ 19)
    (h2 : ∀ j, j ≤ 19 → lw j ≤ e → TwoOK two j) :
    ∀ (rounds j : Nat) (first : Bool), j ≤ 20 → 21 - j ≤ rounds →
      (first = true → lw j ≤ s ∨ (s = 0 ∧ j < m ∧ lw j ≤ e)) → (first = false → s = 0 → m ≤ j ∨ e < lw j) →
      ∃ rs, loop two m s e rounds first (j + 1) (bs j) (nb j) (bs (j + 1)) = some rs ∧ (∀ r ∈ rs, Plain r) ∧
        (∀ t, Lang rs t ↔ Digits t ∧ Wide m t ∧ (if first = true ∧ s = 0 then 0 else max s (lw j)) ≤ value t ∧ value t ≤ e) ∧
        (first = true → lw j ≤ e → rs ≠ []) ∧
        (rs.Pairwise fun a b => ∀ x y, Seq a x → Seq b y → x.length ≤ y.length) ∧
        (∀ r ∈ rs, ∀ x, Seq r x → max m (j + 1) ≤ x.length) ∧
        (first = true → s = 0 → e + 1 = 10 ^ m → j < m → rs.length = 1) ∧ (e < lw j → rs = []) := by
  have hmv : maxValue = 18446744073709551615 := rfl
  have h20 : (10 : Nat) ^ 20 = 100000000000000000000 := by decide
  intro rounds
  induction rounds with
  | zero => intro j first h1 h2; omega
  | succ rounds ih =>
    intro j first hj hr hf hn
    rw [loop]
    by_cases hc : nb j ≤ e ∧ bs j < maxValue
    · have hj19 : j ≤ 19 := by
        rcases Nat.lt_or_ge 19 j with h | h
        · have := hc.2; unfold bs at this; rw [if_neg (by omega)] at this; omega
        · exact h
      rw [nb_lw hj19] at hc
      have hlt := lw_lt j
      have hnext : j < 19 ∧ bs (j + 1) = 10 ^ (j + 1) ∧ 10 ^ (j + 1) < maxValue ∨ j = 19 ∧ bs (j + 1) = maxValue := by
        by_cases h : j + 1 ≤ 19
        · exact .inl ⟨by omega, bs_small h, by have := pow19 h; omega⟩
        · exact .inr ⟨by omega, if_neg h⟩
      -- the argument of the next round does not matter once the loop has ended
      have hafter : ∀ first, loop two m s e rounds first (j + 1 + 1) (bs (j + 1)) (bs (j + 1)) (after (bs (j + 1))) =
          loop two m s e rounds first (j + 1 + 1) (bs (j + 1)) (nb (j + 1)) (bs (j + 1 + 1)) := by
        intro first
        rw [nb_succ]
        rcases hnext with ⟨h, _⟩ | ⟨h, hb⟩
        · rw [after_bs (j := j + 1) (by omega)]
        · rw [hb]
          cases rounds with
          | zero => rfl
          | succ n => rw [loop, loop, if_pos (fun h => by omega), if_pos (fun h => by omega)]
      rw [if_neg (by rw [nb_lw hj19]; exact fun h => h hc)]
      by_cases hs1 : bs (j + 1) ≠ maxValue ∧ s ≥ bs (j + 1)
      · rw [if_pos hs1, hafter]
        have hb : bs (j + 1) = 10 ^ (j + 1) ∧ j < 19 := by
          rcases hnext with h | h
          · exact ⟨h.2.1, h.1⟩
          · exact absurd h.2 hs1.1
        have hs2 := hs1.2
        rw [hb.1] at hs2
        have hs0 : s ≠ 0 := by omega
        obtain ⟨rs, a, b, c, d, f, g, q, w⟩ := ih (j + 1) first (by omega) (by omega) (fun _ => .inl (by rw [lw_succ]; exact hs2)) (fun _ h => absurd h hs0)
        refine ⟨rs, a, b, fun t => ?_, fun h1 h3 => d h1 (by rw [lw_succ]; omega), f, fun r hr x hx => by have := g r hr x hx; omega, fun _ h => absurd h hs0, fun h => by omega⟩
        rw [c, if_neg (fun h => hs0 h.2), if_neg (fun h => hs0 h.2), lw_succ]
        have : max s (10 ^ (j + 1)) = max s (lw j) := by omega
        rw [this]
      · rw [if_neg hs1]
        by_cases hs2 : j + 1 < m ∧ s = 0 ∧ e ≥ bs (j + 1)
        · rw [if_pos hs2, hafter]
          have hb : bs (j + 1) = 10 ^ (j + 1) := bs_small (by omega)
          have hs3 := hs2.2.2
          rw [hb] at hs3
          have hft : first = true := by
            cases first with
            | true => rfl
            | false => rcases hn rfl hs2.2.1 with h | h <;> omega
          obtain ⟨rs, a, b, c, d, f, g, q, w⟩ := ih (j + 1) first (by omega) (by omega) (fun _ => .inr ⟨hs2.2.1, hs2.1, by rw [lw_succ]; omega⟩) (fun h => by rw [hft] at h; simp at h)
          refine ⟨rs, a, b, fun t => ?_, fun h1 h3 => d h1 (by rw [lw_succ]; omega), f, fun r hr x hx => by have := g r hr x hx; omega, fun h1 h3 h4 _ => q h1 h3 h4 hs2.1, fun h => by omega⟩
          rw [c, if_pos ⟨hft, hs2.2.1⟩, if_pos ⟨hft, hs2.2.1⟩]
        · rw [if_neg hs2]
          -- the bounds given to the second stage
          have hhi : ∃ hi, min (if bs (j + 1) = maxValue then bs (j + 1) else bs (j + 1) - 1) e = hi ∧ hi ≤ e ∧ hi < 10 ^ (j + 1) ∧ lw j ≤ hi ∧ s ≤ hi ∧
              (∀ v, v ≤ e → v < 10 ^ (j + 1) → v ≤ hi) := by
            rcases hnext with ⟨h, hb, hb2⟩ | ⟨h, hb⟩
            · rw [if_neg (by omega), hb]
              have : ¬ s ≥ 10 ^ (j + 1) := fun hh => hs1 ⟨by omega, by omega⟩
              exact ⟨_, rfl, by omega, by omega, by omega, by omega, by omega⟩
            · rw [if_pos hb, hb]
              have e20 : (10 : Nat) ^ (j + 1) = 100000000000000000000 := by rw [h]
              exact ⟨_, rfl, by omega, by omega, by omega, by omega, by omega⟩
          obtain ⟨hi, hh, hi1, hi2, hi3, hi4, hi5⟩ := hhi
          rw [hh, nb_lw hj19, bs_small hj19]
          obtain ⟨rs1, a1, b1, c1, d1, e1⟩ := h2 j hj19 hc.1 (max m (j + 1)) (if first = true ∧ s = 0 then s else max (lw j) s) hi (by omega)
            (by split <;> omega) hi2 (by omega) (by split <;> omega) hi3
          obtain ⟨rs, a, b, c, d, f, g, q, w⟩ := ih (j + 1) false (by omega) (by omega) (by simp) (fun _ h0 => by
            rw [lw_succ]
            rcases Nat.lt_or_ge (j + 1) m with h | h
            · refine .inr ?_
              have : bs (j + 1) = 10 ^ (j + 1) := bs_small (by omega)
              have : ¬ e ≥ bs (j + 1) := fun hh => hs2 ⟨h, h0, hh⟩
              omega
            · exact .inl h)
          rw [a1]
          simp only []
          rw [hafter, a]
          have hlen : ∀ r ∈ rs1, ∀ x, Seq r x → x.length = max m (j + 1) := fun r hr x hx => ((d1 x).mp ⟨r, hr, hx⟩).2.1
          refine ⟨rs1 ++ rs, rfl, ?_, fun t => ?_, fun _ _ => by simp [b1], ?_, ?_, ?_, fun h => by omega⟩
          · intro r hr
            rcases List.mem_append.mp hr with h | h
            · exact c1 r h
            · exact b r h
          · rw [lang_append, d1, c, if_neg (c := false = true ∧ s = 0) (by simp), lw_succ]
            by_cases hcond : first = true ∧ s = 0
            · rw [if_pos hcond, if_pos hcond]
              have hsp : j = 0 ∨ j + 1 ≤ m := by
                rcases hf hcond.1 with h | h
                · left
                  rcases Nat.eq_zero_or_pos j with h0 | h0
                  · exact h0
                  · unfold lw at h; rw [if_neg (by omega)] at h
                    have : 0 < 10 ^ j := Nat.pow_pos (by omega)
                    omega
                · right; omega
              have hw : ∀ hd : Digits t, value t < 10 ^ (j + 1) → (Wide m t ↔ t.length = max m (j + 1)) := by
                intro hd hv
                rcases hsp with h | h
                · exact wide_exact hd (by rw [h]; simp [lw]) hv
                · rw [wide_small (by omega) (Nat.lt_of_lt_of_le hv (Nat.pow_le_pow_right (by omega) h))]
                  rw [Nat.max_eq_left h]
              constructor
              · rintro (⟨h1, h3, h4, h5⟩ | ⟨h1, h3, h4, h5⟩)
                · exact ⟨h1, (hw h1 (by omega)).mpr h3, by omega, by omega⟩
                · exact ⟨h1, h3, by omega, h5⟩
              · rintro ⟨h1, h3, h4, h5⟩
                rcases Nat.lt_or_ge (value t) (10 ^ (j + 1)) with h | h
                · exact .inl ⟨h1, (hw h1 h).mp h3, by omega, hi5 _ h5 h⟩
                · exact .inr ⟨h1, h3, by omega, h5⟩
            · rw [if_neg hcond, if_neg hcond]
              constructor
              · rintro (⟨h1, h3, h4, h5⟩ | ⟨h1, h3, h4, h5⟩)
                · exact ⟨h1, (wide_exact h1 (by omega) (by omega)).mpr h3, by omega, by omega⟩
                · exact ⟨h1, h3, by omega, h5⟩
              · rintro ⟨h1, h3, h4, h5⟩
                rcases Nat.lt_or_ge (value t) (10 ^ (j + 1)) with h | h
                · exact .inl ⟨h1, (wide_exact h1 (by omega) h).mp h3, by omega, hi5 _ h5 h⟩
                · exact .inr ⟨h1, h3, by omega, h5⟩
          · rw [List.pairwise_append]
            refine ⟨?_, f, ?_⟩
            · exact List.Pairwise.imp_of_mem (R := fun _ _ => True) (fun {a b} ha hb _ x y hx hy => by rw [hlen a ha x hx, hlen b hb y hy]; exact Nat.le_refl _)
                (List.pairwise_of_forall (by simp))
            · intro a ha b hb x y hx hy
              rw [hlen a ha x hx]
              have := g b hb y hy
              omega
          · intro r hr x hx
            rcases List.mem_append.mp hr with h | h
            · rw [hlen r h x hx]; exact Nat.le_refl _
            · have := g r h x hx; omega
          · intro h1 h3 h4 h5
            have hjm : j + 1 = m := by
              rcases Nat.lt_or_ge (j + 1) m with h | h
              · exfalso
                have hb : bs (j + 1) = 10 ^ (j + 1) := bs_small (by omega)
                have : (10 : Nat) ^ (j + 1) < 10 ^ m := (Nat.pow_lt_pow_iff_right (by omega)).mpr h
                exact hs2 ⟨h, h3, by omega⟩
              · omega
            rw [← hjm] at h4
            have hrs : rs = [] := w (by rw [lw_succ]; omega)
            rw [hrs, List.append_nil]
            exact e1 (by rw [if_pos ⟨h1, h3⟩]; exact h3) (by have := hi5 e (Nat.le_refl _) (by omega); omega)
    · rw [if_pos (by simpa using hc)]
      have hcl : e < lw j := by
        by_cases h : j ≤ 19
        · rw [nb_lw h] at hc
          have := pow19 h
          rw [bs_small h] at hc
          omega
        · have : j = 20 := by omega
          subst this
          unfold lw; rw [if_neg (by omega)]; omega
      refine ⟨[], rfl, by simp, fun t => ⟨fun h => absurd h (lang_nil t), fun ⟨hd, hw, hlo, hhi⟩ => ?_⟩, fun _ _ => by omega, List.Pairwise.nil, by simp, ?_, fun _ => rfl⟩
      · split at hlo
        · rename_i hcond
          rcases hf hcond.1 with h | h
          · omega
          · omega
        · omega
      · intro h1 h3 h4 h5
        have : (10 : Nat) ^ j < 10 ^ m := (Nat.pow_lt_pow_iff_right (by omega)).mpr h5
        have : lw j ≤ 10 ^ j := by
          unfold lw; split
          · exact Nat.zero_le _
          · exact Nat.le_refl _
        omega

/-- The first stage, for the rest of a number. -/
theorem one_tail {two : Nat → Nat → Nat → Nat → Option (List Text)} {k s e : Nat} (hk : 1 ≤ k) (hk2 : k ≤ 19) (hse : s ≤ e) (he : e < 10 ^ k)
    (h2 : ∀ j, j < k → TwoOK two j) :
    ∃ rs, stageOne two k s e = some rs ∧ rs ≠ [] ∧ (∀ r ∈ rs, Plain r) ∧
      (∀ t, Lang rs t ↔ Digits t ∧ t.length = k ∧ s ≤ value t ∧ value t ≤ e) ∧ (s = 0 → e + 1 = 10 ^ k → rs.length = 1) := by
  have hp := pow19 hk2
  have hmv : maxValue = 18446744073709551615 := rfl
  obtain ⟨rs, a, b, c, d, _, _, q, _⟩ := loop_ok (two := two) (m := k) hse (by omega) hk2
    (fun j _ hj => h2 j (by
      rcases Nat.lt_or_ge j k with h | h
      · exact h
      · exfalso
        have := Nat.pow_le_pow_right (n := 10) (by omega) h
        unfold lw at hj
        rw [if_neg (by omega)] at hj
        omega)) 21 0 true (by omega) (by omega) (fun _ => .inl (by simp [lw])) (by simp)
  have hne := d rfl (by simp [lw])
  refine ⟨rs, ?_, hne, b, fun t => ?_, fun h1 h3 => q rfl h1 h3 (by omega)⟩
  · have e0 : bs 0 = 1 := by decide
    have e1 : nb 0 = 0 := by decide
    have e2 : bs (0 + 1) = 10 := by decide
    rw [e0, e1, e2] at a
    unfold stageOne
    rw [if_neg (by omega), a]
    cases rs with
    | nil => exact absurd rfl hne
    | cons _ _ => rfl
  · rw [c]
    have h0 : (if true = true ∧ s = 0 then 0 else max s (lw 0)) = s := by
      have hl : lw 0 = 0 := rfl
      rw [hl]; split <;> omega
    rw [h0]
    constructor
    · rintro ⟨h1, h3, h4, h5⟩; exact ⟨h1, (wide_small hk (by omega)).mp h3, h4, h5⟩
    · rintro ⟨h1, h3, h4, h5⟩; exact ⟨h1, (wide_small hk (by omega)).mpr h3, h4, h5⟩

/-- The first stage, for whole numbers. -/
theorem one_top {two : Nat → Nat → Nat → Nat → Option (List Text)} {s e : Nat} (hse : s ≤ e) (he : e ≤ maxValue)
    (h2 : ∀ j, j ≤ 19 → TwoOK two j) :
    ∃ rs, stageOne two 0 s e = some rs ∧ rs ≠ [] ∧ (∀ r ∈ rs, Plain r) ∧
      (∀ t, Lang rs t ↔ Digits t ∧ Wide 0 t ∧ s ≤ value t ∧ value t ≤ e) ∧
      (rs.Pairwise fun a b => ∀ x y, Seq a x → Seq b y → x.length ≤ y.length) := by
  obtain ⟨rs, a, b, c, d, f, _, _, _⟩ := loop_ok (two := two) (m := 0) hse he (by omega)
    (fun j h _ => h2 j h) 21 0 true (by omega) (by omega) (fun _ => .inl (by simp [lw])) (by simp)
  have hne := d rfl (by simp [lw])
  refine ⟨rs, ?_, hne, b, fun t => ?_, f⟩
  · have e0 : bs 0 = 1 := by decide
    have e1 : nb 0 = 0 := by decide
    have e2 : bs (0 + 1) = 10 := by decide
    rw [e0, e1, e2] at a
    unfold stageOne
    rw [if_neg (by omega), a]
    cases rs with
    | nil => exact absurd rfl hne
    | cons _ _ => rfl
  · rw [c]
    have h0 : (if true = true ∧ s = 0 then 0 else max s (lw 0)) = s := by
      have hl : lw 0 = 0 := rfl
      rw [hl]; split <;> omega
    rw [h0]

/-- Zeros, a digit and expressions for the rest. -/
theorem lang_prefix {z q k a b : Nat} {rs : List Text} (hq : q < 10) (hr : ∀ t, Lang rs t ↔ Digits t ∧ t.length = k ∧ a ≤ value t ∧ value t ≤ b) (t : List Char) :
    Lang (rs.map fun r => List.replicate z '0' ++ text q ++ r) t ↔
      ∃ c u, t = List.replicate z '0' ++ c :: u ∧ Digit c ∧ Digits u ∧ u.length = k ∧ dv c = q ∧ a ≤ value u ∧ value u ≤ b := by
  obtain ⟨x, hx, dx, vx⟩ := text_digit hq
  have hs : ∀ r, Seq (List.replicate z '0' ++ text q ++ r) t ↔ ∃ u, t = List.replicate z '0' ++ x :: u ∧ Seq r u := by
    intro r
    rw [hx, seq_digits (digits_append.mpr ⟨digits_zeros z, digits_cons.mpr ⟨dx, digits_nil⟩⟩)]
    simp
  constructor
  · rintro ⟨r', hm, h⟩
    obtain ⟨r, hr', rfl⟩ := List.mem_map.mp hm
    obtain ⟨u, hu, h⟩ := (hs r).mp h
    obtain ⟨h1, h2, h3, h4⟩ := (hr u).mp ⟨r, hr', h⟩
    exact ⟨x, u, hu, dx, h1, h2, vx, h3, h4⟩
  · rintro ⟨c, u, rfl, h1, h2, h3, h4, h5, h6⟩
    have hcx : c = x := dv_inj h1 dx (by omega)
    subst hcx
    obtain ⟨r, hr', h⟩ := (hr u).mpr ⟨h2, h3, h5, h6⟩
    exact ⟨_, List.mem_map.mpr ⟨r, hr', rfl⟩, (hs r).mpr ⟨u, rfl, h⟩⟩

/-- Zeros, a digit from a range and anything. -/
theorem lang_middle {z q1 q2 k P : Nat} {r : Text} (h12 : q1 ≤ q2) (hq : q2 < 10) (hP : P = 10 ^ k)
    (hr : ∀ t, Seq r t ↔ Digits t ∧ t.length = k ∧ 0 ≤ value t ∧ value t ≤ P - 1) (t : List Char) :
    Lang [List.replicate z '0' ++ quotientRegex q1 q2 ++ r] t ↔
      ∃ c u, t = List.replicate z '0' ++ c :: u ∧ Digit c ∧ Digits u ∧ u.length = k ∧ q1 ≤ dv c ∧ dv c ≤ q2 := by
  rw [lang_one, List.append_assoc, seq_digits (digits_zeros z)]
  simp only [seq_quotient h12 hq]
  constructor
  · rintro ⟨v, rfl, c, u, rfl, h1, h2, h3, h4⟩
    obtain ⟨h5, h6, _, _⟩ := (hr u).mp h4
    exact ⟨c, u, rfl, h1, h5, h6, h2, h3⟩
  · rintro ⟨c, u, rfl, h1, h5, h6, h2, h3⟩
    refine ⟨c :: u, rfl, c, u, rfl, h1, h2, h3, (hr u).mpr ⟨h5, h6, Nat.zero_le _, ?_⟩⟩
    have := value_lt h5
    rw [h6] at this
    omega

end Verif.Regex

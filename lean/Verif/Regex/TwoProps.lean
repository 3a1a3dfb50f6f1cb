import Verif.Regex.StageProps

namespace Verif.Regex
open Spec

theorem checks_ok {k md s e : Nat} (hk : k ≤ 19) (hmd : k + 1 ≤ md) (hse : s ≤ e) (he : e < 10 ^ (k + 1)) (hem : e ≤ maxValue)
    (hs : s = 0 ∨ lw k ≤ s) (hl : lw k ≤ e) : checks md (10 ^ k) s e = true ∧ (text (10 ^ k)).length = k + 1 := by
  have hp := pow19 hk
  have hmv : maxValue = 18446744073709551615 := rfl
  have hlt : (10 : Nat) ^ k < 10 ^ (k + 1) := (Nat.pow_lt_pow_iff_right (by omega)).mpr (by omega)
  have hlen := text_length (v := 10 ^ k) (by omega) (Nat.le_refl _) hlt
  have hn : norm (10 ^ k) = lw k := by
    unfold norm lw
    rcases Nat.eq_zero_or_pos k with h | h
    · subst h; rfl
    · have : (10 : Nat) ^ 0 < 10 ^ k := (Nat.pow_lt_pow_iff_right (by omega)).mpr h
      rw [if_neg (by rw [Nat.pow_zero] at this; omega), if_neg (by omega)]
  have hpow : Math.isPower 64 10 (10 ^ k) = true := ((Math.isPower_exact (w := 64) (n := 10) (t := 10 ^ k) (by omega) (by omega) (by omega)).1).mpr ⟨k, rfl⟩
  have e1 : (10 : Nat) ^ k * 10 = 10 ^ (k + 1) := (Nat.pow_succ ..).symm
  refine ⟨?_, hlen⟩
  unfold checks
  rw [hpow, hlen, hn, e1]
  simp only [Bool.and_true, Bool.and_eq_true, decide_eq_true_eq]
  refine ⟨⟨⟨⟨by omega, by omega⟩, hs, ?_⟩, hl, ?_⟩, hse⟩ <;> split <;> simp <;> omega

theorem div_mod (k v : Nat) : v = v / 10 ^ k * 10 ^ k + v % 10 ^ k := by
  have := Nat.div_add_mod v (10 ^ k); rw [Nat.mul_comm] at this; omega

/-- The numbers between two, by the digit and the rest. -/
theorem between {z k md s e : Nat} (hmd : md = z + (k + 1)) (he : e < 10 ^ (k + 1)) (t : List Char) :
    (Digits t ∧ t.length = md ∧ s ≤ value t ∧ value t ≤ e) ↔
      ∃ c u, t = List.replicate z '0' ++ c :: u ∧ Digit c ∧ Digits u ∧ u.length = k ∧
        (s / 10 ^ k < dv c ∨ (s / 10 ^ k = dv c ∧ s % 10 ^ k ≤ value u)) ∧ (dv c < e / 10 ^ k ∨ (dv c = e / 10 ^ k ∧ value u ≤ e % 10 ^ k)) := by
  have hP : 0 < 10 ^ k := Nat.pow_pos (by omega)
  have key : ∀ c u, Digits u → u.length = k → ((s ≤ value (List.replicate z '0' ++ c :: u) ↔ (s / 10 ^ k < dv c ∨ (s / 10 ^ k = dv c ∧ s % 10 ^ k ≤ value u))) ∧
      (value (List.replicate z '0' ++ c :: u) ≤ e ↔ (dv c < e / 10 ^ k ∨ (dv c = e / 10 ^ k ∧ value u ≤ e % 10 ^ k)))) := by
    intro c u hu hl
    have hv := value_lt hu
    rw [hl] at hv
    rw [value_zeros, value_cons, hl]
    refine ⟨?_, ?_⟩
    · conv => lhs; rw [div_mod k s]
      exact lex_le (Nat.mod_lt _ hP) hv
    · conv => lhs; rw [div_mod k e]
      exact lex_le hv (Nat.mod_lt _ hP)
  constructor
  · rintro ⟨h1, h2, h3, h4⟩
    obtain ⟨c, u, rfl, h5, h6, h7⟩ := split_digits (z := z) (k := k) h1 (by omega) (by omega)
    exact ⟨c, u, rfl, h5, h6, h7, (key c u h6 h7).1.mp h3, (key c u h6 h7).2.mp h4⟩
  · rintro ⟨c, u, rfl, h5, h6, h7, h8, h9⟩
    refine ⟨digits_append.mpr ⟨digits_zeros z, digits_cons.mpr ⟨h5, h6⟩⟩, ?_, (key c u h6 h7).1.mpr h8, (key c u h6 h7).2.mpr h9⟩
    rw [List.length_append, List.length_replicate, List.length_cons]; omega

theorem plain_zeros (z : Nat) : Plain (List.replicate z '0') := plain_digits (digits_zeros z)

theorem plain_text {q : Nat} (h : q < 10) : Plain (text q) := by
  obtain ⟨x, hx, dx, _⟩ := text_digit h
  rw [hx]; exact plain_digits (digits_cons.mpr ⟨dx, digits_nil⟩)

theorem two_ok : ∀ (depth k : Nat), k < depth → k ≤ 19 → TwoOK (stageTwo depth) k := by
  intro depth
  induction depth with
  | zero => intro k h; omega
  | succ depth ih =>
    intro k hkd hk md s e hmd hse he hem hs hl
    obtain ⟨hch, hlen⟩ := checks_ok hk hmd hse he hem hs hl
    have hmv : maxValue = 18446744073709551615 := rfl
    have hP : 0 < 10 ^ k := Nat.pow_pos (by omega)
    have hpow : (10 : Nat) ^ (k + 1) = 10 ^ k * 10 := Nat.pow_succ ..
    have htail : ∀ a b, 1 ≤ k → a ≤ b → b < 10 ^ k → ∃ rs, stageOne (stageTwo depth) k a b = some rs ∧ rs ≠ [] ∧ (∀ r ∈ rs, Plain r) ∧
        (∀ t, Lang rs t ↔ Digits t ∧ t.length = k ∧ a ≤ value t ∧ value t ≤ b) ∧ (a = 0 → b + 1 = 10 ^ k → rs.length = 1) :=
      fun a b h1 h2 h3 => one_tail h1 hk h2 h3 (fun j hj => ih j (by omega) (by omega))
    have hbase : (10 : Nat) ^ k = 1 ↔ k = 0 := by
      constructor
      · intro h
        rcases Nat.eq_zero_or_pos k with h0 | h0
        · exact h0
        · have : (10 : Nat) ^ 0 < 10 ^ k := (Nat.pow_lt_pow_iff_right (by omega)).mpr h0
          rw [Nat.pow_zero] at this; omega
      · intro h; rw [h]
    rw [stageTwo, if_neg (by rw [hch]; simp), hlen]
    have hk1 : k + 1 - 1 = k := by omega
    rw [hk1]
    generalize hz : md - (k + 1) = z
    have hmd' : md = z + (k + 1) := by omega
    have hsq : s / 10 ^ k < 10 := Nat.div_lt_of_lt_mul (by omega)
    have heq : e / 10 ^ k < 10 := Nat.div_lt_of_lt_mul (by omega)
    have hsr : s % 10 ^ k < 10 ^ k := Nat.mod_lt _ hP
    have her : e % 10 ^ k < 10 ^ k := Nat.mod_lt _ hP
    have nz1 : 0 ≤ s / 10 ^ k := Nat.zero_le _
    have nz2 : 0 ≤ e / 10 ^ k := Nat.zero_le _
    have nz3 : 0 ≤ s % 10 ^ k := Nat.zero_le _
    have nz4 : 0 ≤ e % 10 ^ k := Nat.zero_le _
    by_cases h0 : s = e
    · rw [if_pos h0]
      subst h0
      obtain ⟨a, b, c, _, d⟩ := text_spec hem
      have hle := d (k + 1) he (by omega)
      have hpd : Digits (pad md (text s)) := digits_append.mpr ⟨digits_zeros _, a⟩
      have hpl : (pad md (text s)).length = md := by
        unfold pad; rw [List.length_append, List.length_replicate]; omega
      have hpv : value (pad md (text s)) = s := by unfold pad; rw [value_zeros, b]
      refine ⟨_, rfl, by simp, fun r hr => ?_, fun t => ?_, fun _ _ => rfl⟩
      · rw [List.mem_singleton] at hr; rw [hr]; exact plain_digits hpd
      · rw [lang_one]
        have := seq_digits hpd [] t
        rw [List.append_nil] at this
        rw [this]
        constructor
        · rintro ⟨u, rfl, h⟩
          rw [(seq_nil u).mp h, List.append_nil]
          exact ⟨hpd, hpl, by omega, by omega⟩
        · rintro ⟨h1, h2, h3, h4⟩
          exact ⟨[], by rw [List.append_nil]; exact value_inj h1 hpd (by omega) (by omega), .nil⟩
    · rw [if_neg h0]
      by_cases hqq : s / 10 ^ k = e / 10 ^ k
      · rw [if_pos hqq]
        have hk0 : k ≠ 0 := by
          intro h; subst h
          simp only [Nat.pow_zero, Nat.div_one] at hqq
          exact h0 hqq
        rw [if_neg (fun h => hk0 (hbase.mp h))]
        have hrr : s % 10 ^ k ≤ e % 10 ^ k := by
          have h1 := div_mod k s
          have h2 := div_mod k e
          rw [hqq] at h1
          omega
        obtain ⟨rs, a, b, c, d, f⟩ := htail (s % 10 ^ k) (e % 10 ^ k) (by omega) hrr her
        rw [a]
        refine ⟨_, rfl, by simpa using b, ?_, fun t => ?_, ?_⟩
        · intro r hr
          obtain ⟨r', hr', rfl⟩ := List.mem_map.mp hr
          exact plain_append.mpr ⟨plain_append.mpr ⟨plain_zeros z, plain_text hsq⟩, c r' hr'⟩
        · rw [lang_prefix hsq d, between hmd' he]
          constructor
          · rintro ⟨c, u, h1, h2, h3, h4, h5, h6, h7⟩
            exact ⟨c, u, h1, h2, h3, h4, .inr ⟨h5.symm, h6⟩, .inr ⟨by omega, h7⟩⟩
          · rintro ⟨c, u, h1, h2, h3, h4, h5, h6⟩
            exact ⟨c, u, h1, h2, h3, h4, by omega, by omega, by omega⟩
        · intro h1 h2
          exfalso
          have : e / 10 ^ k = 9 := by
            have h3 : e = 9 * 10 ^ k + (10 ^ k - 1) := by omega
            rw [h3, Nat.mul_comm, Nat.mul_add_div hP, Nat.div_eq_of_lt (by omega)]
          rw [h1, this] at hqq
          simp at hqq
      · rw [if_neg hqq]
        have hq : s / 10 ^ k < e / 10 ^ k := by
          have : s / 10 ^ k ≤ e / 10 ^ k := Nat.div_le_div_right hse
          omega
        -- the first part
        have hhead : ∃ rs, headPart (stageOne (stageTwo depth)) (List.replicate z '0') (k + 1) (10 ^ k) s = some rs ∧ (∀ r ∈ rs, Plain r) ∧
            (∀ t, Lang rs t ↔ s % 10 ^ k ≠ 0 ∧ ∃ c u, t = List.replicate z '0' ++ c :: u ∧ Digit c ∧ Digits u ∧ u.length = k ∧ dv c = s / 10 ^ k ∧
              s % 10 ^ k ≤ value u ∧ value u ≤ 10 ^ k - 1) ∧ (s % 10 ^ k = 0 → rs = []) := by
          unfold headPart
          by_cases h : s % 10 ^ k = 0
          · rw [if_pos h]
            exact ⟨[], rfl, by simp, fun t => ⟨fun h => absurd h (lang_nil t), fun h' => absurd h h'.1⟩, fun _ => rfl⟩
          · have hk0 : k ≠ 0 := by
              intro h'; subst h'; simp [Nat.mod_one] at h
            have : ¬ 10 ^ k = 1 := fun h => hk0 (hbase.mp h)
            rw [if_neg h, if_neg (by omega), hk1]
            obtain ⟨rs, a, b, c, d, f⟩ := htail (s % 10 ^ k) (10 ^ k - 1) (by omega) (by omega) (by omega)
            rw [a]
            refine ⟨_, rfl, ?_, fun t => ?_, fun h' => absurd h' h⟩
            · intro r hr
              obtain ⟨r', hr', rfl⟩ := List.mem_map.mp hr
              exact plain_append.mpr ⟨plain_append.mpr ⟨plain_zeros z, plain_text hsq⟩, c r' hr'⟩
            · rw [lang_prefix hsq d]
              exact ⟨fun h' => ⟨h, h'⟩, fun h' => h'.2⟩
        have htl : ∃ rs, tailPart (stageOne (stageTwo depth)) (List.replicate z '0') (k + 1) (10 ^ k) e = some rs ∧ (∀ r ∈ rs, Plain r) ∧
            (∀ t, Lang rs t ↔ e % 10 ^ k ≠ 10 ^ k - 1 ∧ ∃ c u, t = List.replicate z '0' ++ c :: u ∧ Digit c ∧ Digits u ∧ u.length = k ∧ dv c = e / 10 ^ k ∧
              0 ≤ value u ∧ value u ≤ e % 10 ^ k) ∧ (e % 10 ^ k = 10 ^ k - 1 → rs = []) := by
          unfold tailPart
          by_cases h : e % 10 ^ k = 10 ^ k - 1
          · rw [if_pos h]
            exact ⟨[], rfl, by simp, fun t => ⟨fun h => absurd h (lang_nil t), fun h' => absurd h h'.1⟩, fun _ => rfl⟩
          · have hk0 : k ≠ 0 := by
              intro h'; subst h'; simp [Nat.mod_one] at h
            have : ¬ 10 ^ k = 1 := fun h => hk0 (hbase.mp h)
            rw [if_neg h, if_neg (by omega), hk1]
            obtain ⟨rs, a, b, c, d, f⟩ := htail 0 (e % 10 ^ k) (by omega) (by omega) (by omega)
            rw [a]
            refine ⟨_, rfl, ?_, fun t => ?_, fun h' => absurd h' h⟩
            · intro r hr
              obtain ⟨r', hr', rfl⟩ := List.mem_map.mp hr
              exact plain_append.mpr ⟨plain_append.mpr ⟨plain_zeros z, plain_text heq⟩, c r' hr'⟩
            · rw [lang_prefix heq d]
              exact ⟨fun h' => ⟨h, h'⟩, fun h' => h'.2⟩
        -- the quotients of the middle part
        have hfv : firstValue (10 ^ k) s / 10 ^ k = (if s % 10 ^ k = 0 then s / 10 ^ k else s / 10 ^ k + 1) ∧ firstValue (10 ^ k) s % 10 ^ k = 0 := by
          unfold firstValue
          by_cases h : s % 10 ^ k = 0
          · rw [if_pos h, if_pos h]; exact ⟨rfl, h⟩
          · rw [if_neg h, if_neg h]
            have h1 := div_mod k s
            have h2 : (s - s % 10 ^ k + 10 ^ k) % 18446744073709551616 = (s / 10 ^ k + 1) * 10 ^ k := by
              have h3 : (s / 10 ^ k + 1) * 10 ^ k ≤ e / 10 ^ k * 10 ^ k := Nat.mul_le_mul_right _ hq
              have h4 := div_mod k e
              rw [Nat.add_mul] at h3 ⊢
              rw [Nat.mod_eq_of_lt (by omega)]; omega
            rw [h2, Nat.mul_div_cancel _ hP, Nat.mul_mod_left]
            exact ⟨rfl, rfl⟩
        have hlv : lastValue (10 ^ k) e / 10 ^ k = (if e % 10 ^ k = 10 ^ k - 1 then e / 10 ^ k else e / 10 ^ k - 1) ∧ lastValue (10 ^ k) e % 10 ^ k = 10 ^ k - 1 := by
          unfold lastValue
          by_cases h : e % 10 ^ k = 10 ^ k - 1
          · rw [if_pos h, if_pos h]; exact ⟨rfl, h⟩
          · rw [if_neg h, if_neg h]
            have h1 := div_mod k e
            have h2 : e - e % 10 ^ k - 1 = 10 ^ k * (e / 10 ^ k - 1) + (10 ^ k - 1) := by
              have h3 : e / 10 ^ k * 10 ^ k = (e / 10 ^ k - 1) * 10 ^ k + 10 ^ k := by
                conv => lhs; rw [show e / 10 ^ k = e / 10 ^ k - 1 + 1 by omega, Nat.add_mul]
                omega
              rw [Nat.mul_comm (10 ^ k)]
              omega
            have h5 : 10 ^ k - 1 < 10 ^ k := by omega
            rw [h2, Nat.mul_add_div hP, Nat.mul_add_mod, Nat.div_eq_of_lt h5, Nat.mod_eq_of_lt h5]
            exact ⟨rfl, rfl⟩
        generalize hfq : (if s % 10 ^ k = 0 then s / 10 ^ k else s / 10 ^ k + 1) = fq at hfv
        generalize hlq : (if e % 10 ^ k = 10 ^ k - 1 then e / 10 ^ k else e / 10 ^ k - 1) = lq at hlv
        have hmid : ∃ rs, middlePart (stageOne (stageTwo depth)) (List.replicate z '0') (k + 1) (10 ^ k) s e = some rs ∧ (∀ r ∈ rs, Plain r) ∧
            (∀ t, Lang rs t ↔ ∃ c u, t = List.replicate z '0' ++ c :: u ∧ Digit c ∧ Digits u ∧ u.length = k ∧ fq ≤ dv c ∧ dv c ≤ lq) ∧
            (fq ≤ lq → rs.length = 1) := by
          unfold middlePart
          rw [hlv.2, hlv.1, hfv.1, hfv.2, if_neg (by simp), hk1]
          by_cases hfl : fq ≤ lq
          · rw [if_pos hfl]
            have hlq10 : lq < 10 := by rw [← hlq]; split <;> omega
            by_cases hb : (10 : Nat) ^ k = 1
            · rw [if_pos hb]
              have hk0 := hbase.mp hb
              refine ⟨_, rfl, ?_, fun t => ?_, fun _ => rfl⟩
              · intro r hr
                rw [List.mem_singleton] at hr
                rw [hr]
                exact plain_append.mpr ⟨plain_zeros z, plain_quotient (by omega) hlq10⟩
              · have := lang_middle (z := z) (q1 := fq) (q2 := lq) (k := k) (P := 1) (r := []) hfl hlq10 hb.symm (fun t => by
                  rw [seq_nil, hk0]
                  constructor
                  · intro h; rw [h]; exact ⟨digits_nil, rfl, by simp [value_nil], by simp [value_nil]⟩
                  · rintro ⟨_, h, _⟩; exact List.length_eq_zero_iff.mp h) t
                rw [List.append_nil] at this
                exact this
            · rw [if_neg hb]
              obtain ⟨rs, a, b, c, d, f⟩ := htail 0 (10 ^ k - 1) (by
                rcases Nat.eq_zero_or_pos k with h | h
                · exact absurd (hbase.mpr h) hb
                · exact h) (by omega) (by omega)
              rw [a]
              match rs, f rfl (by omega) with
              | [r], _ =>
                refine ⟨_, rfl, ?_, fun t => ?_, fun _ => rfl⟩
                · intro r' hr
                  rw [List.mem_singleton] at hr
                  rw [hr]
                  exact plain_append.mpr ⟨plain_append.mpr ⟨plain_zeros z, plain_quotient (by omega) hlq10⟩, c r (by simp)⟩
                · exact lang_middle hfl hlq10 rfl (fun t => by rw [← lang_one]; exact d t) t
          · rw [if_neg hfl]
            exact ⟨[], rfl, by simp, fun t => ⟨fun h => absurd h (lang_nil t), fun ⟨c, u, _, _, _, _, h1, h2⟩ => by omega⟩, fun h => absurd h hfl⟩
        obtain ⟨r1, a1, b1, c1, d1⟩ := hhead
        obtain ⟨r2, a2, b2, c2, d2⟩ := hmid
        obtain ⟨r3, a3, b3, c3, d3⟩ := htl
        rw [a1, a2, a3]
        have hlang : ∀ t, Lang (r1 ++ r2 ++ r3) t ↔ Digits t ∧ t.length = md ∧ s ≤ value t ∧ value t ≤ e := by
          intro t
          rw [lang_append, lang_append, c1, c2, c3, between hmd' he]
          have hfq' : (s % 10 ^ k = 0 ∧ fq = s / 10 ^ k) ∨ (s % 10 ^ k ≠ 0 ∧ fq = s / 10 ^ k + 1) := by
            rw [← hfq]; split <;> simp_all
          have hlq' : (e % 10 ^ k = 10 ^ k - 1 ∧ lq = e / 10 ^ k) ∨ (e % 10 ^ k ≠ 10 ^ k - 1 ∧ lq = e / 10 ^ k - 1) := by
            rw [← hlq]; split <;> simp_all
          constructor
          · rintro ((⟨h0, c, u, h1, h2, h3, h4, h5, h6, h7⟩ | ⟨c, u, h1, h2, h3, h4, h5, h6⟩) | ⟨h0, c, u, h1, h2, h3, h4, h5, h6, h7⟩)
            · exact ⟨c, u, h1, h2, h3, h4, by omega, by omega⟩
            · have := value_lt h3
              rw [h4] at this
              exact ⟨c, u, h1, h2, h3, h4, by omega, by omega⟩
            · exact ⟨c, u, h1, h2, h3, h4, by omega, by omega⟩
          · rintro ⟨c, u, h1, h2, h3, h4, h5, h6⟩
            have := value_lt h3
            rw [h4] at this
            by_cases hA : fq ≤ dv c
            · by_cases hB : dv c ≤ lq
              · exact .inl (.inr ⟨c, u, h1, h2, h3, h4, hA, hB⟩)
              · exact .inr ⟨by omega, c, u, h1, h2, h3, h4, by omega, by omega, by omega⟩
            · exact .inl (.inl ⟨by omega, c, u, h1, h2, h3, h4, by omega, by omega, by omega⟩)
        refine ⟨r1 ++ r2 ++ r3, rfl, ?_, ?_, hlang, ?_⟩
        · intro hnil
          obtain ⟨a, b, c, _, d⟩ := text_spec hem
          have hle := d (k + 1) he (by omega)
          have h := (hlang (pad md (text e))).mpr ⟨digits_append.mpr ⟨digits_zeros _, a⟩,
            by unfold pad; rw [List.length_append, List.length_replicate]; omega, by unfold pad; rw [value_zeros, b]; exact hse,
            by unfold pad; rw [value_zeros, b]; exact Nat.le_refl _⟩
          rw [hnil] at h
          exact lang_nil _ h
        · intro r hr
          rcases List.mem_append.mp hr with h | h
          · rcases List.mem_append.mp h with h | h
            · exact b1 r h
            · exact b2 r h
          · exact b3 r h
        · intro h1 h2
          have h3 : e = 10 ^ k * 9 + (10 ^ k - 1) := by omega
          have h4 : e / 10 ^ k = 9 := by rw [h3, Nat.mul_add_div hP, Nat.div_eq_of_lt (by omega)]
          have h5 : e % 10 ^ k = 10 ^ k - 1 := by rw [h3, Nat.mul_add_mod, Nat.mod_eq_of_lt (by omega)]
          have h6 : s % 10 ^ k = 0 := by rw [h1]; simp
          have h7 : s / 10 ^ k = 0 := by rw [h1]; simp
          rw [d1 h6, d3 h5]
          have := d2 (by rw [← hfq, ← hlq, if_pos h6, if_pos h5]; omega)
          simpa using this

end Verif.Regex

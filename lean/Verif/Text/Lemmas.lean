import Verif.Text.Model
import Verif.Text.Spec
namespace Verif.Text
open Spec

theorem and_3f (c : Nat) : c &&& 0x3f = c % 64 := Nat.and_two_pow_sub_one_eq_mod c 6
theorem and_1f (c : Nat) : c &&& 0x1f = c % 32 := Nat.and_two_pow_sub_one_eq_mod c 5
theorem and_0f (c : Nat) : c &&& 0x0f = c % 16 := Nat.and_two_pow_sub_one_eq_mod c 4
theorem and_07 (c : Nat) : c &&& 0x07 = c % 8 := Nat.and_two_pow_sub_one_eq_mod c 3
theorem and_03 (c : Nat) : c &&& 0x03 = c % 4 := Nat.and_two_pow_sub_one_eq_mod c 2

theorem or_shift {a b i : Nat} (h : b < 2 ^ i) : (a <<< i) ||| b = a * 2 ^ i + b := by
  rw [← Nat.shiftLeft_add_eq_or_of_lt h, Nat.shiftLeft_eq]

theorem isCont_eq {c : Nat} (h : c < 256) : isCont c = decide (0x80 ≤ c ∧ c < 0xc0) := by
  have : ∀ c, c < 256 → isCont c = decide (0x80 ≤ c ∧ c < 0xc0) := by decide +kernel
  exact this c h

theorem badLead_eq {c : Nat} (h : c < 256) : badLead c = decide ((0x80 ≤ c ∧ c < 0xc2) ∨ 0xf5 ≤ c) := by
  have : ∀ c, c < 256 → badLead c = decide ((0x80 ≤ c ∧ c < 0xc2) ∨ 0xf5 ≤ c) := by decide +kernel
  exact this c h

theorem pay2 (a b : Nat) : ((a &&& 0x1f) <<< 6) ||| (b &&& 0x3f) = a % 32 * 64 + b % 64 := by
  rw [and_1f, and_3f]
  exact or_shift (a := a % 32) (i := 6) (by omega)

theorem pay3 (a b c : Nat) : ((a &&& 0x0f) <<< 12) ||| ((b &&& 0x3f) <<< 6) ||| (c &&& 0x3f) = a % 16 * 4096 + b % 64 * 64 + c % 64 := by
  have hb : (b % 64) <<< 6 = b % 64 * 64 := by rw [Nat.shiftLeft_eq]
  rw [and_0f, and_3f, and_3f, Nat.or_assoc, or_shift (a := b % 64) (i := 6) (b := c % 64) (by omega), or_shift (i := 12) (by omega)]
  omega

theorem pay4 (a b c d : Nat) : ((a &&& 0x07) <<< 18) ||| ((b &&& 0x3f) <<< 12) ||| ((c &&& 0x3f) <<< 6) ||| (d &&& 0x3f) =
    a % 8 * 262144 + b % 64 * 4096 + c % 64 * 64 + d % 64 := by
  rw [and_07, and_3f, and_3f, and_3f, Nat.or_assoc, Nat.or_assoc, or_shift (a := c % 64) (i := 6) (b := d % 64) (by omega),
    or_shift (a := b % 64) (i := 12) (by omega), or_shift (i := 18) (by omega)]
  omega

theorem get_drop (s : List Nat) (p : Nat) : get s p = get (s.drop p) 0 := by
  unfold get
  simp only [List.getElem?_drop, Nat.add_zero, Nat.zero_add]

theorem next_drop (s : List Nat) (p : Nat) : next s p = (p + (next (s.drop p) 0).1, (next (s.drop p) 0).2) := by
  unfold next
  simp only [List.getElem?_drop, Nat.add_zero, Nat.zero_add]
  repeat' split
  all_goals rfl

theorem Spec.Bytes.drop {s : List Nat} (h : Bytes s) (p : Nat) : Bytes (s.drop p) := fun b hb => h b (List.mem_of_mem_drop hb)

theorem Spec.Shape.bytes {l : List Nat} {v : Nat} (h : Shape l v) : Bytes l := by
  intro b hb
  cases h <;> simp only [List.mem_cons, List.not_mem_nil, or_false] at hb <;> omega

theorem Spec.Shape.length_pos {l : List Nat} {v : Nat} (h : Shape l v) : 1 ≤ l.length ∧ l.length ≤ 4 := by
  cases h <;> simp

theorem get_shape {l r : List Nat} {v : Nat} (h : Shape l v) : get (l ++ r) 0 = .ok v := by
  cases h with
  | one h1 => simp [get]; omega
  | two h1 h2 h3 h4 =>
    simp only [get, List.cons_append, List.nil_append, List.getElem?_cons_zero, List.getElem?_cons_succ, Nat.zero_add, pay2]
    rw [if_neg (by omega), badLead_eq (by omega), if_neg (by simp only [decide_eq_true_eq]; omega), isCont_eq (by omega),
      if_neg (by simp only [Bool.not_eq_true', decide_eq_false_iff_not]; omega), if_pos (by omega)]
    exact congrArg Except.ok (by omega)
  | three h1 h2 h3 h4 h5 h6 =>
    simp only [get, List.cons_append, List.nil_append, List.getElem?_cons_zero, List.getElem?_cons_succ, Nat.zero_add, pay3]
    rw [if_neg (by omega), badLead_eq (by omega), if_neg (by simp only [decide_eq_true_eq]; omega), isCont_eq (by omega), isCont_eq (by omega),
      if_neg (by simp only [Bool.not_eq_true', decide_eq_false_iff_not]; omega), if_neg (by omega),
      if_neg (by simp only [Bool.not_eq_true', decide_eq_false_iff_not]; omega), if_pos (by omega)]
    exact congrArg Except.ok (by omega)
  | four h1 h2 h3 h4 h5 h6 h7 h8 =>
    simp only [get, List.cons_append, List.nil_append, List.getElem?_cons_zero, List.getElem?_cons_succ, Nat.zero_add, pay4]
    rw [if_neg (by omega), badLead_eq (by omega), if_neg (by simp only [decide_eq_true_eq]; omega), isCont_eq (by omega), isCont_eq (by omega), isCont_eq (by omega),
      if_neg (by simp only [Bool.not_eq_true', decide_eq_false_iff_not]; omega), if_neg (by omega),
      if_neg (by simp only [Bool.not_eq_true', decide_eq_false_iff_not]; omega), if_neg (by omega),
      if_neg (by simp only [Bool.not_eq_true', decide_eq_false_iff_not]; omega), if_pos (by omega)]
    exact congrArg Except.ok (by omega)

theorem next_shape {l r : List Nat} {v : Nat} (h : Shape l v) : next (l ++ r) 0 = (l.length, none) := by
  cases h with
  | one h1 => simp [next]; omega
  | two h1 h2 h3 h4 =>
    simp only [next, List.cons_append, List.nil_append, List.getElem?_cons_zero, List.getElem?_cons_succ, Nat.zero_add]
    rw [if_neg (by omega), badLead_eq (by omega), if_neg (by simp only [decide_eq_true_eq]; omega), isCont_eq (by omega),
      if_neg (by simp only [Bool.not_eq_true', decide_eq_false_iff_not]; omega), if_pos (by omega)]
    rfl
  | three h1 h2 h3 h4 h5 h6 =>
    simp only [next, List.cons_append, List.nil_append, List.getElem?_cons_zero, List.getElem?_cons_succ, Nat.zero_add]
    rw [if_neg (by omega), badLead_eq (by omega), if_neg (by simp only [decide_eq_true_eq]; omega), isCont_eq (by omega), isCont_eq (by omega),
      if_neg (by simp only [Bool.not_eq_true', decide_eq_false_iff_not]; omega), if_neg (by omega),
      if_neg (by simp only [Bool.not_eq_true', decide_eq_false_iff_not]; omega), if_pos (by omega)]
    rfl
  | four h1 h2 h3 h4 h5 h6 h7 h8 =>
    simp only [next, List.cons_append, List.nil_append, List.getElem?_cons_zero, List.getElem?_cons_succ, Nat.zero_add]
    rw [if_neg (by omega), badLead_eq (by omega), if_neg (by simp only [decide_eq_true_eq]; omega), isCont_eq (by omega), isCont_eq (by omega), isCont_eq (by omega),
      if_neg (by simp only [Bool.not_eq_true', decide_eq_false_iff_not]; omega), if_neg (by omega),
      if_neg (by simp only [Bool.not_eq_true', decide_eq_false_iff_not]; omega), if_neg (by omega),
      if_neg (by simp only [Bool.not_eq_true', decide_eq_false_iff_not]; omega), if_pos (by omega)]
    rfl

/-- Success of `get` or `next` shows the shape. -/
theorem shape_of_ok {t : List Nat} (hB : Bytes t) (h : (∃ v, get t 0 = .ok v) ∨ (next t 0).2 = none) : ∃ l r v, t = l ++ r ∧ Shape l v := by
  rcases t with _ | ⟨a, t⟩
  · rcases h with ⟨v, h⟩ | h <;> simp [get, next] at h
  have ha : a < 256 := hB a (by simp)
  simp only [get, next, List.getElem?_cons_zero, List.getElem?_cons_succ, Nat.zero_add] at h
  by_cases h1 : a ≤ 0x7f
  · exact ⟨[a], t, a, rfl, .one (by omega)⟩
  simp only [if_neg h1, badLead_eq ha] at h
  by_cases h2 : ((0x80 ≤ a ∧ a < 0xc2) ∨ 0xf5 ≤ a)
  · simp [h2] at h
  simp only [h2, decide_false, Bool.false_eq_true, if_false] at h
  rcases t with _ | ⟨b, t⟩
  · simp at h
  have hb : b < 256 := hB b (by simp)
  simp only [List.getElem?_cons_zero, isCont_eq hb] at h
  by_cases h3 : (0x80 ≤ b ∧ b < 0xc0)
  rotate_left
  · simp [h3] at h
  simp only [h3, and_self, decide_true, Bool.not_true, Bool.false_eq_true, if_false] at h
  by_cases h4 : a ≥ 0xc2 ∧ a ≤ 0xdf
  · exact ⟨[a, b], t, _, rfl, .two (by omega) (by omega) (by omega) (by omega)⟩
  simp only [h4, if_false] at h
  rcases t with _ | ⟨c, t⟩
  · simp at h
  have hc : c < 256 := hB c (by simp)
  simp only [List.getElem?_cons_zero, List.getElem?_cons_succ, isCont_eq hc] at h
  by_cases h5 : (0x80 ≤ c ∧ c < 0xc0)
  rotate_left
  · simp [h5] at h
  simp only [h5, and_self, decide_true, Bool.not_true, Bool.false_eq_true, if_false] at h
  by_cases h6 : a ≥ 0xe0 ∧ a ≤ 0xef
  · exact ⟨[a, b, c], t, _, rfl, .three (by omega) (by omega) (by omega) (by omega) (by omega) (by omega)⟩
  simp only [h6, if_false] at h
  rcases t with _ | ⟨d, t⟩
  · simp at h
  have hd : d < 256 := hB d (by simp)
  simp only [List.getElem?_cons_zero, List.getElem?_cons_succ, isCont_eq hd] at h
  by_cases h7 : (0x80 ≤ d ∧ d < 0xc0)
  rotate_left
  · simp [h7] at h
  exact ⟨[a, b, c, d], t, _, rfl, .four (by omega) (by omega) (by omega) (by omega) (by omega) (by omega) (by omega) (by omega)⟩

theorem get_ok_iff {s : List Nat} (hB : Bytes s) (p v : Nat) : get s p = .ok v ↔ ∃ l r, s.drop p = l ++ r ∧ Shape l v := by
  rw [get_drop]
  constructor
  · intro h
    obtain ⟨l, r, v', h1, h2⟩ := shape_of_ok (hB.drop p) (Or.inl ⟨v, h⟩)
    rw [h1, get_shape h2] at h
    cases h
    exact ⟨l, r, h1, h2⟩
  · rintro ⟨l, r, h1, h2⟩
    rw [h1, get_shape h2]

theorem next_ok_iff {s : List Nat} (hB : Bytes s) (p q : Nat) : next s p = (q, none) ↔ ∃ l r v, s.drop p = l ++ r ∧ Shape l v ∧ q = p + l.length := by
  rw [next_drop]
  constructor
  · intro h
    have h' : (next (s.drop p) 0).2 = none := (Prod.ext_iff.mp h).2
    obtain ⟨l, r, v, h1, h2⟩ := shape_of_ok (hB.drop p) (Or.inr h')
    rw [h1, next_shape h2] at h
    exact ⟨l, r, v, h1, h2, (Prod.ext_iff.mp h).1.symm⟩
  · rintro ⟨l, r, v, h1, h2, rfl⟩
    rw [h1, next_shape h2]

theorem leadFits_false (c n : Nat) (h : 4 ≤ n) : leadFits c n = false := by
  match n, h with
  | n + 4, _ => rfl

theorem getD_drop (s : List Nat) (p k : Nat) : s.getD (p + k) 0 = (s.drop p).getD k 0 := by
  simp [List.getD_eq_getElem?_getD, List.getElem?_drop]

/-- `prev` from the end of a sequence of the right shape. -/
theorem prev_shape {s l r : List Nat} {v p : Nat} (h1 : s.drop p = l ++ r) (h2 : Shape l v) : prev s (p + l.length) = (p, none) := by
  have g : ∀ k, s.getD (p + k) 0 = (l ++ r).getD k 0 := fun k => by rw [getD_drop, h1]
  cases h2 with
  | one a1 =>
    have g0 := g 0
    simp only [Nat.add_zero, List.cons_append, List.nil_append, List.getD_cons_zero] at g0
    simp only [prev, List.length_cons, List.length_nil, Nat.zero_add, Nat.add_one_ne_zero, if_false, Nat.add_sub_cancel, prevLoop, g0]
    rw [isCont_eq (by omega), if_pos (by simp only [Bool.not_eq_true', decide_eq_false_iff_not]; omega)]
    rw [if_neg (by simp; omega), if_pos (by simp [leadFits]; omega)]
  | @two a b a1 a2 a3 a4 =>
    have g0 := g 0
    have g1 := g 1
    simp only [Nat.add_zero, List.cons_append, List.nil_append, List.getD_cons_zero, List.getD_cons_succ] at g0 g1
    simp only [prev, List.length_cons, List.length_nil, Nat.zero_add, prevLoop]
    rw [if_neg (by omega), show p + (1 + 1) - 1 = p + 1 by omega, g1, isCont_eq (by omega),
      if_neg (by simp only [Bool.not_eq_true', decide_eq_false_iff_not]; omega), if_neg (by omega), Nat.add_sub_cancel, g0,
      isCont_eq (by omega), if_pos (by simp only [Bool.not_eq_true', decide_eq_false_iff_not]; omega), if_neg (by simp; omega), if_pos (by simp [leadFits]; omega)]
  | @three a b c a1 a2 a3 a4 a5 a6 =>
    have g0 := g 0
    have g1 := g 1
    have g2 := g 2
    simp only [Nat.add_zero, List.cons_append, List.nil_append, List.getD_cons_zero, List.getD_cons_succ] at g0 g1 g2
    simp only [prev, List.length_cons, List.length_nil, Nat.zero_add, prevLoop]
    rw [if_neg (by omega), show p + (1 + 1 + 1) - 1 = p + 2 by omega, show p + 2 - 1 = p + 1 by omega, Nat.add_sub_cancel, g2, g1, g0]
    rw [isCont_eq (c := c) (by omega), if_neg (by simp only [Bool.not_eq_true', decide_eq_false_iff_not]; omega), if_neg (by omega),
      isCont_eq (c := b) (by omega), if_neg (by simp only [Bool.not_eq_true', decide_eq_false_iff_not]; omega), if_neg (by omega),
      isCont_eq (by omega), if_pos (by simp only [Bool.not_eq_true', decide_eq_false_iff_not]; omega), if_neg (by simp; omega), if_pos (by simp [leadFits]; omega)]
  | @four a b c d a1 a2 a3 a4 a5 a6 a7 a8 =>
    have g0 := g 0
    have g1 := g 1
    have g2 := g 2
    have g3 := g 3
    simp only [Nat.add_zero, List.cons_append, List.nil_append, List.getD_cons_zero, List.getD_cons_succ] at g0 g1 g2 g3
    simp only [prev, List.length_cons, List.length_nil, Nat.zero_add, prevLoop]
    rw [if_neg (by omega), show p + (1 + 1 + 1 + 1) - 1 = p + 3 by omega, show p + 3 - 1 = p + 2 by omega, show p + 2 - 1 = p + 1 by omega, Nat.add_sub_cancel,
      g3, g2, g1, g0]
    rw [isCont_eq (c := d) (by omega), if_neg (by simp only [Bool.not_eq_true', decide_eq_false_iff_not]; omega), if_neg (by omega),
      isCont_eq (c := c) (by omega), if_neg (by simp only [Bool.not_eq_true', decide_eq_false_iff_not]; omega), if_neg (by omega),
      isCont_eq (c := b) (by omega), if_neg (by simp only [Bool.not_eq_true', decide_eq_false_iff_not]; omega), if_neg (by omega),
      isCont_eq (by omega), if_pos (by simp only [Bool.not_eq_true', decide_eq_false_iff_not]; omega), if_neg (by simp; omega), if_pos (by simp [leadFits]; omega)]

theorem prevLoop_ok {s : List Nat} : ∀ (n cnt p q : Nat), prevLoop s n cnt p = (q, none) →
    q ≤ p ∧ cnt + (p - q) < cnt + n ∧ leadFits (s.getD q 0) (cnt + (p - q)) = true ∧ isCont (s.getD q 0) = false ∧ ∀ k, q < k → k ≤ p → isCont (s.getD k 0) = true := by
  intro n
  induction n with
  | zero => intro cnt p q h; simp [prevLoop] at h
  | succ n ih =>
    intro cnt p q h
    unfold prevLoop at h
    by_cases hc : isCont (s.getD p 0) = true
    · rw [if_neg (by rw [hc]; simp)] at h
      by_cases hp : p = 0
      · rw [if_pos hp] at h; simp at h
      · rw [if_neg hp] at h
        obtain ⟨h1, h2, h3, h4, h5⟩ := ih _ _ _ h
        refine ⟨by omega, by omega, ?_, h4, ?_⟩
        · rw [show cnt + (p - q) = cnt + 1 + (p - 1 - q) by omega]; exact h3
        · intro k hk1 hk2
          by_cases hkp : k = p
          · rw [hkp]; exact hc
          · exact h5 k hk1 (by omega)
    · have hc' : isCont (s.getD p 0) = false := by simpa using hc
      rw [if_pos (by rw [hc']; rfl)] at h
      have h1 := (Prod.ext_iff.mp h).1
      have h2 := (Prod.ext_iff.mp h).2
      simp only at h1 h2
      subst h1
      refine ⟨Nat.le_refl _, by omega, ?_, hc', fun k h1 h2 => by omega⟩
      rw [Nat.sub_self, Nat.add_zero]
      revert h2
      split
      · simp
      · split
        · intro _; assumption
        · simp

/-- Success of `prev` shows the shape of the sequence before the position. -/
theorem shape_of_prev {s : List Nat} (hB : Bytes s) {p q : Nat} (hq : q ≤ s.length) (h : prev s q = (p, none)) :
    ∃ l r v, s.drop p = l ++ r ∧ Shape l v ∧ q = p + l.length := by
  unfold prev at h
  by_cases h0 : q = 0
  · rw [if_pos h0] at h; simp at h
  rw [if_neg h0] at h
  obtain ⟨h1, h2, h3, h4, h5⟩ := prevLoop_ok _ _ _ _ h
  have hlen : (s.drop p).length = s.length - p := List.length_drop
  have hBd := hB.drop p
  have hlead : (s.drop p).getD 0 0 = s.getD p 0 := by rw [← getD_drop]; rfl
  have hbyte : ∀ k, s.getD k 0 < 256 := by
    intro k
    rw [List.getD_eq_getElem?_getD]
    by_cases hk : k < s.length
    · rw [List.getElem?_eq_getElem hk]; exact hB _ (List.getElem_mem hk)
    · rw [List.getElem?_eq_none (by omega)]; decide
  have hc : ∀ k, 1 ≤ k → k ≤ q - 1 - p → 0x80 ≤ (s.drop p).getD k 0 ∧ (s.drop p).getD k 0 < 0xc0 := by
    intro k hk1 hk2
    have := h5 (p + k) (by omega) (by omega)
    rw [isCont_eq (hbyte _), decide_eq_true_eq, getD_drop] at this
    exact this
  rw [← hlead, Nat.zero_add] at h3
  rcases hd : s.drop p with _ | ⟨a, t⟩
  · rw [hd] at hlen; simp at hlen; omega
  rw [hd] at hc h3 hlen
  simp only [List.getD_cons_zero, List.length_cons] at h3 hlen
  have hm : q - 1 - p < 4 := by omega
  generalize hmm : q - 1 - p = m at *
  match m, hm with
  | 0, _ =>
    simp only [leadFits, decide_eq_true_eq] at h3
    exact ⟨[a], t, a, rfl, .one (by omega), by simp; omega⟩
  | 1, _ =>
    simp only [leadFits, decide_eq_true_eq] at h3
    rcases t with _ | ⟨b, t⟩
    · simp at hlen; omega
    have c1 := hc 1 (by omega) (by omega)
    simp only [List.getD_cons_succ, List.getD_cons_zero] at c1
    exact ⟨[a, b], t, _, rfl, .two (by omega) (by omega) (by omega) (by omega), by simp; omega⟩
  | 2, _ =>
    simp only [leadFits, decide_eq_true_eq] at h3
    rcases t with _ | ⟨b, _ | ⟨c, t⟩⟩
    · simp at hlen; omega
    · simp at hlen; omega
    have c1 := hc 1 (by omega) (by omega)
    have c2 := hc 2 (by omega) (by omega)
    simp only [List.getD_cons_succ, List.getD_cons_zero] at c1 c2
    exact ⟨[a, b, c], t, _, rfl, .three (by omega) (by omega) (by omega) (by omega) (by omega) (by omega), by simp; omega⟩
  | 3, _ =>
    simp only [leadFits, decide_eq_true_eq] at h3
    rcases t with _ | ⟨b, _ | ⟨c, _ | ⟨d, t⟩⟩⟩
    · simp at hlen; omega
    · simp at hlen; omega
    · simp at hlen; omega
    have c1 := hc 1 (by omega) (by omega)
    have c2 := hc 2 (by omega) (by omega)
    have c3 := hc 3 (by omega) (by omega)
    simp only [List.getD_cons_succ, List.getD_cons_zero] at c1 c2 c3
    exact ⟨[a, b, c, d], t, _, rfl, .four (by omega) (by omega) (by omega) (by omega) (by omega) (by omega) (by omega) (by omega), by simp; omega⟩

/-! ### Encoding -/

theorem encode_shape {c : Nat} (h : c < 0x110000) : Shape (encode c) c := by
  unfold encode
  by_cases h1 : c < 0x80
  · rw [if_pos h1]; exact .one h1
  rw [if_neg h1]
  by_cases h2 : c < 0x800
  · rw [if_pos h2]
    have : c = (0xC0 + c / 64 - 0xC0) * 64 + (0x80 + c % 64 - 0x80) := by omega
    rw (config := { occs := .pos [3] }) [this]
    exact .two (by omega) (by omega) (by omega) (by omega)
  rw [if_neg h2]
  by_cases h3 : c < 0x10000
  · rw [if_pos h3]
    have : c = (0xE0 + c / 4096 - 0xE0) * 4096 + (0x80 + c / 64 % 64 - 0x80) * 64 + (0x80 + c % 64 - 0x80) := by omega
    rw (config := { occs := .pos [4] }) [this]
    exact .three (by omega) (by omega) (by omega) (by omega) (by omega) (by omega)
  rw [if_neg h3]
  have : c = (0xF0 + c / 262144 - 0xF0) * 262144 + (0x80 + c / 4096 % 64 - 0x80) * 4096 + (0x80 + c / 64 % 64 - 0x80) * 64 + (0x80 + c % 64 - 0x80) := by omega
  rw (config := { occs := .pos [5] }) [this]
  exact .four (by omega) (by omega) (by omega) (by omega) (by omega) (by omega) (by omega) (by omega)

theorem Spec.Scalar.lt {c : Nat} (h : Scalar c) : c < 0x110000 := by unfold Scalar at h; omega

/-- A sequence of the right shape is the encoding of a scalar value unless it is one of the four ill-formed kinds. -/
theorem shape_encode {l : List Nat} {v : Nat} (h : Shape l v) (hn : ¬ Lenient l) : Scalar v ∧ l = encode v := by
  unfold Scalar encode
  cases h with
  | one h1 => exact ⟨by omega, by rw [if_pos h1]⟩
  | two h1 h2 h3 h4 =>
    refine ⟨by omega, ?_⟩
    rw [if_neg (by omega), if_pos (by omega)]
    simp only [List.cons.injEq, and_true]; omega
  | three h1 h2 h3 h4 h5 h6 =>
    simp only [Lenient] at hn
    refine ⟨by omega, ?_⟩
    rw [if_neg (by omega), if_neg (by omega), if_pos (by omega)]
    simp only [List.cons.injEq, and_true]; omega
  | four h1 h2 h3 h4 h5 h6 h7 h8 =>
    simp only [Lenient] at hn
    refine ⟨by omega, ?_⟩
    rw [if_neg (by omega), if_neg (by omega), if_neg (by omega)]
    simp only [List.cons.injEq, and_true]; omega

theorem encode_not_lenient {c : Nat} (h : Scalar c) : ¬ Lenient (encode c) := by
  unfold Scalar at h
  unfold encode
  by_cases h1 : c < 0x80
  · rw [if_pos h1]; simp [Lenient]
  rw [if_neg h1]
  by_cases h2 : c < 0x800
  · rw [if_pos h2]; simp only [Lenient]; omega
  rw [if_neg h2]
  by_cases h3 : c < 0x10000
  · rw [if_pos h3]; simp only [Lenient]; omega
  rw [if_neg h3]; simp only [Lenient]; omega

theorem text_append (a b : List Nat) : text (a ++ b) = text a ++ text b := by simp [text]

theorem text_bytes {cs : List Nat} (h : ∀ c ∈ cs, Scalar c) : Bytes (text cs) := by
  intro b hb
  simp only [text, List.mem_flatMap] at hb
  obtain ⟨c, hc, hb⟩ := hb
  exact (encode_shape (h c hc).lt).bytes b hb

/-- Position of the `k`-th character. -/
def posOf (cs : List Nat) (k : Nat) : Nat := (text (cs.take k)).length

theorem drop_posOf (cs : List Nat) (k : Nat) : (text cs).drop (posOf cs k) = text (cs.drop k) := by
  have : text cs = text (cs.take k) ++ text (cs.drop k) := by rw [← text_append, List.take_append_drop]
  rw [this]
  exact List.drop_left

theorem text_cons (c : Nat) (cs : List Nat) : text (c :: cs) = encode c ++ text cs := by simp [text]

theorem posOf_succ {cs : List Nat} {k : Nat} (hk : k < cs.length) : posOf cs (k + 1) = posOf cs k + (encode cs[k]).length := by
  unfold posOf
  rw [List.take_succ_eq_append_getElem hk, text_append, List.length_append]
  congr 1
  simp [text]

theorem posOf_length (cs : List Nat) : posOf cs cs.length = (text cs).length := by simp [posOf]

theorem encode_ne_nil (c : Nat) : encode c ≠ [] := by
  unfold encode
  split
  · simp
  · split
    · simp
    · split <;> simp

theorem posOf_lt {cs : List Nat} {k : Nat} (hk : k < cs.length) : posOf cs k < (text cs).length := by
  have h1 : (text (cs.drop k)).length = (text cs).length - posOf cs k := by rw [← drop_posOf, List.length_drop]
  have h2 : 0 < (text (cs.drop k)).length := by
    rw [List.drop_eq_getElem_cons hk, text_cons, List.length_append]
    have := List.length_pos_iff.mpr (encode_ne_nil cs[k])
    omega
  omega

theorem posOf_zero (cs : List Nat) : posOf cs 0 = 0 := rfl

theorem posOf_pos {cs : List Nat} {k : Nat} (hk : k < cs.length) : 0 < posOf cs (k + 1) := by
  rw [posOf_succ hk]
  have := List.length_pos_iff.mpr (encode_ne_nil cs[k])
  omega

theorem at_posOf {cs : List Nat} {k : Nat} (h : ∀ c ∈ cs, Scalar c) (hk : k < cs.length) :
    ∃ r, (text cs).drop (posOf cs k) = encode cs[k] ++ r ∧ Shape (encode cs[k]) cs[k] := by
  refine ⟨text (cs.drop (k + 1)), ?_, encode_shape (h _ (List.getElem_mem hk)).lt⟩
  rw [drop_posOf, List.drop_eq_getElem_cons hk, text_cons]

end Verif.Text

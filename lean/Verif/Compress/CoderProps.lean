import Verif.Compress.Coder
/-
Property C68 of the model of `ArithmeticCoder` and `ArithmeticDecoder`.
-/
namespace Verif.Compress

/-! ### Bits -/

theorem and_pow (v i : Nat) : (v &&& 2 ^ i != 0) = v.testBit i := by
  cases h : v.testBit i with
  | true =>
    have : (v &&& 2 ^ i).testBit i = true := by rw [Nat.testBit_and, h, Nat.testBit_two_pow_self]; rfl
    rw [bne_iff_ne]
    intro e; rw [e, Nat.zero_testBit] at this; cases this
  | false =>
    have : v &&& 2 ^ i = 0 := by
      apply Nat.eq_of_testBit_eq
      intro j
      rw [Nat.testBit_and, Nat.testBit_two_pow, Nat.zero_testBit]
      by_cases e : i = j
      · rw [← e, h]; rfl
      · simp [e]
    rw [this]; rfl

theorem e29 : (2:Nat) ^ 29 = 536870912 := by decide
theorem e30 : (2:Nat) ^ 30 = 1073741824 := by decide

theorem firstBit_eq {v : Nat} (h : v < 2147483648) : firstBit v = decide (1073741824 ≤ v) := by
  unfold firstBit
  have e := and_pow v 30
  rw [Nat.testBit_eq_decide_div_mod_eq, e30] at e
  rw [e, decide_eq_decide]
  omega

theorem secondBit_eq (v : Nat) : secondBit v = decide (v / 536870912 % 2 = 1) := by
  unfold secondBit
  have e := and_pow v 29
  rw [Nat.testBit_eq_decide_div_mod_eq, e29] at e
  exact e

theorem mask31 (v : Nat) : v &&& 0x7FFFFFFF = v % 2147483648 := Nat.and_two_pow_sub_one_eq_mod v 31
theorem mask29 (v : Nat) : v &&& 0x1FFFFFFF = v % 536870912 := Nat.and_two_pow_sub_one_eq_mod v 29

theorem or_bit (a : Nat) (b : Bool) : 2 * a ||| b.toNat = 2 * a + b.toNat := by
  have := Nat.two_pow_add_eq_or_of_lt (i := 1) (b := b.toNat) (by cases b <;> decide) a
  simpa using this.symm

theorem w32_shl {v : Nat} (h : v < 2147483648) : w32 (v <<< 1) = 2 * v := by
  unfold w32; rw [Nat.shiftLeft_eq]; omega

theorem shl_mask {v : Nat} (h : v < 2147483648) : w32 (v <<< 1) &&& 0x7FFFFFFF = 2 * (v % 1073741824) := by
  rw [w32_shl h, mask31]; omega

theorem shiftLow_eq {v : Nat} (h : v < 2147483648) : shiftLow v = 2 * (v % 1073741824) := shl_mask h
theorem shiftHigh_eq {v : Nat} (h : v < 2147483648) : shiftHigh v = 2 * (v % 1073741824) + 1 := by
  unfold shiftHigh; rw [shl_mask h]; exact or_bit _ true

theorem or29 {v : Nat} (h1 : 1073741824 ≤ v) (h2 : v < 1610612736) : v ||| 0x20000000 = v + 536870912 := by
  obtain ⟨r, hr, e⟩ : ∃ r, r < 2 ^ 29 ∧ v = 2 ^ 29 * 2 + r := by rw [e29]; exact ⟨v - 1073741824, by omega, by omega⟩
  have h3 := Nat.two_pow_add_eq_or_of_lt hr 2
  have h4 := Nat.two_pow_add_eq_or_of_lt hr 3
  rw [e, h3, Nat.or_assoc, Nat.or_comm r, ← Nat.or_assoc]
  have : (2 ^ 29 * 2 ||| 0x20000000 : Nat) = 2 ^ 29 * 3 := by decide
  rw [this, ← h4, ← h3]
  have : (2:Nat)^29 = 536870912 := by decide
  omega

theorem xor29 {v : Nat} (h1 : 536870912 ≤ v) (h2 : v < 1610612736) : v ^^^ 0x20000000 = if v < 1073741824 then v - 536870912 else v + 536870912 := by
  have hd : (v ^^^ 0x20000000) / 2 ^ 29 = v / 2 ^ 29 ^^^ 1 := by rw [Nat.xor_div_two_pow]
  have hm : (v ^^^ 0x20000000) % 2 ^ 29 = v % 2 ^ 29 := by
    rw [Nat.xor_mod_two_pow]; exact Nat.xor_zero _
  have e : (2:Nat)^29 = 536870912 := by decide
  rw [e] at hd hm
  by_cases hv : v < 1073741824
  · have : v / 536870912 = 1 := by omega
    rw [this] at hd
    have hd : (v ^^^ 0x20000000) / 536870912 = 0 := hd
    rw [if_pos hv]; omega
  · have : v / 536870912 = 2 := by omega
    rw [this] at hd
    have hd : (v ^^^ 0x20000000) / 536870912 = 3 := hd
    rw [if_neg hv]; omega

/-! ### The value of bits -/

def val (src : Nat → Bool) (n : Nat) : Nat → Nat
  | 0 => 0
  | m + 1 => 2 * val src n m + (src (n + m)).toNat

theorem val_lt (src : Nat → Bool) (n m : Nat) : val src n m < 2 ^ m := by
  induction m with
  | zero => exact Nat.one_pos
  | succ m ih => simp only [val, Nat.pow_succ]; have := Bool.toNat_lt (src (n + m)); omega

theorem val_add (src : Nat → Bool) (n m k : Nat) : val src n (m + k) = val src n m * 2 ^ k + val src (n + m) k := by
  induction k with
  | zero => simp [val]
  | succ k ih => rw [← Nat.add_assoc]; simp only [val]; rw [ih, Nat.pow_succ, Nat.mul_add, ← Nat.add_assoc n m k]
                 rw [← Nat.mul_assoc, Nat.mul_comm 2 (val src n m), Nat.mul_assoc, Nat.mul_comm 2 (2 ^ k)]; omega

theorem val_ones {src : Nat → Bool} {n m : Nat} (h : ∀ i, i < m → src (n + i) = true) : val src n m + 1 = 2 ^ m := by
  induction m with
  | zero => rfl
  | succ m ih => simp only [val, Nat.pow_succ]; have := ih (fun i hi => h i (by omega)); rw [h m (by omega)]; simp only [Bool.toNat_true]; omega

theorem val_zeros {src : Nat → Bool} {n m : Nat} (h : ∀ i, i < m → src (n + i) = false) : val src n m = 0 := by
  induction m with
  | zero => rfl
  | succ m ih => simp only [val]; rw [ih (fun i hi => h i (by omega)), h m (by omega)]; rfl

theorem readBits_eq (src : Nat → Bool) (n p : Nat) : ∀ (m q : Nat), q = n + m → m + p ≤ 31 → readBits src p q (val src n m) = val src n (m + p) := by
  induction p with
  | zero => intro m q _ _; rfl
  | succ p ih =>
    intro m q hq hm
    have hv := val_lt src n m
    have h1 : (2:Nat) ^ m ≤ 2 ^ 31 := Nat.pow_le_pow_right (by decide) (by omega)
    have h2 : (2:Nat) ^ 31 = 2147483648 := by decide
    simp only [readBits]
    rw [w32_shl (by omega), or_bit]
    have h3 := ih (m + 1) (q + 1) (by omega) (by omega)
    simp only [val] at h3
    rw [hq] at h3 ⊢
    rw [h3]; congr 1; omega

/-! ### The invariant -/

structure Enc.Ok (e : Enc) : Prop where
  le : e.low ≤ e.high
  lt : e.high < 2147483648

/-- What the decoder reads next (31 bits and as many as are pending) is inside the interval. -/
def Good (src : Nat → Bool) (e : Enc) (n : Nat) : Prop :=
  e.low + 1073741824 * 2 ^ e.under ≤ val src n (31 + e.under) + 1073741824 ∧ val src n (31 + e.under) + 1073741824 ≤ e.high + 1073741824 * 2 ^ e.under

/-- The decoder is where the coder is. -/
structure Rel (src : Nat → Bool) (e : Enc) (n : Nat) (d : Dec) : Prop where
  low : d.low = e.low
  high : d.high = e.high
  pos : d.pos = 31 + n + e.under
  code : d.code + 1073741824 * 2 ^ e.under = val src n (31 + e.under) + 1073741824

theorem Spec.Begins.app {src : Nat → Bool} {n : Nat} {as bs : List Bool} (h : Spec.Begins src n (as ++ bs)) : Spec.Begins src n as ∧ Spec.Begins src (n + as.length) bs := by
  refine ⟨fun i b e => h i b ?_, fun i b e => ?_⟩
  · rw [List.getElem?_append_left (List.getElem?_eq_some_iff.1 e).1]; exact e
  · have := h (as.length + i) b (by rw [List.getElem?_append_right (by omega), Nat.add_sub_cancel_left]; exact e)
    rw [← this]; congr 1; omega

theorem begins_first {src : Nat → Bool} {n u : Nat} {b : Bool} (h : Spec.Begins src n (b :: List.replicate u (!b))) : val src n (1 + u) + (if b then 0 else 1) = 2 ^ u := by
  have h0 : src n = b := h 0 b rfl
  have h1 : ∀ i, i < u → src (n + 1 + i) = !b := fun i hi => by
    have := h (i + 1) (!b) (by rw [List.getElem?_cons_succ, List.getElem?_replicate, if_pos hi])
    rw [← this]; congr 1; omega
  rw [val_add]
  have e : val src n 1 = b.toNat := by simp [val, h0]
  rw [e]
  cases b with
  | true => rw [val_zeros (by simpa using h1)]; simp
  | false => simp; exact val_ones (by simpa using h1)

/-- One round of the loop that emits. -/
theorem emit_round {src : Nat → Bool} {e : Enc} {n : Nat} (hok : e.Ok) (hb : firstBit e.low = firstBit e.high) (hsrc : Spec.Begins src n (firstBit e.low :: List.replicate e.under (!firstBit e.low))) :
    Enc.Ok ⟨shiftLow e.low, shiftHigh e.high, 0⟩ ∧ (Good src ⟨shiftLow e.low, shiftHigh e.high, 0⟩ (n + (1 + e.under)) → Good src e n) ∧
    ∀ d, Rel src e n d → Rel src ⟨shiftLow e.low, shiftHigh e.high, 0⟩ (n + (1 + e.under)) (d.shift src) := by
  have hll : e.low < 2147483648 := Nat.lt_of_le_of_lt hok.le hok.lt
  have hlo := shiftLow_eq hll
  have hhi := shiftHigh_eq hok.lt
  have hle := hok.le
  have hlt := hok.lt
  have hb' := hb
  rw [firstBit_eq hll, firstBit_eq hok.lt, decide_eq_decide] at hb'
  have hfirst := begins_first hsrc
  rw [firstBit_eq hll] at hfirst
  have hv : val src n (31 + e.under) = val src n (1 + e.under) * 2 ^ 30 + val src (n + (1 + e.under)) 30 := by
    rw [← val_add]; congr 1; omega
  have hx : val src (n + (1 + e.under)) 31 = 2 * val src (n + (1 + e.under)) 30 + (src (n + (1 + e.under) + 30)).toNat := rfl
  have hbit := Bool.toNat_lt (src (n + (1 + e.under) + 30))
  have hy := val_lt src (n + (1 + e.under)) 30
  rw [e30] at hv hy
  refine ⟨⟨?_, ?_⟩, ?_, ?_⟩
  · show shiftLow e.low ≤ shiftHigh e.high
    rw [hlo, hhi]; omega
  · show shiftHigh e.high < _
    rw [hhi]; omega
  · intro hg
    unfold Good at hg ⊢
    simp only [Nat.pow_zero, Nat.add_zero] at hg
    rw [hlo, hhi, hx] at hg
    rw [hv]
    generalize 2 ^ e.under = U at *
    generalize val src (n + (1 + e.under)) 30 = Y at *
    generalize val src n (1 + e.under) = A at *
    generalize (src (n + (1 + e.under) + 30)).toNat = B at *
    by_cases hc : 1073741824 ≤ e.low
    · have : 1073741824 ≤ e.high := by omega
      simp [hc] at hfirst; omega
    · have : ¬ 1073741824 ≤ e.high := by omega
      simp [hc] at hfirst; omega
  · intro d hd
    have hcode := hd.code
    rw [hv] at hcode
    have hc : d.code < 2147483648 ∧ d.code % 1073741824 = val src (n + (1 + e.under)) 30 := by
      generalize 2 ^ e.under = U at *
      generalize val src (n + (1 + e.under)) 30 = Y at *
      generalize val src n (1 + e.under) = A at *
      by_cases hc : 1073741824 ≤ e.low
      · simp [hc] at hfirst; omega
      · simp [hc] at hfirst; omega
    have hpos : src d.pos = src (n + (1 + e.under) + 30) := by rw [hd.pos]; congr 1; omega
    refine ⟨?_, ?_, ?_, ?_⟩
    · show shiftLow d.low = _; rw [hd.low]
    · show shiftHigh d.high = _; rw [hd.high]
    · show d.pos + 1 = _; rw [hd.pos]; simp only []; omega
    · show ((w32 (d.code <<< 1) &&& 0x7FFFFFFF) ||| (src d.pos).toNat) + 1073741824 * 2 ^ 0 = val src _ 31 + _
      rw [shl_mask hc.1, or_bit, hc.2, hpos, hx]

/-- One round of the loop that leaves a bit pending. -/
theorem under_round {src : Nat → Bool} {e : Enc} {n : Nat} (hok : e.Ok) (hb : ¬ firstBit e.low = firstBit e.high) (hs : secondBit e.low = true ∧ secondBit e.high = false) :
    Enc.Ok ⟨shiftLow (e.low &&& 0x1FFFFFFF), shiftHigh (e.high ||| 0x20000000), e.under + 1⟩ ∧
    (Good src ⟨shiftLow (e.low &&& 0x1FFFFFFF), shiftHigh (e.high ||| 0x20000000), e.under + 1⟩ n → Good src e n) ∧
    (Good src e n → ∀ d, Rel src e n d → Rel src ⟨shiftLow (e.low &&& 0x1FFFFFFF), shiftHigh (e.high ||| 0x20000000), e.under + 1⟩ n
      (Dec.shift src ⟨d.low &&& 0x1FFFFFFF, d.high ||| 0x20000000, d.code ^^^ 0x20000000, d.pos⟩)) := by
  have hll : e.low < 2147483648 := Nat.lt_of_le_of_lt hok.le hok.lt
  have hle := hok.le
  have hlt := hok.lt
  rw [firstBit_eq hll, firstBit_eq hok.lt, decide_eq_decide] at hb
  rw [secondBit_eq, secondBit_eq, decide_eq_true_eq, decide_eq_false_iff_not] at hs
  have h1 : 536870912 ≤ e.low ∧ e.low < 1073741824 := by omega
  have h2 : 1073741824 ≤ e.high ∧ e.high < 1610612736 := by omega
  have hlo : shiftLow (e.low &&& 0x1FFFFFFF) = 2 * (e.low - 536870912) := by rw [mask29, shiftLow_eq (by omega)]; omega
  have hhi : shiftHigh (e.high ||| 0x20000000) = 2 * (e.high - 536870912) + 1 := by rw [or29 h2.1 h2.2, shiftHigh_eq (by omega)]; omega
  have hx : val src n (31 + (e.under + 1)) = 2 * val src n (31 + e.under) + (src (n + (31 + e.under))).toNat := rfl
  have hbit := Bool.toNat_lt (src (n + (31 + e.under)))
  refine ⟨⟨?_, ?_⟩, ?_, ?_⟩
  · show shiftLow _ ≤ shiftHigh _
    rw [hlo, hhi]; omega
  · show shiftHigh _ < _
    rw [hhi]; omega
  · intro hg
    unfold Good at hg ⊢
    simp only [] at hg
    rw [hlo, hhi, hx, Nat.pow_succ] at hg
    generalize 2 ^ e.under = U at *
    generalize val src n (31 + e.under) = Y at *
    generalize (src (n + (31 + e.under))).toNat = B at *
    omega
  · intro hg d hd
    have hcode := hd.code
    unfold Good at hg
    have hc : e.low ≤ d.code ∧ d.code ≤ e.high := by omega
    have hpos : src d.pos = src (n + (31 + e.under)) := by rw [hd.pos]; congr 1; omega
    refine ⟨?_, ?_, ?_, ?_⟩
    · show shiftLow (d.low &&& _) = _; rw [hd.low]
    · show shiftHigh (d.high ||| _) = _; rw [hd.high]
    · show d.pos + 1 = _; rw [hd.pos]; simp only []; omega
    · show ((w32 ((d.code ^^^ 0x20000000) <<< 1) &&& 0x7FFFFFFF) ||| (src d.pos).toNat) + 1073741824 * 2 ^ (e.under + 1) = val src n (31 + (e.under + 1)) + _
      have hxor := xor29 (v := d.code) (by omega) (by omega)
      have hr : (d.code ^^^ 0x20000000) < 2147483648 ∧ (d.code ^^^ 0x20000000) % 1073741824 = d.code - 536870912 := by
        rw [hxor]; split <;> omega
      rw [shl_mask hr.1, or_bit, hr.2, hpos, hx, Nat.pow_succ]
      generalize 2 ^ e.under = U at *
      generalize val src n (31 + e.under) = Y at *
      generalize (src (n + (31 + e.under))).toNat = B at *
      omega

/-- The loop. -/
theorem loop_good {src : Nat → Bool} : ∀ (k : Nat) (e e' : Enc) (bs : List Bool) (n : Nat), e.Ok → encLoop k e = .ok (e', bs) → Spec.Begins src n bs → Good src e' (n + bs.length) →
    Good src e n ∧ ∀ d, Rel src e n d → ∃ d', decLoop src k d = .ok d' ∧ Rel src e' (n + bs.length) d' := by
  intro k
  induction k with
  | zero => intro e e' bs n _ h; cases h
  | succ k ih =>
    intro e e' bs n hok h hsrc hg
    simp only [encLoop] at h
    by_cases hb : firstBit e.low = firstBit e.high
    · rw [if_pos hb] at h
      cases hx : encLoop k ⟨shiftLow e.low, shiftHigh e.high, 0⟩ with
      | error x => rw [hx] at h; cases h
      | ok r =>
        obtain ⟨e1, bs1⟩ := r
        rw [hx] at h
        injection h with h
        injection h with h1 h2
        subst h1; subst h2
        rw [← List.cons_append] at hsrc hg ⊢
        have hlen : (firstBit e.low :: List.replicate e.under (!firstBit e.low)).length = 1 + e.under := by simp; omega
        obtain ⟨s1, s2⟩ := hsrc.app
        rw [hlen] at s2
        rw [List.length_append, hlen, ← Nat.add_assoc] at hg ⊢
        obtain ⟨a1, a2, a3⟩ := emit_round hok hb s1
        obtain ⟨b1, b2⟩ := ih _ _ _ _ a1 hx s2 hg
        refine ⟨a2 b1, fun d hd => ?_⟩
        obtain ⟨d', hd1, hd2⟩ := b2 _ (a3 d hd)
        refine ⟨d', ?_, hd2⟩
        simp only [decLoop]
        rw [if_pos (by rw [hd.low, hd.high]; exact hb)]; exact hd1
    · rw [if_neg hb] at h
      by_cases hs : secondBit e.low = true ∧ secondBit e.high = false
      · rw [if_pos hs] at h
        obtain ⟨a1, a2, a3⟩ := under_round (src := src) (n := n) hok hb hs
        obtain ⟨b1, b2⟩ := ih _ _ _ _ a1 h hsrc hg
        refine ⟨a2 b1, fun d hd => ?_⟩
        obtain ⟨d', hd1, hd2⟩ := b2 _ (a3 (a2 b1) d hd)
        refine ⟨d', ?_, hd2⟩
        simp only [decLoop]
        rw [if_neg (by rw [hd.low, hd.high]; exact hb), if_pos (by rw [hd.low, hd.high]; exact hs)]; exact hd1
      · rw [if_neg hs] at h
        injection h with h
        injection h with h1 h2
        subst h1; subst h2
        refine ⟨hg, fun d hd => ⟨d, ?_, hd⟩⟩
        simp only [decLoop]
        rw [if_neg (by rw [hd.low, hd.high]; exact hb), if_neg (by rw [hd.low, hd.high]; exact hs)]

/-- Between symbols the interval contains the middle and a quarter beside it. -/
structure Enc.Wide (e : Enc) : Prop extends e.Ok where
  half : e.low < 1073741824 ∧ 1073741824 ≤ e.high
  quarter : e.low < 536870912 ∨ 1610612736 ≤ e.high

theorem Enc.Wide.wide {e : Enc} (h : e.Wide) : e.low + 536870912 < e.high := by
  have := h.half; have := h.quarter; omega

theorem init_wide : Enc.Wide Enc.init := ⟨⟨by decide, by decide⟩, by decide, by decide⟩

/-- The loop ends: every round doubles the interval. -/
theorem loop_ends : ∀ (k : Nat) (e : Enc), e.Ok → 2147483648 < (e.high - e.low + 1) * 2 ^ k → ∃ (e' : Enc) (bs : List Bool), encLoop k e = .ok (e', bs) ∧ e'.Wide := by
  intro k
  induction k with
  | zero => intro e hok h; have := hok.lt; simp at h; omega
  | succ k ih =>
    intro e hok h
    have hll : e.low < 2147483648 := Nat.lt_of_le_of_lt hok.le hok.lt
    have hle := hok.le
    have hlt := hok.lt
    simp only [encLoop]
    rw [Nat.pow_succ, Nat.mul_comm (2 ^ k) 2, ← Nat.mul_assoc] at h
    by_cases hb : firstBit e.low = firstBit e.high
    · rw [if_pos hb]
      have hb' := hb
      rw [firstBit_eq hll, firstBit_eq hok.lt, decide_eq_decide] at hb'
      have hlo := shiftLow_eq hll
      have hhi := shiftHigh_eq hok.lt
      have hw : shiftHigh e.high - shiftLow e.low + 1 = (e.high - e.low + 1) * 2 := by rw [hlo, hhi]; omega
      obtain ⟨e', bs, h1, h2⟩ := ih ⟨shiftLow e.low, shiftHigh e.high, 0⟩ ⟨by show shiftLow e.low ≤ shiftHigh e.high; rw [hlo, hhi]; omega, by show shiftHigh e.high < _; rw [hhi]; omega⟩
        (by show _ < (shiftHigh e.high - shiftLow e.low + 1) * _; rw [hw]; exact h)
      rw [h1]
      exact ⟨e', _, rfl, h2⟩
    · rw [if_neg hb]
      have hb' := hb
      rw [firstBit_eq hll, firstBit_eq hok.lt, decide_eq_decide] at hb'
      by_cases hs : secondBit e.low = true ∧ secondBit e.high = false
      · rw [if_pos hs]
        have hs' := hs
        rw [secondBit_eq, secondBit_eq, decide_eq_true_eq, decide_eq_false_iff_not] at hs'
        have h1 : 536870912 ≤ e.low ∧ e.low < 1073741824 := by omega
        have h2 : 1073741824 ≤ e.high ∧ e.high < 1610612736 := by omega
        have hlo : shiftLow (e.low &&& 0x1FFFFFFF) = 2 * (e.low - 536870912) := by rw [mask29, shiftLow_eq (by omega)]; omega
        have hhi : shiftHigh (e.high ||| 0x20000000) = 2 * (e.high - 536870912) + 1 := by rw [or29 h2.1 h2.2, shiftHigh_eq (by omega)]; omega
        have hw : shiftHigh (e.high ||| 0x20000000) - shiftLow (e.low &&& 0x1FFFFFFF) + 1 = (e.high - e.low + 1) * 2 := by rw [hlo, hhi]; omega
        exact ih ⟨shiftLow (e.low &&& 0x1FFFFFFF), shiftHigh (e.high ||| 0x20000000), e.under + 1⟩ ⟨by show shiftLow _ ≤ shiftHigh _; rw [hlo, hhi]; omega, by show shiftHigh _ < _; rw [hhi]; omega⟩
          (by show _ < (shiftHigh _ - shiftLow _ + 1) * _; rw [hw]; exact h)
      · rw [if_neg hs]
        refine ⟨e, [], rfl, hok, ?_, ?_⟩ <;> (rw [secondBit_eq, secondBit_eq, decide_eq_true_eq, decide_eq_false_iff_not] at hs; omega)

/-- The interval of a part of the scale. -/
theorem narrow {e : Enc} {lo hi sc : Nat} (hok : e.Ok) (h1 : lo < hi) (h2 : hi ≤ sc) (hr : (e.high - e.low + 1) / sc ≠ 0) :
    w32 (e.low + (e.high - e.low + 1) / sc * lo) = e.low + (e.high - e.low + 1) / sc * lo ∧
    w32 (e.low + (e.high - e.low + 1) / sc * hi - 1) = e.low + (e.high - e.low + 1) / sc * hi - 1 ∧
    (e.high - e.low + 1) / sc * lo + (e.high - e.low + 1) / sc ≤ (e.high - e.low + 1) / sc * hi ∧ (e.high - e.low + 1) / sc * hi ≤ e.high - e.low + 1 := by
  have hle := hok.le
  have hlt := hok.lt
  have h3 : (e.high - e.low + 1) / sc * hi ≤ e.high - e.low + 1 := Nat.le_trans (Nat.mul_le_mul_left _ h2) (Nat.div_mul_le_self _ _)
  have h4 : (e.high - e.low + 1) / sc * (lo + 1) ≤ (e.high - e.low + 1) / sc * hi := Nat.mul_le_mul_left _ h1
  rw [Nat.mul_add, Nat.mul_one] at h4
  unfold w32
  generalize (e.high - e.low + 1) / sc * hi = H at *
  generalize (e.high - e.low + 1) / sc * lo = L at *
  generalize (e.high - e.low + 1) / sc = R at *
  refine ⟨?_, ?_, h4, h3⟩ <;> omega

/-- Encoding a part of a scale of at most 2^29 never fails. -/
theorem encode_ok {e : Enc} {lo hi sc : Nat} (hw : e.Wide) (h1 : lo < hi) (h2 : hi ≤ sc) (h3 : sc ≤ 536870912) : ∃ (e' : Enc) (bs : List Bool), encode e lo hi sc = .ok (e', bs) := by
  have hr : (e.high - e.low + 1) / sc ≠ 0 := by
    intro h
    have hlt := hw.wide
    rcases Nat.div_eq_zero_iff.1 h with h | h <;> omega
  obtain ⟨n1, n2, n3, n4⟩ := narrow hw.toOk h1 h2 hr
  have hle := hw.le
  have hlt := hw.lt
  unfold encode
  rw [if_pos ⟨h1, h2⟩, if_neg hr, n1, n2]
  obtain ⟨e', bs, h, _⟩ := loop_ends loopRounds ⟨e.low + (e.high - e.low + 1) / sc * lo, e.low + (e.high - e.low + 1) / sc * hi - 1, e.under⟩
    (by
      generalize (e.high - e.low + 1) / sc * hi = H at *
      generalize (e.high - e.low + 1) / sc * lo = L at *
      generalize (e.high - e.low + 1) / sc = R at *
      exact ⟨by show _ ≤ _; simp only []; omega, by show _ < _; simp only []; omega⟩)
    (by
      show 2147483648 < (_ - _ + 1) * 2 ^ 40
      have : (2:Nat) ^ 40 = 1099511627776 := by decide
      rw [this]
      have : 1 * 1099511627776 ≤ (e.low + (e.high - e.low + 1) / sc * hi - 1 - (e.low + (e.high - e.low + 1) / sc * lo) + 1) * 1099511627776 := Nat.mul_le_mul_right _ (by omega)
      exact Nat.lt_of_lt_of_le (by decide) this)
  exact ⟨e', bs, h⟩

theorem encode_wide {e e' : Enc} {lo hi sc : Nat} {bs : List Bool} (hok : e.Ok) (h : encode e lo hi sc = .ok (e', bs)) : e'.Wide := by
  unfold encode at h
  by_cases ha : lo < hi ∧ hi ≤ sc
  · rw [if_pos ha] at h
    by_cases hr : (e.high - e.low + 1) / sc = 0
    · rw [if_pos hr] at h; cases h
    · rw [if_neg hr] at h
      obtain ⟨n1, n2, n3, n4⟩ := narrow hok ha.1 ha.2 hr
      rw [n1, n2] at h
      have hle := hok.le
      have hlt := hok.lt
      obtain ⟨e1, bs1, h1, h2⟩ := loop_ends loopRounds ⟨e.low + (e.high - e.low + 1) / sc * lo, e.low + (e.high - e.low + 1) / sc * hi - 1, e.under⟩
        (by
          generalize (e.high - e.low + 1) / sc * hi = H at *
          generalize (e.high - e.low + 1) / sc * lo = L at *
          generalize (e.high - e.low + 1) / sc = R at *
          exact ⟨by show _ ≤ _; simp only []; omega, by show _ < _; simp only []; omega⟩)
        (by
          show 2147483648 < (_ - _ + 1) * 2 ^ 40
          have : (2:Nat) ^ 40 = 1099511627776 := by decide
          rw [this]
          have : 1 * 1099511627776 ≤ (e.low + (e.high - e.low + 1) / sc * hi - 1 - (e.low + (e.high - e.low + 1) / sc * lo) + 1) * 1099511627776 := Nat.mul_le_mul_right _ (by omega)
          exact Nat.lt_of_lt_of_le (by decide) this)
      rw [h1] at h
      injection h with h; injection h with h _; rw [← h]; exact h2
  · rw [if_neg ha] at h; cases h

/-- One symbol. -/
theorem encode_good {src : Nat → Bool} {e e' : Enc} {lo hi sc n : Nat} {bs : List Bool} (hok : e.Ok) (h : encode e lo hi sc = .ok (e', bs)) (hsrc : Spec.Begins src n bs) (hg : Good src e' (n + bs.length)) :
    Good src e n ∧ ∀ d, Rel src e n d → (∃ x, d.prob sc = .ok x ∧ lo ≤ x ∧ x < hi) ∧ ∃ d', d.decoded src lo hi sc = .ok d' ∧ Rel src e' (n + bs.length) d' := by
  unfold encode at h
  by_cases ha : lo < hi ∧ hi ≤ sc
  · rw [if_pos ha] at h
    by_cases hr : (e.high - e.low + 1) / sc = 0
    · rw [if_pos hr] at h; cases h
    · rw [if_neg hr] at h
      obtain ⟨n1, n2, n3, n4⟩ := narrow hok ha.1 ha.2 hr
      rw [n1, n2] at h
      have hle := hok.le
      have hlt := hok.lt
      obtain ⟨g1, g2⟩ := loop_good loopRounds _ e' bs n
        (by
          generalize (e.high - e.low + 1) / sc * hi = H at *
          generalize (e.high - e.low + 1) / sc * lo = L at *
          generalize (e.high - e.low + 1) / sc = R at *
          exact ⟨by show _ ≤ _; simp only []; omega, by show _ < _; simp only []; omega⟩) h hsrc hg
      unfold Good at g1
      simp only [] at g1
      have hR : 0 < (e.high - e.low + 1) / sc := Nat.pos_of_ne_zero hr
      refine ⟨?_, fun d hd => ⟨?_, ?_⟩⟩
      · unfold Good; omega
      · have hcode := hd.code
        have hsc : sc ≠ 0 := by omega
        unfold Dec.prob
        rw [hd.low, hd.high, if_neg (by simp [hsc, hr])]
        have hc : w32 (d.code + 4294967296 - e.low) = d.code - e.low ∧ (e.high - e.low + 1) / sc * lo ≤ d.code - e.low ∧ d.code - e.low < (e.high - e.low + 1) / sc * hi := by
          unfold w32
          generalize (e.high - e.low + 1) / sc * hi = H at *
          generalize (e.high - e.low + 1) / sc * lo = L at *
          generalize (e.high - e.low + 1) / sc = R at *
          omega
        rw [hc.1]
        refine ⟨_, rfl, ?_, ?_⟩
        · rw [Nat.le_div_iff_mul_le hR, Nat.mul_comm]; exact hc.2.1
        · rw [Nat.div_lt_iff_lt_mul hR, Nat.mul_comm]; exact hc.2.2
      · unfold Dec.decoded
        rw [if_pos ha, hd.low, hd.high, n1, n2]
        exact g2 _ ⟨rfl, rfl, hd.pos, hd.code⟩
  · rw [if_neg ha] at h; cases h

theorem encodeAll_good {src : Nat → Bool} : ∀ (ps : List Part) (e e' : Enc) (bs : List Bool) (n : Nat), e.Ok → encodeAll e ps = .ok (e', bs) → Spec.Begins src n bs → Good src e' (n + bs.length) →
    Good src e n ∧ ∀ d, Rel src e n d → Spec.Finds src d ps := by
  intro ps
  induction ps with
  | nil =>
    intro e e' bs n _ h _ hg
    injection h with h; injection h with h1 h2
    subst h1; subst h2
    exact ⟨hg, fun _ _ => trivial⟩
  | cons p ps ih =>
    intro e e' bs n hok h hsrc hg
    simp only [encodeAll] at h
    cases hx : encode e p.lo p.hi p.scale with
    | error x => rw [hx] at h; cases h
    | ok r =>
      obtain ⟨e1, b1⟩ := r
      rw [hx] at h
      simp only [] at h
      cases hy : encodeAll e1 ps with
      | error x => rw [hy] at h; cases h
      | ok r =>
        obtain ⟨e2, b2⟩ := r
        rw [hy] at h
        injection h with h; injection h with h1 h2
        subst h1; subst h2
        obtain ⟨s1, s2⟩ := hsrc.app
        rw [List.length_append, ← Nat.add_assoc] at hg
        obtain ⟨a1, a2⟩ := ih e1 e2 b2 (n + b1.length) (encode_wide hok hx).toOk hy s2 hg
        obtain ⟨c1, c2⟩ := encode_good hok hx s1 a1
        refine ⟨c1, fun d hd => ?_⟩
        obtain ⟨c3, d', c4, c5⟩ := c2 d hd
        exact ⟨c3, d', c4, a2 d' c5⟩

theorem init_rel (src : Nat → Bool) : Rel src Enc.init 0 (Dec.init src) := by
  refine ⟨rfl, rfl, rfl, ?_⟩
  show readBits src 31 0 0 + 1073741824 * 1 = val src 0 31 + 1073741824
  have := readBits_eq src 0 31 0 0 rfl (by decide)
  rw [show val src 0 0 = 0 from rfl] at this
  rw [this]

theorem init_ok : Enc.Ok Enc.init := init_wide.toOk

/-! ### The end of the data -/

/-- The value of a list of bits. -/
def listVal (bs : List Bool) : Nat := bs.foldl (fun v b => 2 * v + b.toNat) 0

theorem foldl_val {src : Nat → Bool} (n : Nat) (bs : List Bool) : ∀ m, Spec.Begins src (n + m) bs → bs.foldl (fun v b => 2 * v + b.toNat) (val src n m) = val src n (m + bs.length) := by
  induction bs with
  | nil => intro m _; rfl
  | cons b bs ih =>
    intro m h
    have h0 : src (n + m) = b := h 0 b rfl
    have h1 : Spec.Begins src (n + (m + 1)) bs := fun i b' e => by
      have := h (i + 1) b' (by rw [List.getElem?_cons_succ]; exact e)
      rw [← this]; congr 1; omega
    rw [List.foldl_cons, ← h0]
    have := ih (m + 1) h1
    simp only [val] at this
    rw [this, List.length_cons]; congr 1; omega

theorem begins_val {src : Nat → Bool} {n : Nat} {bs : List Bool} (h : Spec.Begins src n bs) : val src n bs.length = listVal bs := by
  have := foldl_val (src := src) n bs 0 (by rw [Nat.add_zero]; exact h)
  rw [Nat.zero_add] at this
  exact this.symm

theorem listVal_cons (b : Bool) (bs : List Bool) : listVal (b :: bs) = b.toNat * 2 ^ bs.length + listVal bs := by
  have key : ∀ (bs : List Bool) (v : Nat), bs.foldl (fun v b => 2 * v + b.toNat) v = v * 2 ^ bs.length + bs.foldl (fun v b => 2 * v + b.toNat) 0 := by
    intro bs
    induction bs with
    | nil => intro v; simp
    | cons c bs ih =>
      intro v
      rw [List.foldl_cons, ih, List.foldl_cons, ih (2 * 0 + c.toNat), List.length_cons, Nat.pow_succ, Nat.add_mul]
      rw [Nat.mul_zero, Nat.zero_add, Nat.mul_comm 2 v, Nat.mul_assoc, Nat.mul_comm 2, Nat.add_assoc]
  unfold listVal
  rw [List.foldl_cons, key]; simp

/-- The bits are the first ones of the low register; the rest of it is the same in the high one. -/
theorem encEndLoop_spec : ∀ (k m a b : Nat), m ≤ 31 → m < k → a < 2 ^ m → b < 2 ^ m →
    ∃ bs : List Bool, encEndLoop k (2 ^ (31 - m) * a) (2 ^ (31 - m) * b) = .ok bs ∧ bs.length ≤ m ∧ listVal bs = a / 2 ^ (m - bs.length) ∧ a % 2 ^ (m - bs.length) = b % 2 ^ (m - bs.length) := by
  intro k
  induction k with
  | zero => intro m a b _ h; omega
  | succ k ih =>
    intro m a b hm hk ha hb
    simp only [encEndLoop]
    by_cases hne : 2 ^ (31 - m) * a ≠ 2 ^ (31 - m) * b
    · rw [if_pos hne]
      cases m with
      | zero => simp at ha hb; subst ha; subst hb; exact absurd rfl hne
      | succ m =>
        have hpow : 2 ^ (31 - m) = 2 * 2 ^ (31 - (m + 1)) := by
          have : 31 - m = (31 - (m + 1)) + 1 := by omega
          rw [this, Nat.pow_succ, Nat.mul_comm]
        have h31 : 2 ^ (31 - (m + 1)) * 2 ^ m = 1073741824 := by
          rw [← Nat.pow_add, show 31 - (m + 1) + m = 30 from by omega]
        rw [Nat.pow_succ] at ha hb
        have hlt : ∀ x, x < 2 ^ m * 2 → 2 ^ (31 - (m + 1)) * x < 2147483648 := by
          intro x hx
          have : 2 ^ (31 - (m + 1)) * x < 2 ^ (31 - (m + 1)) * (2 ^ m * 2) := Nat.mul_lt_mul_of_pos_left hx (Nat.pow_pos (by decide))
          rw [← Nat.mul_assoc, h31] at this; omega
        have hsh : ∀ x, x < 2 ^ m * 2 → shiftLow (2 ^ (31 - (m + 1)) * x) = 2 ^ (31 - m) * (x % 2 ^ m) := by
          intro x hx
          rw [shiftLow_eq (hlt x hx), ← h31, Nat.mul_mod_mul_left, hpow, Nat.mul_assoc]
        rw [hsh a ha, hsh b hb]
        obtain ⟨bs, h1, h2, h3, h4⟩ := ih m (a % 2 ^ m) (b % 2 ^ m) (by omega) (by omega) (Nat.mod_lt _ (Nat.pow_pos (by decide))) (Nat.mod_lt _ (Nat.pow_pos (by decide)))
        rw [h1]
        refine ⟨_, rfl, by rw [List.length_cons]; omega, ?_, ?_⟩
        · rw [listVal_cons, h3, List.length_cons, show m + 1 - (bs.length + 1) = m - bs.length from by omega]
          have hf : (firstBit (2 ^ (31 - (m + 1)) * a)).toNat = a / 2 ^ m := by
            rw [firstBit_eq (hlt a ha), ← h31]
            have hp : 0 < 2 ^ (31 - (m + 1)) := Nat.pow_pos (by decide)
            by_cases hc : 2 ^ m ≤ a
            · rw [decide_eq_true (Nat.mul_le_mul_left _ hc)]
              rw [Nat.div_eq_of_lt_le (k := 1) (by omega) (by omega)]; rfl
            · rw [decide_eq_false (by intro h; exact hc (Nat.le_of_mul_le_mul_left h hp)), Nat.div_eq_of_lt (by omega)]; rfl
          rw [hf]
          have hs : 2 ^ m = 2 ^ bs.length * 2 ^ (m - bs.length) := by rw [← Nat.pow_add]; congr 1; omega
          have hq : 0 < 2 ^ (m - bs.length) := Nat.pow_pos (by decide)
          have hda := Nat.div_add_mod a (2 ^ m)
          calc a / 2 ^ m * 2 ^ bs.length + a % 2 ^ m / 2 ^ (m - bs.length)
              = (a % 2 ^ m + a / 2 ^ m * 2 ^ bs.length * 2 ^ (m - bs.length)) / 2 ^ (m - bs.length) := by rw [Nat.add_mul_div_right _ _ hq, Nat.add_comm]
            _ = a / 2 ^ (m - bs.length) := by
                congr 1
                rw [Nat.mul_assoc, ← hs, Nat.mul_comm, Nat.add_comm]; exact hda
        · rw [List.length_cons, show m + 1 - (bs.length + 1) = m - bs.length from by omega]
          have hs : 2 ^ (m - bs.length) ∣ 2 ^ m := Nat.pow_dvd_pow 2 (by omega)
          rw [Nat.mod_mod_of_dvd _ hs, Nat.mod_mod_of_dvd _ hs] at h4
          exact h4
    · rw [if_neg hne]
      have hab : a = b := Nat.eq_of_mul_eq_mul_left (Nat.pow_pos (by decide)) (Classical.not_not.1 hne)
      refine ⟨[], rfl, Nat.zero_le _, ?_, by rw [hab]⟩
      rw [List.length_nil, Nat.sub_zero, Nat.div_eq_of_lt ha]; rfl

theorem encEnd_spec {e : Enc} (hok : e.Ok) : ∃ bs : List Bool, encEnd e = .ok bs ∧ bs.length ≤ 31 ∧ listVal bs = e.low / 2 ^ (31 - bs.length) ∧ e.low % 2 ^ (31 - bs.length) = e.high % 2 ^ (31 - bs.length) := by
  have hle := hok.le
  have hlt := hok.lt
  have h := encEndLoop_spec loopRounds 31 e.low e.high (Nat.le_refl _) (by decide) (by show _ < 2147483648; omega) (by show _ < 2147483648; omega)
  simpa [encEnd] using h

theorem end_good {src : Nat → Bool} {e : Enc} {n : Nat} {bs : List Bool} (hw : e.Wide) (hu : e.under = 0) (h : encEnd e = .ok bs) (hsrc : Spec.Begins src n bs)
    (hpad : e.low % 2 ≠ e.high % 2 ∨ ∀ i, src (n + bs.length + i) = true) : Good src e n := by
  obtain ⟨bs', h1, h2, h3, h4⟩ := encEnd_spec hw.toOk
  rw [h] at h1; injection h1 with h1; subst h1
  have hv : val src n 31 = listVal bs * 2 ^ (31 - bs.length) + val src (n + bs.length) (31 - bs.length) := by
    rw [← begins_val hsrc, ← val_add]; congr 1; omega
  have hg := val_lt src (n + bs.length) (31 - bs.length)
  have hwide := hw.wide
  unfold Good
  rw [hu]
  simp only [Nat.pow_zero, Nat.add_zero, Nat.mul_one]
  rw [hv, h3]
  have hp : 0 < 2 ^ (31 - bs.length) := Nat.pow_pos (by decide)
  have h5 := Nat.div_add_mod e.low (2 ^ (31 - bs.length))
  have h6 := Nat.div_add_mod e.high (2 ^ (31 - bs.length))
  have hres : e.low % 2 ^ (31 - bs.length) ≤ val src (n + bs.length) (31 - bs.length) := by
    have hlt := Nat.mod_lt e.low hp
    rcases hpad with hpad | hpad
    · have : 31 - bs.length = 0 := by
        cases hq : 31 - bs.length with
        | zero => rfl
        | succ q =>
          rw [hq] at h4
          have hd : 2 ∣ 2 ^ (q + 1) := ⟨2 ^ q, by rw [Nat.pow_succ, Nat.mul_comm]⟩
          have : e.low % 2 ^ (q + 1) % 2 = e.high % 2 ^ (q + 1) % 2 := by rw [h4]
          rw [Nat.mod_mod_of_dvd _ hd, Nat.mod_mod_of_dvd _ hd] at this
          exact absurd this hpad
      rw [this] at hlt ⊢
      simp at hlt ⊢; omega
    · have := val_ones (src := src) (n := n + bs.length) (m := 31 - bs.length) (fun i _ => hpad i)
      omega
  have hdiv : e.low / 2 ^ (31 - bs.length) < e.high / 2 ^ (31 - bs.length) := by
    apply Classical.byContradiction
    intro hc
    have : e.high / 2 ^ (31 - bs.length) ≤ e.low / 2 ^ (31 - bs.length) := by omega
    have := Nat.mul_le_mul_left (2 ^ (31 - bs.length)) this
    omega
  have hmul := Nat.mul_le_mul_left (2 ^ (31 - bs.length)) (Nat.succ_le_of_lt hdiv)
  rw [Nat.mul_succ] at hmul
  rw [Nat.mul_comm (e.low / _)]
  generalize 2 ^ (31 - bs.length) * (e.low / 2 ^ (31 - bs.length)) = A at *
  generalize 2 ^ (31 - bs.length) * (e.high / 2 ^ (31 - bs.length)) = B at *
  omega

theorem encodeAll_wide : ∀ (ps : List Part) (e e' : Enc) (bs : List Bool), e.Wide → encodeAll e ps = .ok (e', bs) → e'.Wide := by
  intro ps
  induction ps with
  | nil => intro e e' bs hw h; injection h with h; injection h with h _; rw [← h]; exact hw
  | cons p ps ih =>
    intro e e' bs hw h
    simp only [encodeAll] at h
    cases hx : encode e p.lo p.hi p.scale with
    | error x => rw [hx] at h; cases h
    | ok r =>
      rw [hx] at h
      simp only [] at h
      cases hy : encodeAll r.1 ps with
      | error x => rw [hy] at h; cases h
      | ok r2 =>
        rw [hy] at h
        injection h with h; injection h with h _; subst h
        exact ih r.1 r2.1 r2.2 (encode_wide hw.toOk hx) hy

theorem encodeAll_ok : ∀ (ps : List Part) (e : Enc), e.Wide → (∀ p ∈ ps, p.lo < p.hi ∧ p.hi ≤ p.scale ∧ p.scale ≤ 536870912) → ∃ (e' : Enc) (bs : List Bool), encodeAll e ps = .ok (e', bs) := by
  intro ps
  induction ps with
  | nil => intro e _ _; exact ⟨e, [], rfl⟩
  | cons p ps ih =>
    intro e hw hp
    obtain ⟨a1, a2, a3⟩ := hp p List.mem_cons_self
    obtain ⟨e1, b1, h1⟩ := encode_ok hw a1 a2 a3
    obtain ⟨e2, b2, h2⟩ := ih e1 (encode_wide hw.toOk h1) (fun q hq => hp q (List.mem_cons_of_mem _ hq))
    simp only [encodeAll, h1, h2]
    exact ⟨_, _, rfl⟩

/-! ### C68 -/

/-- Compressing never fails if the scales are at most 2^29 (and the parts are parts of them): no exception, no division by zero, and the loops end. -/
theorem coder_never_fails (ps : List Part) (hp : ∀ p ∈ ps, p.lo < p.hi ∧ p.hi ≤ p.scale ∧ p.scale ≤ 536870912) : ∃ bs, compress ps = .ok bs := by
  obtain ⟨e, bs, h⟩ := encodeAll_ok ps Enc.init init_wide hp
  obtain ⟨bs', h', _⟩ := encEnd_spec (encodeAll_wide ps _ _ _ init_wide h).toOk
  unfold compress
  rw [h]; simp only []; rw [h']
  exact ⟨_, rfl⟩

/-- After any parts were encoded there are bits to end with (at most two more than are pending) such that, whatever follows, the decoder finds all the parts again. -/
theorem coder_roundtrip_terminated (ps : List Part) (e : Enc) (bs : List Bool) (h : encodeAll Enc.init ps = .ok (e, bs)) :
    ∃ t : List Bool, t.length = e.under + 2 ∧ ∀ src, Spec.Begins src 0 (bs ++ t) → Spec.Finds src (Dec.init src) ps := by
  have hw := encodeAll_wide ps _ _ _ init_wide h
  have hwide := hw.wide
  have hlt := hw.lt
  have hle := hw.le
  have key : ∀ (b : Bool), (b = false → e.low ≤ 536870912 ∧ 1073741824 ≤ e.high + 1) → (b = true → e.low ≤ 1073741824 ∧ 1610612736 ≤ e.high + 1) →
      ∃ t : List Bool, t.length = e.under + 2 ∧ ∀ src, Spec.Begins src 0 (bs ++ t) → Spec.Finds src (Dec.init src) ps := by
    intro b hb0 hb1
    refine ⟨b :: List.replicate (e.under + 1) (!b), by simp, fun src hsrc => ?_⟩
    obtain ⟨s1, s2⟩ := hsrc.app
    have hv := begins_first s2
    have hval : val src (0 + bs.length) (31 + e.under) = val src (0 + bs.length) (1 + (e.under + 1)) * 2 ^ 29 + val src (0 + bs.length + (1 + (e.under + 1))) 29 := by
      rw [← val_add]; congr 1; omega
    have hg := val_lt src (0 + bs.length + (1 + (e.under + 1))) 29
    rw [e29] at hval hg
    rw [Nat.pow_succ] at hv
    have hgood : Good src e (0 + bs.length) := by
      unfold Good
      rw [hval]
      generalize 2 ^ e.under = U at *
      generalize val src (0 + bs.length + (1 + (e.under + 1))) 29 = G at *
      generalize val src (0 + bs.length) (1 + (e.under + 1)) = A at *
      cases b with
      | false => have := hb0 rfl; simp at hv; omega
      | true => have := hb1 rfl; simp at hv; omega
    exact (encodeAll_good ps _ _ _ 0 init_ok h s1 hgood).2 _ (init_rel src)
  by_cases hc : e.low ≤ 536870912 ∧ 1073741824 ≤ e.high + 1
  · exact key false (fun _ => hc) (fun h => nomatch h)
  · refine key true (fun h => nomatch h) (fun _ => ?_)
    have := hw.half; have := hw.quarter; omega

/-- What the coder wrote is found again by the decoder, if no bits are pending at the end of the data, and the registers differ in the last bit or the data is followed by ones. -/
theorem coder_roundtrip_partial (ps : List Part) (e : Enc) (bs t : List Bool) (src : Nat → Bool) (h : encodeAll Enc.init ps = .ok (e, bs)) (hu : e.under = 0) (ht : encEnd e = .ok t)
    (hsrc : Spec.Begins src 0 (bs ++ t)) (hpad : e.low % 2 ≠ e.high % 2 ∨ ∀ i, src ((bs ++ t).length + i) = true) : Spec.Finds src (Dec.init src) ps := by
  have hw := encodeAll_wide ps _ _ _ init_wide h
  obtain ⟨s1, s2⟩ := hsrc.app
  refine (encodeAll_good ps _ _ _ 0 init_ok h s1 (end_good hw hu ht s2 (hpad.imp id fun hp i => ?_))).2 _ (init_rel src)
  have := hp i
  rw [List.length_append] at this
  rw [← this]; congr 1; omega

/-- Two symbols whose parts of the scales are encoded without pending bits: the hypotheses of `coder_roundtrip_partial` hold. -/
example : ∃ e bs t, encodeAll Enc.init [⟨1, 2, 10⟩, ⟨5, 6, 7⟩] = .ok (e, bs) ∧ e.under = 0 ∧ encEnd e = .ok t ∧ e.low % 2 ≠ e.high % 2 := ⟨_, _, _, rfl, by decide +kernel, rfl, by decide +kernel⟩

/-- One symbol with pending bits, for `coder_roundtrip_terminated`. -/
example : ∃ e bs, encodeAll Enc.init [⟨1, 2, 3⟩, ⟨1, 2, 3⟩] = .ok (e, bs) ∧ e.under = 3 := ⟨_, _, rfl, by decide +kernel⟩

theorem init_dec {src : Nat → Bool} {bs : List Bool} (hl : bs.length = 31) (h : Spec.Begins src 0 bs) : Dec.init src = ⟨0, 0x7FFFFFFF, listVal bs, 31⟩ := by
  have hv := begins_val h
  have := readBits_eq src 0 31 0 0 rfl (by decide)
  rw [show val src 0 0 = 0 from rfl] at this
  unfold Dec.init
  rw [this, ← hv, hl]

/-- Whatever follows, the decoder does not find the middle third: the pending bit is lost at the end of the data. -/
theorem coder_pending_violated : ∃ (ps : List Part) (bs : List Bool), compress ps = .ok bs ∧ ∀ src, Spec.Begins src 0 bs → ¬ Spec.Finds src (Dec.init src) ps := by
  refine ⟨[⟨1, 2, 3⟩], [false, false, true, false, true, false, true, false, true, false, true, false, true, false, true, false, true, false, true, false, true, false, true, false, true, false, true, false, true, false, false], rfl, fun src hsrc hf => ?_⟩
  obtain ⟨⟨x, h1, h2, _⟩, _⟩ := hf
  rw [init_dec rfl hsrc] at h1
  have h3 : Dec.prob ⟨0, 0x7FFFFFFF, listVal [false, false, true, false, true, false, true, false, true, false, true, false, true, false, true, false, true, false, true, false, true, false, true, false, true, false, true, false, true, false, false], 31⟩ 3 = .ok 0 := rfl
  rw [h3] at h1
  injection h1 with h1
  have h2 : 1 ≤ x := h2
  omega

/-- If the registers agree in the last bits, which are not written, and a zero follows (as in the last byte of `BitsToBytesBuffer`), the decoder does not find the symbol. -/
theorem coder_padding_violated : ∃ (ps : List Part) (bs : List Bool), compress ps = .ok bs ∧ ∀ src, Spec.Begins src 0 (bs ++ [false]) → ¬ Spec.Finds src (Dec.init src) ps := by
  refine ⟨[⟨1, 4, 5⟩], [false, false, true, true, false, false, true, true, false, false, true, true, false, false, true, true, false, false, true, true, false, false, true, true, false, false, true, true, false, false], rfl, fun src hsrc hf => ?_⟩
  obtain ⟨⟨x, h1, h2, _⟩, _⟩ := hf
  rw [init_dec rfl hsrc] at h1
  have h3 : Dec.prob ⟨0, 0x7FFFFFFF, listVal ([false, false, true, true, false, false, true, true, false, false, true, true, false, false, true, true, false, false, true, true, false, false, true, true, false, false, true, true, false, false] ++ [false]), 31⟩ 5 = .ok 0 := rfl
  rw [h3] at h1
  injection h1 with h1
  have h2 : 1 ≤ x := h2
  omega

theorem encEndRegs_equal : ∀ (k l h : Nat) (bs : List Bool), encEndLoop k l h = .ok bs → ∃ v, encEndRegs k l h = .ok (v, v) := by
  intro k
  induction k with
  | zero => intro l h bs e; cases e
  | succ k ih =>
    intro l h bs e
    simp only [encEndLoop, encEndRegs] at e ⊢
    by_cases hc : l ≠ h
    · rw [if_pos hc] at e ⊢
      cases h1 : encEndLoop k (shiftLow l) (shiftLow h) with
      | error x => rw [h1] at e; cases e
      | ok b => exact ih _ _ b h1
    · rw [if_neg hc]
      have : l = h := by omega
      subst this
      exact ⟨l, rfl⟩

/-- After the end of the data the coder is of no use: whatever is encoded next, and be it the end of the data once more (which happens if the consumer refused the last bytes), it throws. -/
theorem coder_end_twice_violated (ps : List Part) (e : Enc) (bs : List Bool) (h : encodeAll Enc.init ps = .ok (e, bs)) :
    ∃ v, encEndRegs loopRounds e.low e.high = .ok (v, v) ∧ ∀ lo hi sc, lo < hi → hi ≤ sc → 2 ≤ sc → encode ⟨v, v, e.under⟩ lo hi sc = .error .zeroRange := by
  obtain ⟨t, ht, _⟩ := encEnd_spec (encodeAll_wide ps _ _ _ init_wide h).toOk
  obtain ⟨v, hv⟩ := encEndRegs_equal _ _ _ _ ht
  refine ⟨v, hv, fun lo hi sc h1 h2 h3 => ?_⟩
  unfold encode
  rw [if_pos ⟨h1, h2⟩]
  simp only [Nat.sub_self, Nat.zero_add]
  rw [Nat.div_eq_of_lt (by omega), if_pos rfl]

end Verif.Compress

import Verif.Bits.Model
/-
Bit-level facts about the getter and setter loops.
-/
namespace Verif.Bits

/-- Bit number `i` of byte data, most significant bit of the first byte first. -/
def bitAt (buf : List Nat) (i : Nat) : Bool := (buf.getD (i / 8) 0).testBit (7 - i % 8)

/-- All elements are bytes. -/
def Bytes (buf : List Nat) : Prop := ∀ b ∈ buf, b < 256

theorem bitAt_byte {buf : List Nat} {cur b k : Nat} (hb : buf[cur]? = some b) (hk : k < 8) : bitAt buf (cur * 8 + k) = b.testBit (7 - k) := by
  unfold bitAt
  rw [show (cur * 8 + k) / 8 = cur by omega, show (cur * 8 + k) % 8 = k by omega, List.getD_eq_getElem?_getD, hb]; rfl

theorem testBit_ge {b j n : Nat} (hb : b < 2 ^ n) (hj : n ≤ j) : b.testBit j = false :=
  Nat.testBit_lt_two_pow (Nat.lt_of_lt_of_le hb (Nat.pow_le_pow_right (by omega) hj))

theorem testBit_byte {b j : Nat} (hb : b < 256) (hj : 8 ≤ j) : b.testBit j = false := testBit_ge (n := 8) hb hj

theorem mask_testBit {w len j : Nat} (h : len ≤ w) : (mask w len).testBit j = decide (j < len) := by
  unfold mask
  split
  · rw [show w = len by omega]; simp
  · simp

theorem getLoop_spec {w : Nat} {buf : List Nat} (hw : 8 ≤ w) (hB : Bytes buf) : ∀ (n cur msb count result : Nat), count ≤ n → 1 ≤ msb → msb ≤ 8 → count ≤ w →
    cur * 8 + (8 - msb) + count ≤ 8 * buf.length → result < 2 ^ w → (∀ j < count, result.testBit j = false) →
    ∃ r, getLoop w buf n cur msb count result = some r ∧
      ∀ j, r.testBit j = if j < count then bitAt buf (cur * 8 + (8 - msb) + count - 1 - j) else result.testBit j
  | 0, cur, msb, count, result, hn, _, _, _, _, _, _ => ⟨result, rfl, fun j => by rw [if_neg (by omega)]⟩
  | n + 1, cur, msb, count, result, hn, h1, h8, hcw, hl, hr, hz => by
    unfold getLoop
    by_cases hc : count = 0
    · rw [if_pos hc]
      exact ⟨result, rfl, fun j => by rw [if_neg (by omega)]⟩
    · rw [if_neg hc]
      have hcur : cur < buf.length := by omega
      obtain ⟨b, hb⟩ : ∃ b, buf[cur]? = some b := ⟨_, List.getElem?_eq_getElem hcur⟩
      have hbB : b < 256 := hB b (List.mem_of_getElem? hb)
      have hbw : b % 2 ^ w = b := Nat.mod_eq_of_lt (Nat.lt_of_lt_of_le hbB (Nat.pow_le_pow_right (n := 2) (i := 8) (by omega) hw))
      rw [hb]
      simp only [hbw]
      by_cases hm : count ≤ msb
      · rw [if_pos hm]
        refine ⟨_, rfl, ?_⟩
        intro j
        rw [Nat.testBit_or, Nat.testBit_and, mask_testBit hcw, Nat.testBit_shiftRight]
        by_cases hj : j < count
        · rw [if_pos hj, hz j hj, show cur * 8 + (8 - msb) + count - 1 - j = cur * 8 + (8 - msb + count - 1 - j) by omega, bitAt_byte hb (by omega)]
          rw [show 7 - (8 - msb + count - 1 - j) = msb - count + j by omega]
          simp [hj]
        · rw [if_neg hj]; simp [hj]
      · rw [if_neg hm]
        have hbits : ∀ j, ((result ||| ((b &&& mask w msb) <<< (count - msb))) % 2 ^ w).testBit j =
            if j < count - msb then false else if j < count then b.testBit (j - (count - msb)) else result.testBit j := by
          intro j
          rw [Nat.testBit_mod_two_pow, Nat.testBit_or, Nat.testBit_shiftLeft, Nat.testBit_and, mask_testBit (by omega)]
          by_cases hj : j < count - msb
          · rw [if_pos hj, hz j (by omega)]; simp; omega
          · rw [if_neg hj]
            by_cases hj2 : j < count
            · rw [if_pos hj2, hz j hj2]
              have h3 : j < w := by omega
              have h4 : count - msb ≤ j := by omega
              have h5 : j - (count - msb) < msb := by omega
              simp [h3, h4, h5]
            · rw [if_neg hj2]
              have h5 : ¬ j - (count - msb) < msb := by omega
              simp only [h5, decide_false, Bool.and_false, Bool.or_false]
              by_cases hjw : j < w
              · simp [hjw]
              · rw [testBit_ge hr (by omega)]; simp
        obtain ⟨r, hr1, hr2⟩ := getLoop_spec hw hB n (cur + 1) 8 (count - msb) _ (by omega) (by omega) (by omega) (by omega) (by omega)
          (Nat.mod_lt _ (Nat.two_pow_pos w)) (fun j hj => by rw [hbits j, if_pos hj])
        refine ⟨r, hr1, ?_⟩
        intro j
        rw [hr2 j, hbits j]
        by_cases hj : j < count - msb
        · rw [if_pos hj, if_pos (by omega)]
          congr 1; omega
        · rw [if_neg hj, if_neg hj]
          by_cases hj2 : j < count
          · rw [if_pos hj2, if_pos hj2]
            rw [show cur * 8 + (8 - msb) + count - 1 - j = cur * 8 + (8 - msb + count - 1 - j) by omega, bitAt_byte hb (by omega)]
            congr 1; omega
          · rw [if_neg hj2, if_neg hj2]

theorem getBytes_spec {w : Nat} {buf : List Nat} (hB : Bytes buf) : ∀ (n pos result : Nat), 8 * n ≤ w → result < 2 ^ (w - 8 * n) → pos + n ≤ buf.length →
    ∃ r, getBytes w buf n pos result = some r ∧ ∀ j, r.testBit j = if j < 8 * n then bitAt buf (8 * pos + 8 * n - 1 - j) else result.testBit (j - 8 * n)
  | 0, pos, result, _, _, _ => ⟨result, rfl, fun j => by simp⟩
  | n + 1, pos, result, hw, hr, hl => by
    obtain ⟨b, hb⟩ : ∃ b, buf[pos]? = some b := ⟨_, List.getElem?_eq_getElem (by omega)⟩
    have hbB : b < 256 := hB b (List.mem_of_getElem? hb)
    have hbits : ∀ j, ((result <<< 8 ||| b) % 2 ^ w).testBit j = if j < 8 then b.testBit j else result.testBit (j - 8) := by
      intro j
      rw [Nat.testBit_mod_two_pow, Nat.testBit_or, Nat.testBit_shiftLeft]
      by_cases hj : j < 8
      · rw [if_pos hj]
        have h1 : ¬ 8 ≤ j := by omega
        have h2 : j < w := by omega
        simp [h1, h2]
      · rw [if_neg hj, testBit_byte hbB (by omega)]
        have h1 : 8 ≤ j := by omega
        simp only [ge_iff_le, h1, decide_true, Bool.true_and, Bool.or_false]
        by_cases hjw : j < w
        · simp [hjw]
        · rw [testBit_ge hr (by omega)]; simp
    have hlt : ((result <<< 8 ||| b) % 2 ^ w) < 2 ^ (w - 8 * n) := by
      refine Nat.lt_pow_two_of_testBit _ ?_
      intro j hj
      rw [hbits, if_neg (by omega)]
      exact testBit_ge hr (by omega)
    obtain ⟨r, h1, h2⟩ := getBytes_spec hB n (pos + 1) _ (by omega) hlt (by omega)
    refine ⟨r, by unfold getBytes; rw [hb]; exact h1, ?_⟩
    intro j
    rw [h2 j]
    by_cases hj : j < 8 * n
    · rw [if_pos hj, if_pos (by omega)]
      congr 1; omega
    · rw [if_neg hj, hbits]
      by_cases hj2 : j < 8 * (n + 1)
      · rw [if_pos hj2, if_pos (by omega), show 8 * pos + 8 * (n + 1) - 1 - j = pos * 8 + (8 * n + 7 - j) by omega, bitAt_byte hb (by omega)]
        congr 1; omega
      · rw [if_neg hj2, if_neg (by omega)]
        congr 1

theorem merge_testBit {b c p j : Nat} (hj : j < 8) : (merge b c p).testBit j = ((b.testBit j && !c.testBit j) || p.testBit j) := by
  unfold merge
  rw [show (256 : Nat) = 2 ^ 8 from rfl, Nat.testBit_mod_two_pow, Nat.testBit_or, Nat.testBit_and, Nat.testBit_xor, Nat.testBit_mod_two_pow, Nat.testBit_mod_two_pow,
    show (255 : Nat) = 2 ^ 8 - 1 from rfl, Nat.testBit_two_pow_sub_one]
  simp [hj]

theorem merge_lt (b c p : Nat) : merge b c p < 256 := Nat.mod_lt _ (by omega)

theorem bytes_set {buf : List Nat} (hB : Bytes buf) (i : Nat) {v : Nat} (hv : v < 256) : Bytes (buf.set i v) := by
  intro b hb
  rcases List.mem_or_eq_of_mem_set hb with h | h
  · exact hB b h
  · rw [h]; exact hv

theorem bitAt_set {buf : List Nat} {cur v i : Nat} (hc : cur < buf.length) : bitAt (buf.set cur v) i = if i / 8 = cur then v.testBit (7 - i % 8) else bitAt buf i := by
  unfold bitAt
  rw [List.getD_eq_getElem?_getD, List.getD_eq_getElem?_getD, List.getElem?_set]
  by_cases h : i / 8 = cur
  · subst h; simp [hc]
  · rw [if_neg (fun e => h e.symm), if_neg h]

theorem bitAt_div {buf : List Nat} {cur b i : Nat} (hb : buf[cur]? = some b) (hi : i / 8 = cur) : bitAt buf i = b.testBit (7 - i % 8) := by
  unfold bitAt
  rw [hi, List.getD_eq_getElem?_getD, hb]; rfl

theorem setLoop_spec {w v : Nat} : ∀ (n : Nat) (buf : List Nat) (cur msb count : Nat), Bytes buf → 8 ≤ w → count ≤ n → 1 ≤ msb → msb ≤ 8 →
    count ≤ w → cur * 8 + (8 - msb) + count ≤ 8 * buf.length →
    ∃ r, setLoop w v n buf cur msb count = some r ∧ Bytes r ∧ r.length = buf.length ∧
      ∀ i, bitAt r i = if cur * 8 + (8 - msb) ≤ i ∧ i < cur * 8 + (8 - msb) + count then v.testBit (cur * 8 + (8 - msb) + count - 1 - i) else bitAt buf i
  | 0, buf, cur, msb, count, hB, _, hn, _, _, _, _ => ⟨buf, rfl, hB, rfl, fun i => by rw [if_neg (by omega)]⟩
  | n + 1, buf, cur, msb, count, hB, hw, hn, h1, h8, hcw, hl => by
    unfold setLoop
    by_cases hc : count = 0
    · rw [if_pos hc]
      exact ⟨buf, rfl, hB, rfl, fun i => by rw [if_neg (by omega)]⟩
    · rw [if_neg hc]
      have hcur : cur < buf.length := by omega
      obtain ⟨b, hb⟩ : ∃ b, buf[cur]? = some b := ⟨_, List.getElem?_eq_getElem hcur⟩
      rw [hb]
      simp only
      by_cases hm : count ≤ msb
      · rw [if_pos hm]
        refine ⟨_, rfl, bytes_set hB _ (merge_lt _ _ _), List.length_set, ?_⟩
        intro i
        rw [bitAt_set hcur]
        by_cases hi : i / 8 = cur
        · rw [if_pos hi, merge_testBit (by omega), Nat.testBit_and, Nat.testBit_shiftLeft, Nat.testBit_shiftLeft, mask_testBit hcw, bitAt_div hb hi]
          by_cases hin : cur * 8 + (8 - msb) ≤ i ∧ i < cur * 8 + (8 - msb) + count
          · rw [if_pos hin]
            have h2 : msb - count ≤ 7 - i % 8 := by omega
            have h3 : 7 - i % 8 - (msb - count) < count := by omega
            simp only [ge_iff_le, h2, h3, decide_true, Bool.true_and, Bool.and_true, Bool.not_true, Bool.and_false, Bool.false_or]
            congr 1; omega
          · rw [if_neg hin]
            have h2 : ¬ (msb - count ≤ 7 - i % 8 ∧ 7 - i % 8 - (msb - count) < count) := by omega
            by_cases h3 : msb - count ≤ 7 - i % 8
            · have h4 : ¬ 7 - i % 8 - (msb - count) < count := fun h => h2 ⟨h3, h⟩
              simp [h4]
            · simp [h3]
        · rw [if_neg hi, if_neg (by omega)]
      · rw [if_neg hm]
        obtain ⟨r, hr1, hr2, hr3, hr4⟩ := setLoop_spec (w := w) (v := v) n (buf.set cur (merge b (mask w msb) ((v >>> (count - msb)) &&& mask w msb))) (cur + 1) 8 (count - msb)
          (bytes_set hB _ (merge_lt _ _ _)) hw (by omega) (by omega) (by omega) (by omega) (by rw [List.length_set]; omega)
        refine ⟨r, hr1, hr2, by rw [hr3, List.length_set], ?_⟩
        intro i
        rw [hr4 i, bitAt_set hcur]
        by_cases hin : cur * 8 + (8 - msb) ≤ i ∧ i < cur * 8 + (8 - msb) + count
        · rw [if_pos hin]
          by_cases hi : i / 8 = cur
          · rw [if_neg (by omega), if_pos hi, merge_testBit (by omega), Nat.testBit_and, Nat.testBit_shiftRight, mask_testBit (by omega)]
            have h2 : 7 - i % 8 < msb := by omega
            simp only [h2, decide_true, Bool.not_true, Bool.and_false, Bool.and_true, Bool.false_or]
            congr 1; omega
          · rw [if_pos (by omega)]
            congr 1; omega
        · rw [if_neg hin]
          by_cases hi : i / 8 = cur
          · rw [if_neg (by omega), if_pos hi, merge_testBit (by omega), Nat.testBit_and, mask_testBit (by omega), bitAt_div hb hi]
            have h2 : ¬ 7 - i % 8 < msb := by omega
            simp [h2]
          · rw [if_neg (by omega), if_neg hi]

theorem setBytes_spec : ∀ (n off v : Nat) (buf : List Nat), Bytes buf → off + n ≤ buf.length →
    ∃ r, setBytes n off v buf = some r ∧ Bytes r ∧ r.length = buf.length ∧
      ∀ i, bitAt r i = if 8 * off ≤ i ∧ i < 8 * off + 8 * n then v.testBit (8 * off + 8 * n - 1 - i) else bitAt buf i
  | 0, off, v, buf, hB, _ => ⟨buf, rfl, hB, rfl, fun i => by rw [if_neg (by omega)]⟩
  | n + 1, off, v, buf, hB, hl => by
    unfold setBytes
    rw [if_pos (by omega)]
    obtain ⟨r, h1, h2, h3, h4⟩ := setBytes_spec n off (v >>> 8) (buf.set (off + n) (v % 256)) (bytes_set hB _ (Nat.mod_lt _ (by omega))) (by rw [List.length_set]; omega)
    refine ⟨r, h1, h2, by rw [h3, List.length_set], ?_⟩
    intro i
    rw [h4 i, bitAt_set (by omega)]
    by_cases hin : 8 * off ≤ i ∧ i < 8 * off + 8 * (n + 1)
    · rw [if_pos hin]
      by_cases hi : i / 8 = off + n
      · rw [if_neg (by omega), if_pos hi, show (256 : Nat) = 2 ^ 8 from rfl, Nat.testBit_mod_two_pow]
        have h5 : 7 - i % 8 < 8 := by omega
        simp only [h5, decide_true, Bool.true_and]
        congr 1; omega
      · rw [if_pos (by omega), Nat.testBit_shiftRight]
        congr 1; omega
    · rw [if_neg hin, if_neg (by omega), if_neg (by omega)]

theorem swapLoop_testBit (m v : Nat) : ∀ (i : Nat), i ≤ m → ∀ j,
    (swapLoop m v i).testBit j = (decide (8 * (m - i) ≤ j) && decide (j < 8 * m) && v.testBit (8 * (m - 1 - j / 8) + j % 8))
  | 0, _, j => by
    simp only [swapLoop, Nat.zero_testBit]
    by_cases h : j < 8 * m
    · have : ¬ 8 * (m - 0) ≤ j := by omega
      rw [decide_eq_false this]; rfl
    · simp [h]
  | i + 1, hi, j => by
    simp only [swapLoop]
    rw [Nat.testBit_or, swapLoop_testBit m v i (by omega), Nat.testBit_shiftLeft, show (256 : Nat) = 2 ^ 8 from rfl, Nat.testBit_mod_two_pow, Nat.testBit_shiftRight]
    by_cases h1 : 8 * (m - i) ≤ j
    · have h2 : ¬ j - 8 * (m - 1 - i) < 8 := by omega
      have h3 : 8 * (m - (i + 1)) ≤ j := by omega
      simp [h1, h2, h3]
    · by_cases h2 : 8 * (m - (i + 1)) ≤ j
      · have h3 : j - 8 * (m - 1 - i) < 8 := by omega
        have h4 : 8 * (m - 1 - i) ≤ j := by omega
        have h5 : j < 8 * m := by omega
        simp only [h1, h2, h3, h4, h5, ge_iff_le, decide_true, decide_false, Bool.true_and, Bool.false_and, Bool.false_or]
        congr 1; omega
      · have h4 : ¬ 8 * (m - 1 - i) ≤ j := by omega
        simp [h1, h2, h4]

theorem swap_testBit (m v j : Nat) : (swap m v).testBit j = (decide (j < 8 * m) && v.testBit (8 * (m - 1 - j / 8) + j % 8)) := by
  unfold swap
  rw [swapLoop_testBit m v m (Nat.le_refl _)]
  simp

/-- The getter before byte swapping, whichever loop is used. -/
theorem getRaw_spec {w off size : Nat} {buf : List Nat} (hw : 8 ≤ w) (hB : Bytes buf) (hs : size ≤ w) (hl : (off + size + 7) / 8 ≤ buf.length) :
    ∃ r, (if useMasks off size then getLoop w buf (size + 1) (off / 8) (8 - off % 8) size 0 else getBytes w buf (size / 8) (off / 8) 0) = some r ∧
      ∀ j, r.testBit j = (decide (j < size) && bitAt buf (off + size - 1 - j)) := by
  cases hu : useMasks off size with
  | true =>
    obtain ⟨r, h1, h2⟩ := getLoop_spec hw hB (size + 1) (off / 8) (8 - off % 8) size 0 (by omega) (by omega) (by omega) hs (by omega) (Nat.two_pow_pos _) (by simp)
    refine ⟨r, h1, ?_⟩
    intro j
    rw [h2]
    by_cases hj : j < size
    · rw [if_pos hj]
      simp only [hj, decide_true, Bool.true_and]
      congr 1; omega
    · rw [if_neg hj]; simp [hj]
  | false =>
    unfold useMasks at hu
    simp only [Bool.or_eq_false_iff, decide_eq_false_iff_not] at hu
    obtain ⟨r, h1, h2⟩ := getBytes_spec hB (w := w) (size / 8) (off / 8) 0 (by omega) (Nat.two_pow_pos _) (by omega)
    refine ⟨r, h1, ?_⟩
    intro j
    rw [h2]
    by_cases hj : j < size
    · rw [if_pos (by omega)]
      simp only [hj, decide_true, Bool.true_and]
      congr 1; omega
    · rw [if_neg (by omega)]; simp [hj]

/-- The setter after byte swapping, whichever loop is used. -/
theorem setRaw_spec {w off size v : Nat} {buf : List Nat} (hw : 8 ≤ w) (hB : Bytes buf) (hs : size ≤ w) (hl : (off + size + 7) / 8 ≤ buf.length) :
    ∃ r, (if useMasks off size then setLoop w v (size + 1) buf (off / 8) (8 - off % 8) size else setBytes (size / 8) (off / 8) v buf) = some r ∧
      Bytes r ∧ r.length = buf.length ∧ ∀ i, bitAt r i = if off ≤ i ∧ i < off + size then v.testBit (off + size - 1 - i) else bitAt buf i := by
  cases hu : useMasks off size with
  | true =>
    obtain ⟨r, h1, h2, h3, h4⟩ := setLoop_spec (v := v) (size + 1) buf (off / 8) (8 - off % 8) size hB hw (by omega) (by omega) (by omega) hs (by omega)
    refine ⟨r, h1, h2, h3, ?_⟩
    intro i
    rw [h4, show off / 8 * 8 + (8 - (8 - off % 8)) = off by omega]
  | false =>
    unfold useMasks at hu
    simp only [Bool.or_eq_false_iff, decide_eq_false_iff_not] at hu
    obtain ⟨r, h1, h2, h3, h4⟩ := setBytes_spec (size / 8) (off / 8) v buf hB (by omega)
    refine ⟨r, h1, h2, h3, ?_⟩
    intro i
    rw [h4, show 8 * (off / 8) = off by omega, show 8 * (size / 8) = size by omega]

end Verif.Bits

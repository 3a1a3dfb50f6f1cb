import Verif.Bits.Lemmas
/-
Property C30.
-/
namespace Verif.Bits

namespace Spec

/-- The bits of byte data, most significant bit of each byte first. -/
def bits (buf : List Nat) : List Bool := buf.flatMap (fun b => (List.range 8).map (fun k => b.testBit (7 - k)))

/-- The number written by a list of bits, most significant first. -/
def value (l : List Bool) : Nat := l.foldl (fun a b => 2 * a + b.toNat) 0

/-- The lowest `size` bits of a number, most significant first. -/
def toBits (size v : Nat) : List Bool := (List.range size).map (fun k => v.testBit (size - 1 - k))

/-- The bits of `m` bytes with the bytes in opposite order (each byte keeps its bits). -/
def byteReverse (m : Nat) (l : List Bool) : List Bool := (List.range (8 * m)).map (fun i => l.getD (8 * (m - 1 - i / 8) + i % 8) false)

/-- The number of bytes of the smallest unsigned type with at least `size` bits. -/
def IsContainer (size M : Nat) : Prop := M ∈ [1, 2, 4, 8] ∧ size ≤ 8 * M ∧ ∀ M' ∈ [1, 2, 4, 8], size ≤ 8 * M' → M ≤ M'

end Spec

theorem bits_length (buf : List Nat) : (Spec.bits buf).length = 8 * buf.length := by
  induction buf with
  | nil => rfl
  | cons b l ih =>
    simp only [Spec.bits, List.flatMap_cons, List.length_append, List.length_map, List.length_range, List.length_cons] at ih ⊢
    omega

theorem bits_getElem? (buf : List Nat) : ∀ i, i < 8 * buf.length → (Spec.bits buf)[i]? = some (bitAt buf i) := by
  induction buf with
  | nil => intro i hi; simp at hi
  | cons b l ih =>
    intro i hi
    simp only [Spec.bits, List.flatMap_cons] at ih ⊢
    by_cases h : i < 8
    · rw [List.getElem?_append_left (by simpa using h), List.getElem?_map, List.getElem?_range h]
      simp only [Option.map_some, bitAt]
      rw [show i / 8 = 0 by omega, show i % 8 = i by omega]; rfl
    · rw [List.getElem?_append_right (by simp; omega)]
      simp only [List.length_map, List.length_range, List.length_cons] at hi ⊢
      rw [ih (i - 8) (by omega)]
      simp only [bitAt]
      rw [show i / 8 = (i - 8) / 8 + 1 by omega, show i % 8 = (i - 8) % 8 by omega]
      simp

theorem value_testBit (l : List Bool) (j : Nat) : (Spec.value l).testBit j = if j < l.length then l.getD (l.length - 1 - j) false else false := by
  have key : ∀ (l : List Bool) (a j : Nat), (l.foldl (fun a b => 2 * a + b.toNat) a).testBit j =
      if j < l.length then l.getD (l.length - 1 - j) false else a.testBit (j - l.length) := by
    intro l
    induction l with
    | nil => intro a j; simp
    | cons b l ih =>
      intro a j
      rw [List.foldl_cons, ih]
      by_cases h : j < l.length
      · rw [if_pos h, if_pos (by simp; omega)]
        simp only [List.length_cons, List.getD_eq_getElem?_getD]
        rw [show l.length + 1 - 1 - j = (l.length - 1 - j) + 1 by omega, List.getElem?_cons_succ]
      · rw [if_neg h]
        by_cases h2 : j < (b :: l).length
        · rw [if_pos h2]
          have : j = l.length := by simp only [List.length_cons] at h2; omega
          subst this
          simp only [Nat.sub_self, List.length_cons, Nat.add_sub_cancel, List.getD_cons_zero]
          rw [Nat.testBit_zero]
          cases b <;> simp <;> omega
        · rw [if_neg h2]
          simp only [List.length_cons] at h2 ⊢
          rw [show j - l.length = (j - (l.length + 1)) + 1 by omega, Nat.testBit_succ]
          congr 1
          cases b <;> simp <;> omega
  have := key l 0 j
  simpa [Spec.value] using this

theorem slice_getD {buf : List Nat} {off size k : Nat} (hl : off + size ≤ 8 * buf.length) (hk : k < size) :
    (((Spec.bits buf).drop off).take size).getD k false = bitAt buf (off + k) := by
  rw [List.getD_eq_getElem?_getD, List.getElem?_take, if_pos hk, List.getElem?_drop, bits_getElem? buf _ (by omega)]; rfl

theorem slice_length {buf : List Nat} {off size : Nat} (hl : off + size ≤ 8 * buf.length) : (((Spec.bits buf).drop off).take size).length = size := by
  rw [List.length_take, List.length_drop, bits_length]; omega

theorem value_slice {buf : List Nat} {off size r : Nat} (hl : off + size ≤ 8 * buf.length)
    (h : ∀ j, r.testBit j = (decide (j < size) && bitAt buf (off + size - 1 - j))) : r = Spec.value (((Spec.bits buf).drop off).take size) := by
  refine Nat.eq_of_testBit_eq ?_
  intro j
  rw [h, value_testBit, slice_length hl]
  by_cases hj : j < size
  · rw [if_pos hj, slice_getD hl (by omega)]
    simp only [hj, decide_true, Bool.true_and]
    congr 1; omega
  · rw [if_neg hj]; simp [hj]

/-- C30, reading. For every data, offset, field of at most `w` bits and target type of `w` bits: if the data is long enough the big-endian getter returns
the number written by the bits of the field, otherwise it throws; it never reads outside. -/
theorem get_big_endian {w off size : Nat} {buf : List Nat} (hw : 8 ≤ w) (hB : Bytes buf) (hs : size ≤ w) :
    get true w buf off size = if off + size ≤ 8 * buf.length then .ok (some (Spec.value (((Spec.bits buf).drop off).take size))) else .error () := by
  unfold get
  by_cases hl : off + size ≤ 8 * buf.length
  · rw [if_neg (by omega), if_pos hl]
    obtain ⟨r, h1, h2⟩ := getRaw_spec hw hB hs (off := off) (by omega)
    rw [h1]
    simp only [Option.map_some, if_true]
    rw [value_slice hl h2]
  · rw [if_pos (by omega), if_neg hl]

theorem minimal_cases (m : Nat) (hm : 1 ≤ m) (h8 : m ≤ 8) : m ≤ minimalBytes (8 * m) ∧ minimalBytes (8 * m) ≤ 8 := by
  unfold minimalBytes
  rw [show (8 * m + 7) / 8 = m by omega]
  split
  · omega
  · split
    · omega
    · split <;> omega

/-- C30, reading little-endian. For a field of `m` whole bytes (any `m` up to 8, at any bit offset) the little-endian getter returns the number written by
the bytes of the field in opposite order. -/
theorem get_little_endian {w off m : Nat} {buf : List Nat} (hB : Bytes buf) (hm : 1 ≤ m) (h8 : m ≤ 8) (hw : 8 * minimalBytes (8 * m) ≤ w) :
    get false w buf off (8 * m) = if off + 8 * m ≤ 8 * buf.length then .ok (some (Spec.value (Spec.byteReverse m (((Spec.bits buf).drop off).take (8 * m)))))
      else .error () := by
  obtain ⟨hM, hM8⟩ := minimal_cases m hm h8
  unfold get
  by_cases hl : off + 8 * m ≤ 8 * buf.length
  · rw [if_neg (by omega), if_pos hl]
    obtain ⟨r, h1, h2⟩ := getRaw_spec (w := w) (by omega) hB (size := 8 * m) (by omega) (off := off) (by omega)
    rw [h1]
    simp only [Option.map_some, Bool.false_eq_true, if_false]
    congr 2
    refine Nat.eq_of_testBit_eq ?_
    intro j
    have hlen : (Spec.byteReverse m (((Spec.bits buf).drop off).take (8 * m))).length = 8 * m := by simp [Spec.byteReverse]
    rw [swap_testBit, Nat.testBit_mod_two_pow, Nat.testBit_mod_two_pow, Nat.testBit_shiftLeft, h2, value_testBit, hlen]
    generalize hMg : minimalBytes (8 * m) = M at *
    by_cases hj : j < 8 * m
    · rw [if_pos hj]
      unfold Spec.byteReverse
      rw [List.getD_eq_getElem?_getD, List.getElem?_map, List.getElem?_range (by omega)]
      simp only [Option.map_some, Option.getD_some]
      rw [slice_getD hl (by omega)]
      have e1 : j < 8 * M := by omega
      have e2 : 8 * (M - 1 - j / 8) + j % 8 < 8 * M := by omega
      have e3 : 8 * (M - 1 - j / 8) + j % 8 < w := by omega
      have e4 : 8 * M - 8 * m ≤ 8 * (M - 1 - j / 8) + j % 8 := by omega
      have e5 : 8 * (M - 1 - j / 8) + j % 8 - (8 * M - 8 * m) < 8 * m := by omega
      simp only [e1, e2, e3, e4, e5, ge_iff_le, decide_true, Bool.true_and]
      congr 1; omega
    · rw [if_neg hj]
      by_cases e1 : j < 8 * M
      · have e4 : ¬ 8 * M - 8 * m ≤ 8 * (M - 1 - j / 8) + j % 8 := by omega
        simp [e4]
      · simp [e1]
  · rw [if_pos (by omega), if_neg hl]

/-- C30, reading little-endian fields of any size: the bits of the field, filled with zero bits up to the smallest unsigned type that holds them, with the bytes in opposite order. -/
theorem get_little_endian_any {w off size M : Nat} {buf : List Nat} (hB : Bytes buf) (hM : Spec.IsContainer size M) (hw : 8 * M ≤ w) :
    get false w buf off size = if off + size ≤ 8 * buf.length then
        .ok (some (Spec.value (Spec.byteReverse M (((Spec.bits buf).drop off).take size ++ List.replicate (8 * M - size) false))))
      else .error () := by
  obtain ⟨hm, hs, hmin⟩ := hM
  have hMg : minimalBytes size = M := by
    simp only [List.mem_cons, List.not_mem_nil, or_false] at hm
    have h1 := hmin 1 (by simp)
    have h2 := hmin 2 (by simp)
    have h4 := hmin 4 (by simp)
    unfold minimalBytes
    split
    · omega
    · split
      · omega
      · split <;> omega
  have hM1 : 1 ≤ M := by simp only [List.mem_cons, List.not_mem_nil, or_false] at hm; omega
  unfold get
  by_cases hl : off + size ≤ 8 * buf.length
  · rw [if_neg (by omega), if_pos hl]
    obtain ⟨r, h1, h2⟩ := getRaw_spec (w := w) (by omega) hB (size := size) (by omega) (off := off) (by omega)
    rw [h1]
    simp only [Option.map_some, Bool.false_eq_true, if_false]
    congr 2
    refine Nat.eq_of_testBit_eq ?_
    intro j
    generalize hL : ((Spec.bits buf).drop off).take size ++ List.replicate (8 * M - size) false = L
    have hlen : (Spec.byteReverse M L).length = 8 * M := by simp [Spec.byteReverse]
    rw [swap_testBit, Nat.testBit_mod_two_pow, Nat.testBit_mod_two_pow, Nat.testBit_shiftLeft, h2, value_testBit, hlen, hMg]
    by_cases hj : j < 8 * M
    · rw [if_pos hj]
      unfold Spec.byteReverse
      rw [List.getD_eq_getElem?_getD, List.getElem?_map, List.getElem?_range (by omega)]
      simp only [Option.map_some, Option.getD_some]
      have e2 : 8 * (M - 1 - j / 8) + j % 8 < 8 * M := by omega
      have e3 : 8 * (M - 1 - j / 8) + j % 8 < w := by omega
      have ei : 8 * (M - 1 - (8 * M - 1 - j) / 8) + (8 * M - 1 - j) % 8 = 8 * M - 1 - (8 * (M - 1 - j / 8) + j % 8) := by omega
      rw [ei]
      generalize 8 * (M - 1 - j / 8) + j % 8 = k at *
      have hsl := slice_length hl
      by_cases hk : 8 * M - size ≤ k
      · have e5 : k - (8 * M - size) < size := by omega
        have eL : L.getD (8 * M - 1 - k) false = bitAt buf (off + (8 * M - 1 - k)) := by
          rw [← slice_getD hl (by omega), ← hL, List.getD_eq_getElem?_getD, List.getElem?_append_left (by omega), List.getD_eq_getElem?_getD]
        rw [eL]
        simp only [hj, e2, e3, hk, e5, ge_iff_le, decide_true, Bool.true_and]
        congr 1; omega
      · have eL : L.getD (8 * M - 1 - k) false = false := by
          rw [← hL, List.getD_eq_getElem?_getD, List.getElem?_append_right (by omega), List.getElem?_replicate]
          split <;> rfl
        rw [eL]
        simp [hk]
    · rw [if_neg hj]
      simp [hj]
  · rw [if_pos (by omega), if_neg hl]

example : Spec.IsContainer 12 2 ∧ get false 16 [0x12, 0x34] 0 12 = .ok (some 0x3012) := by
  refine ⟨⟨by decide, by decide, by decide⟩, rfl⟩

theorem bits_of_bitAt {buf r : List Nat} {off size : Nat} {p : Nat → Bool} (hl : off + size ≤ 8 * buf.length) (hr : r.length = buf.length)
    (h : ∀ i, bitAt r i = if off ≤ i ∧ i < off + size then p (i - off) else bitAt buf i) :
    Spec.bits r = (Spec.bits buf).take off ++ (List.range size).map p ++ (Spec.bits buf).drop (off + size) := by
  refine List.ext_getElem? ?_
  intro i
  by_cases hi : i < 8 * r.length
  · rw [bits_getElem? r i hi, h i]
    by_cases h1 : i < off
    · rw [if_neg (by omega), List.getElem?_append_left (by simp [bits_length]; omega), List.getElem?_append_left (by simp [bits_length]; omega), List.getElem?_take, if_pos h1,
        bits_getElem? buf i (by omega)]
    · have ht : ((Spec.bits buf).take off).length = off := by rw [List.length_take, bits_length]; omega
      by_cases h2 : i < off + size
      · rw [if_pos ⟨by omega, h2⟩, List.getElem?_append_left (by simp [bits_length]; omega), List.getElem?_append_right (by omega), ht, List.getElem?_map,
          List.getElem?_range (by omega)]
        rfl
      · have ht2 : ((Spec.bits buf).take off ++ (List.range size).map p).length = off + size := by rw [List.length_append, ht]; simp
        rw [if_neg (by omega), List.getElem?_append_right (by omega), ht2, List.getElem?_drop, show off + size + (i - (off + size)) = i by omega,
          bits_getElem? buf i (by omega)]
  · rw [List.getElem?_eq_none (by rw [bits_length]; omega), List.getElem?_eq_none]
    simp only [List.length_append, List.length_take, List.length_drop, List.length_map, List.length_range, bits_length]
    omega

/-- C30, writing. If the data is long enough, the big-endian setter replaces exactly the bits of the field by the lowest `size` bits of the value; all
other bits are unchanged. Otherwise it throws and nothing is written. -/
theorem set_big_endian {w off size v : Nat} {buf : List Nat} (hw : 8 ≤ w) (hB : Bytes buf) (hs : size ≤ w) :
    (off + size ≤ 8 * buf.length ∧ ∃ r, set true w buf off size v = .ok (some r) ∧ Bytes r ∧ r.length = buf.length ∧
      Spec.bits r = (Spec.bits buf).take off ++ Spec.toBits size v ++ (Spec.bits buf).drop (off + size)) ∨
    (8 * buf.length < off + size ∧ set true w buf off size v = .error ()) := by
  by_cases hl : off + size ≤ 8 * buf.length
  · left
    refine ⟨hl, ?_⟩
    obtain ⟨r, h1, h2, h3, h4⟩ := setRaw_spec (v := v % 2 ^ w) hw hB hs (off := off) (by omega)
    refine ⟨r, ?_, h2, h3, ?_⟩
    · unfold set
      rw [if_neg (by omega)]
      simp only [if_true]
      rw [h1]
    · unfold Spec.toBits
      refine bits_of_bitAt (p := fun k => v.testBit (size - 1 - k)) hl h3 ?_
      intro i
      rw [h4 i]
      by_cases hin : off ≤ i ∧ i < off + size
      · rw [if_pos hin, if_pos hin, Nat.testBit_mod_two_pow]
        have : off + size - 1 - i < w := by omega
        simp only [this, decide_true, Bool.true_and]
        congr 1; omega
      · rw [if_neg hin, if_neg hin]
  · right
    refine ⟨by omega, ?_⟩
    unfold set
    rw [if_pos (by omega)]

/-- C30, writing little-endian, for fields of 8, 16, 32 and 64 bits: the bits of the value with the bytes in opposite order are written, all other bits are
unchanged. -/
theorem set_little_endian {w off m v : Nat} {buf : List Nat} (hB : Bytes buf) (hm : m = 1 ∨ m = 2 ∨ m = 4 ∨ m = 8) (hw : 8 * m ≤ w) :
    (off + 8 * m ≤ 8 * buf.length ∧ ∃ r, set false w buf off (8 * m) v = .ok (some r) ∧ Bytes r ∧ r.length = buf.length ∧
      Spec.bits r = (Spec.bits buf).take off ++ Spec.byteReverse m (Spec.toBits (8 * m) v) ++ (Spec.bits buf).drop (off + 8 * m)) ∨
    (8 * buf.length < off + 8 * m ∧ set false w buf off (8 * m) v = .error ()) := by
  have hM : minimalBytes (8 * m) = m := by rcases hm with rfl | rfl | rfl | rfl <;> rfl
  by_cases hl : off + 8 * m ≤ 8 * buf.length
  · left
    refine ⟨hl, ?_⟩
    obtain ⟨r, h1, h2, h3, h4⟩ := setRaw_spec (v := swap m ((v % 2 ^ w) % 2 ^ (8 * m))) (w := w) (by omega) hB (size := 8 * m) (by omega) (off := off) (by omega)
    refine ⟨r, ?_, h2, h3, ?_⟩
    · unfold set
      rw [if_neg (by omega), hM]
      simp only [Bool.false_eq_true, if_false]
      rw [h1]
    · unfold Spec.byteReverse
      refine bits_of_bitAt hl h3 ?_
      intro i
      rw [h4 i]
      by_cases hin : off ≤ i ∧ i < off + 8 * m
      · rw [if_pos hin, if_pos hin, swap_testBit, Nat.testBit_mod_two_pow, Nat.testBit_mod_two_pow]
        unfold Spec.toBits
        rw [List.getD_eq_getElem?_getD, List.getElem?_map, List.getElem?_range (by omega)]
        simp only [Option.map_some, Option.getD_some]
        have e1 : off + 8 * m - 1 - i < 8 * m := by omega
        have e2 : 8 * (m - 1 - (off + 8 * m - 1 - i) / 8) + (off + 8 * m - 1 - i) % 8 < 8 * m := by omega
        have e3 : 8 * (m - 1 - (off + 8 * m - 1 - i) / 8) + (off + 8 * m - 1 - i) % 8 < w := by omega
        simp only [e1, e2, e3, decide_true, Bool.true_and]
        congr 1; omega
      · rw [if_neg hin, if_neg hin]
  · right
    refine ⟨by omega, ?_⟩
    unfold set
    rw [if_pos (by omega)]

theorem value_toBits (size v : Nat) : Spec.value (Spec.toBits size v) = v % 2 ^ size := by
  refine Nat.eq_of_testBit_eq ?_
  intro j
  have hlen : (Spec.toBits size v).length = size := by simp [Spec.toBits]
  rw [value_testBit, hlen, Nat.testBit_mod_two_pow]
  by_cases h : j < size
  · rw [if_pos h]
    unfold Spec.toBits
    rw [List.getD_eq_getElem?_getD, List.getElem?_map, List.getElem?_range (by omega)]
    simp only [Option.map_some, Option.getD_some, h, decide_true, Bool.true_and]
    congr 1; omega
  · rw [if_neg h]; simp [h]

theorem byteReverse_involutive (m : Nat) (l : List Bool) (hl : l.length = 8 * m) : Spec.byteReverse m (Spec.byteReverse m l) = l := by
  refine List.ext_getElem? ?_
  intro i
  unfold Spec.byteReverse
  rw [List.getElem?_map]
  by_cases h : i < 8 * m
  · rw [List.getElem?_range h]
    simp only [Option.map_some]
    rw [List.getD_eq_getElem?_getD, List.getElem?_map, List.getElem?_range (by omega)]
    simp only [Option.map_some, Option.getD_some]
    rw [show 8 * (m - 1 - (8 * (m - 1 - i / 8) + i % 8) / 8) + (8 * (m - 1 - i / 8) + i % 8) % 8 = i by omega, List.getD_eq_getElem?_getD,
      List.getElem?_eq_getElem (by omega)]
    rfl
  · rw [List.getElem?_eq_none (by simp; omega), List.getElem?_eq_none (by omega)]; rfl

theorem slice_of_written {buf : List Nat} {A B C : List Bool} {off size : Nat} (h : Spec.bits buf = A ++ B ++ C) (hA : A.length = off) (hB : B.length = size) :
    ((Spec.bits buf).drop off).take size = B := by
  rw [h, List.append_assoc, List.drop_append_of_le_length (by omega), List.drop_of_length_le (by omega), List.nil_append, List.take_append_of_le_length (by omega),
    List.take_of_length_le (by omega)]

/-- C30, round trip. What was written is read back (big-endian, any field; the value modulo the field size). -/
theorem get_set_big_endian {w w' off size v : Nat} {buf : List Nat} (hw : 8 ≤ w) (hw' : 8 ≤ w') (hB : Bytes buf) (hs : size ≤ w) (hs' : size ≤ w') (hl : off + size ≤ 8 * buf.length) :
    ∃ r, set true w buf off size v = .ok (some r) ∧ get true w' r off size = .ok (some (v % 2 ^ size)) := by
  rcases set_big_endian (v := v) hw hB hs (off := off) with ⟨-, r, h1, h2, h3, h4⟩ | ⟨h, -⟩
  · refine ⟨r, h1, ?_⟩
    rw [get_big_endian hw' h2 hs', if_pos (by rw [h3]; exact hl),
      slice_of_written h4 (by rw [List.length_take, bits_length]; omega) (by simp [Spec.toBits]), value_toBits]
  · omega

/-- C30, round trip little-endian, for fields of 8, 16, 32 and 64 bits. Missing from the full claim: other field sizes (refuted below). -/
theorem get_set_little_endian_partial {w w' off m v : Nat} {buf : List Nat} (hm : m = 1 ∨ m = 2 ∨ m = 4 ∨ m = 8) (hw : 8 * m ≤ w) (hw' : 8 * m ≤ w') (hB : Bytes buf)
    (hl : off + 8 * m ≤ 8 * buf.length) :
    ∃ r, set false w buf off (8 * m) v = .ok (some r) ∧ get false w' r off (8 * m) = .ok (some (v % 2 ^ (8 * m))) := by
  have hM : minimalBytes (8 * m) = m := by rcases hm with rfl | rfl | rfl | rfl <;> rfl
  rcases set_little_endian (v := v) hB hm hw (off := off) with ⟨-, r, h1, h2, h3, h4⟩ | ⟨h, -⟩
  · refine ⟨r, h1, ?_⟩
    rw [get_little_endian h2 (by omega) (by omega) (by rw [hM]; exact hw'), if_pos (by rw [h3]; exact hl),
      slice_of_written h4 (by rw [List.length_take, bits_length]; omega) (by simp [Spec.byteReverse]), byteReverse_involutive _ _ (by simp [Spec.toBits]), value_toBits]
  · omega

/-- C30, refuted for little-endian fields of other sizes: a 24-bit value written to a `u32`-typed little-endian field is not read back (0x112233 becomes
0x1122), because the setter does not shift the swapped value as the getter does. -/
theorem little_endian_24_violated :
    set false 32 [0, 0, 0] 0 24 0x112233 = .ok (some [0x22, 0x11, 0x00]) ∧ get false 32 [0x22, 0x11, 0x00] 0 24 = .ok (some 0x1122) ∧
    get false 32 [0x33, 0x22, 0x11] 0 24 = .ok (some 0x112233) := by
  refine ⟨?_, ?_, ?_⟩ <;> rfl

/-- C30, refuted for little-endian fields smaller than a byte as well: 5 written to a field of four bits is read as 80. -/
theorem little_endian_4_violated :
    set false 8 [0] 0 4 5 = .ok (some [0x50]) ∧ get false 8 [0x50] 0 4 = .ok (some 80) := by
  refine ⟨?_, ?_⟩ <;> rfl

/-! ### Streams -/

namespace Spec

/-- A bit stream: bits and a position. -/
structure St where
  bits : List Bool
  off : Nat

def read (s : St) (off size : Nat) : Out := if off + size ≤ s.bits.length then .value (value ((s.bits.drop off).take size)) else .throws

def write (s : St) (off size v : Nat) : List Bool := s.bits.take off ++ toBits size v ++ s.bits.drop (off + size)

def step (s : St) : Op → St × Out
  | .read _ size => (⟨s.bits, s.off + size⟩, read s s.off size)
  | .peek _ size => (s, read s s.off size)
  | .write _ size v => if s.off + size ≤ s.bits.length then (⟨write s s.off size v, s.off + size⟩, .unit) else (s, .throws)
  | .reserve size => (⟨s.bits, s.off + size⟩, .unit)
  | .writeAt _ size off v => if off + size ≤ s.bits.length then (⟨write s off size v, s.off⟩, .unit) else (s, .throws)
  | .seek b => (⟨s.bits, b⟩, .unit)
  | .skip b => (⟨s.bits, s.off + b⟩, .unit)
  | .position => (s, .value s.off)
  | .atEnd => (s, .bool (decide (s.bits.length ≤ s.off)))
  | .canRead n => (s, .bool (decide (s.off + n ≤ s.bits.length)))

def run : St → List Op → St × List Out
  | s, [] => (s, [])
  | s, op :: ops => ((run (step s op).1 ops).1, (step s op).2 :: (run (step s op).1 ops).2)

/-- Field sizes are at least one bit and fit the integer type. -/
def Valid : Op → Prop
  | .read w size => 8 ≤ w ∧ 1 ≤ size ∧ size ≤ w
  | .peek w size => 8 ≤ w ∧ 1 ≤ size ∧ size ≤ w
  | .write w size _ => 8 ≤ w ∧ 1 ≤ size ∧ size ≤ w
  | .writeAt w size _ _ => 8 ≤ w ∧ 1 ≤ size ∧ size ≤ w
  | _ => True
end Spec

theorem bits_append (a b : List Nat) : Spec.bits (a ++ b) = Spec.bits a ++ Spec.bits b := by simp [Spec.bits]

theorem bits_drop (buf : List Nat) (k : Nat) : Spec.bits (buf.drop k) = (Spec.bits buf).drop (8 * k) := by
  by_cases hk : k ≤ buf.length
  · have h := bits_append (buf.take k) (buf.drop k)
    rw [List.take_append_drop] at h
    have hl : (Spec.bits (buf.take k)).length = 8 * k := by rw [bits_length, List.length_take]; omega
    have e : (Spec.bits (buf.take k) ++ Spec.bits (buf.drop k)).drop (8 * k) = Spec.bits (buf.drop k) := List.drop_left' hl
    rw [← h] at e; exact e.symm
  · rw [List.drop_of_length_le (by omega), List.drop_of_length_le (by rw [bits_length]; omega)]; rfl

theorem bits_take (buf : List Nat) (k : Nat) : Spec.bits (buf.take k) = (Spec.bits buf).take (8 * k) := by
  by_cases hk : k ≤ buf.length
  · have h := bits_append (buf.take k) (buf.drop k)
    rw [List.take_append_drop] at h
    have hl : (Spec.bits (buf.take k)).length = 8 * k := by rw [bits_length, List.length_take]; omega
    have e : (Spec.bits (buf.take k) ++ Spec.bits (buf.drop k)).take (8 * k) = Spec.bits (buf.take k) := List.take_left' hl
    rw [← h] at e; exact e.symm
  · rw [List.take_of_length_le (by omega), List.take_of_length_le (by rw [bits_length]; omega)]

theorem bytes_drop {buf : List Nat} (hB : Bytes buf) (k : Nat) : Bytes (buf.drop k) := fun b hb => hB b (List.mem_of_mem_drop hb)

theorem doRead_spec {s : Stream} (hB : Bytes s.buf) {w size off : Nat} (hw : 8 ≤ w) (h1 : 1 ≤ size) (hs : size ≤ w) :
    (match doRead true w s size off with
      | .ok (some v) => Out.value v
      | .ok none => .undefined
      | .error _ => .throws) = Spec.read ⟨Spec.bits s.buf, s.off⟩ off size := by
  unfold doRead Spec.read
  rw [get_big_endian hw (bytes_drop hB _) hs, bits_drop, List.length_drop, bits_length]
  by_cases h : off + size ≤ 8 * s.buf.length
  · rw [if_pos (by omega), if_pos h]
    simp only [List.drop_drop]
    rw [show 8 * (off / 8) + off % 8 = off by omega]
  · rw [if_neg (by omega), if_neg h]

theorem doWrite_spec {s : Stream} (hB : Bytes s.buf) {w size off v : Nat} (hw : 8 ≤ w) (h1 : 1 ≤ size) (hs : size ≤ w) :
    (off + size ≤ 8 * s.buf.length ∧ ∃ r, doWrite true w s size off v = .ok (some r) ∧ Bytes r ∧ r.length = s.buf.length ∧
      Spec.bits r = Spec.write ⟨Spec.bits s.buf, s.off⟩ off size v) ∨ (8 * s.buf.length < off + size ∧ doWrite true w s size off v = .error ()) := by
  unfold doWrite
  rcases set_big_endian (v := v) hw (bytes_drop hB (off / 8)) hs (off := off % 8) with ⟨h, r, g1, g2, g3, g4⟩ | ⟨h, g1⟩
  · left
    rw [List.length_drop] at h
    refine ⟨by omega, s.buf.take (off / 8) ++ r, by rw [g1], ?_, ?_, ?_⟩
    · intro b hb
      rcases List.mem_append.mp hb with hb | hb
      · exact hB b (List.mem_of_mem_take hb)
      · exact g2 b hb
    · rw [List.length_append, g3, List.length_take, List.length_drop]; omega
    · rw [bits_append, g4, bits_drop, bits_take]
      unfold Spec.write
      simp only [List.drop_drop]
      rw [show 8 * (off / 8) + (off % 8 + size) = off + size by omega, ← List.append_assoc, ← List.append_assoc]
      congr 2
      rw [← List.take_add, show 8 * (off / 8) + off % 8 = off by omega]
  · right
    rw [List.length_drop] at h
    exact ⟨by omega, by rw [g1]⟩

theorem step_spec {s : Stream} (hB : Bytes s.buf) (op : Op) (hv : Spec.Valid op) :
    Bytes (step true s op).1.buf ∧ (⟨Spec.bits (step true s op).1.buf, (step true s op).1.off⟩ : Spec.St) = (Spec.step ⟨Spec.bits s.buf, s.off⟩ op).1 ∧
      (step true s op).2 = (Spec.step ⟨Spec.bits s.buf, s.off⟩ op).2 := by
  cases op with
  | read w size => exact ⟨hB, rfl, doRead_spec hB hv.1 hv.2.1 hv.2.2⟩
  | peek w size => exact ⟨hB, rfl, doRead_spec hB hv.1 hv.2.1 hv.2.2⟩
  | write w size v =>
    simp only [step, Spec.step, bits_length]
    rcases doWrite_spec (v := v) (off := s.off) hB hv.1 hv.2.1 hv.2.2 with ⟨h, r, g1, g2, g3, g4⟩ | ⟨h, g1⟩
    · rw [g1, if_pos h]; exact ⟨g2, by simp only; rw [g4], rfl⟩
    · rw [g1, if_neg (by omega)]; exact ⟨hB, rfl, rfl⟩
  | reserve size => exact ⟨hB, rfl, rfl⟩
  | writeAt w size off v =>
    simp only [step, Spec.step, bits_length]
    rcases doWrite_spec (v := v) (off := off) hB hv.1 hv.2.1 hv.2.2 with ⟨h, r, g1, g2, g3, g4⟩ | ⟨h, g1⟩
    · rw [g1, if_pos h]; exact ⟨g2, by simp only; rw [g4], rfl⟩
    · rw [g1, if_neg (by omega)]; exact ⟨hB, rfl, rfl⟩
  | seek b => exact ⟨hB, rfl, rfl⟩
  | skip b => exact ⟨hB, rfl, rfl⟩
  | position => exact ⟨hB, rfl, rfl⟩
  | atEnd =>
    refine ⟨hB, rfl, ?_⟩
    simp only [step, Spec.step, bits_length, Out.bool.injEq, decide_eq_decide]
    omega
  | canRead n =>
    refine ⟨hB, rfl, ?_⟩
    simp only [step, Spec.step, bits_length, Out.bool.injEq, decide_eq_decide]
    omega

/-- C30, bit streams. Every program on a big-endian bit stream over byte data returns what it returns on a list of bits with a position: consecutive writes
are read back after seeking, reading past the end throws and loses nothing. -/
theorem bit_stream_refines (ops : List Op) : ∀ (s : Stream), Bytes s.buf → (∀ op ∈ ops, Spec.Valid op) →
    (run true s ops).2 = (Spec.run ⟨Spec.bits s.buf, s.off⟩ ops).2 ∧ Spec.bits (run true s ops).1.buf = (Spec.run ⟨Spec.bits s.buf, s.off⟩ ops).1.bits := by
  induction ops with
  | nil => intro s _ _; exact ⟨rfl, rfl⟩
  | cons op ops ih =>
    intro s hB hv
    obtain ⟨h1, h2, h3⟩ := step_spec hB op (hv op (by simp))
    obtain ⟨g1, g2⟩ := ih _ h1 (fun o ho => hv o (by simp [ho]))
    simp only [run, Spec.run]
    rw [h3, g1, ← h2]
    exact ⟨rfl, g2⟩

/-! Non-vacuity. -/
example : Bytes [0xA5, 0x0F] ∧ get true 16 [0xA5, 0x0F] 3 7 = .ok (some 20) ∧ set true 8 [0xA5, 0x0F] 3 7 0x7F = .ok (some [0xBF, 0xCF]) ∧
    get true 8 [0xA5] 3 7 = .error () ∧ Spec.value (((Spec.bits [0xA5, 0x0F]).drop 3).take 7) = 20 := by
  refine ⟨?_, rfl, rfl, rfl, rfl⟩
  intro b hb
  simp only [List.mem_cons, List.not_mem_nil, or_false] at hb
  omega

example : (run true ⟨[0, 0, 0], 0⟩ [.write 8 5 17, .write 16 12 0xABC, .seek 5, .read 16 12, .position, .read 8 8, .seek 0, .peek 8 5]).2 =
    [.unit, .unit, .unit, .value 0xABC, .value 17, .throws, .unit, .value 17] := by rfl

end Verif.Bits

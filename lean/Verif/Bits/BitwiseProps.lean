import Verif.Bits.Bitwise

/-! C144: operations on single bits, and reversal of the bits of a byte. -/

namespace Verif.Bits

theorem one_shift (w i j : Nat) (hi : i < w) : (1#w <<< i).getLsbD j = decide (j = i) := by
  rw [BitVec.getLsbD_shiftLeft]
  by_cases h : j = i
  · subst h; simp [hi]; omega
  · simp only [h, decide_false]
    by_cases h2 : j < i
    · simp [h2]
    · have : (1#w).getLsbD (j - i) = false := by
        have : j - i ≠ 0 := by omega
        simp [BitVec.getLsbD_one, this]
      simp [this]

/-- C144.  Setting, resetting and flipping a bit of an integer of any width gives the integer with that bit 1, 0 and inverted and all
others as before; testing gives the bit. -/
theorem single_bit {w : Nat} (i : Nat) (hi : i < w) (x : BitVec w) :
    testBit i x = x.getLsbD i ∧
    (∀ j, j < w → (setBit i x).getLsbD j = if j = i then true else x.getLsbD j) ∧
    (∀ j, j < w → (resetBit i x).getLsbD j = if j = i then false else x.getLsbD j) ∧
    (∀ j, j < w → (flipBit i x).getLsbD j = if j = i then !x.getLsbD i else x.getLsbD j) := by
  refine ⟨?_, ?_, ?_, ?_⟩
  · unfold testBit
    cases hb : x.getLsbD i with
    | true =>
      simp only [bne_iff_ne, ne_eq]
      intro h
      have := congrArg (·.getLsbD i) h
      simp [one_shift w i i hi, hb] at this
    | false =>
      have : x &&& (1#w <<< i) = 0#w := by
        apply BitVec.eq_of_getLsbD_eq
        intro j hj
        rw [BitVec.getLsbD_and, one_shift w i j hi, BitVec.getLsbD_zero]
        by_cases h : j = i
        · subst h; simp [hb]
        · simp [h]
      rw [this]; simp
  · intro j hj
    unfold setBit
    rw [BitVec.getLsbD_or, one_shift w i j hi]
    by_cases h : j = i <;> simp [h]
  · intro j hj
    unfold resetBit
    rw [BitVec.getLsbD_and, BitVec.getLsbD_not, one_shift w i j hi]
    by_cases h : j = i <;> simp [h, hj]
  · intro j hj
    unfold flipBit
    rw [BitVec.getLsbD_xor, one_shift w i j hi]
    by_cases h : j = i
    · subst h; simp
    · simp [h]

example : testBit 3 (8#16) = true ∧ setBit 15 (1#16) = 0x8001#16 ∧ resetBit 0 (3#8) = 2#8 ∧ flipBit 1 (2#8) = 0#8 := by decide

/-- C144.  Setting and resetting twice is the same as once, flipping twice changes nothing, and the operations on different bits commute. -/
theorem single_bit_laws {w : Nat} (i j : Nat) (hi : i < w) (hj : j < w) (x : BitVec w) :
    setBit i (setBit i x) = setBit i x ∧ resetBit i (resetBit i x) = resetBit i x ∧ flipBit i (flipBit i x) = x ∧
    (i ≠ j → setBit i (resetBit j x) = resetBit j (setBit i x)) := by
  refine ⟨?_, ?_, ?_, ?_⟩
  · apply BitVec.eq_of_getLsbD_eq; intro k hk
    simp only [(single_bit i hi _).2.1 k hk]
    split <;> rfl
  · apply BitVec.eq_of_getLsbD_eq; intro k hk
    simp only [(single_bit i hi _).2.2.1 k hk]
    split <;> rfl
  · apply BitVec.eq_of_getLsbD_eq; intro k hk
    simp only [(single_bit i hi _).2.2.2 k hk, (single_bit i hi _).2.2.2 i hi, if_true]
    split
    · rename_i h; subst h; simp
    · rfl
  · intro hne
    apply BitVec.eq_of_getLsbD_eq; intro k hk
    simp only [(single_bit i hi _).2.1 k hk, (single_bit j hj _).2.2.1 k hk]
    by_cases h1 : k = i
    · subst h1; simp [hne]
    · simp [h1]

/-- C144.  Bit `i` of the reversed byte is bit `7 - i` of the byte, for each of the 256 bytes; reversing twice gives the byte back. -/
theorem reverse_spec (b : BitVec 8) : (∀ i, i < 8 → (reverseBits b).getLsbD i = b.getLsbD (7 - i)) ∧ reverseBits (reverseBits b) = b := by
  have h1 : ∀ (x : Fin 256) (i : Fin 8), (reverseTable.getD x.val 0).testBit i.val = x.val.testBit (7 - i.val) := by decide +kernel
  have h0 : ∀ x : Fin 256, reverseTable.getD x.val 0 < 256 := by decide +kernel
  have key : ∀ (b : BitVec 8) (i : Nat), i < 8 → (reverseBits b).getLsbD i = b.getLsbD (7 - i) := by
    intro b i hi
    have := h1 ⟨b.toNat, b.isLt⟩ ⟨i, hi⟩
    have l := h0 ⟨b.toNat, b.isLt⟩
    simp only [] at this l
    unfold reverseBits
    rw [BitVec.getLsbD_ofNat]
    simp only [hi, decide_true, Bool.true_and]
    rw [this]
    rfl
  refine ⟨key b, ?_⟩
  apply BitVec.eq_of_getLsbD_eq
  intro i hi
  rw [key _ i hi, key b _ (by omega)]
  congr 1
  omega

end Verif.Bits

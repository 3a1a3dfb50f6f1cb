import Verif.Storage.Aligned
/-
What a user of aligned_storage.h relies on: the measured alignment is that of the type, and the storage has its size and its alignment.
-/
namespace Verif.Storage.Aligned

/-- The types of C++: the alignment is a power of two and divides the size, which is not zero. -/
structure IsType (t : Ty) : Prop where
  power : ∃ k, t.align = 2 ^ k
  size : 0 < t.size
  multiple : t.align ∣ t.size

theorem lowest_even (n : Nat) (h : 0 < n) : (2 * n) ^^^ ((2 * n) &&& (2 * n - 1)) = 2 * (n ^^^ (n &&& (n - 1))) := by
  apply Nat.eq_of_testBit_eq
  intro i
  cases i with
  | zero => simp [Nat.testBit_zero]
  | succ i =>
    rw [Nat.testBit_xor, Nat.testBit_and, Nat.testBit_succ (2 * n), Nat.testBit_succ (2 * n - 1), Nat.testBit_succ (2 * _)]
    have h1 : 2 * n / 2 = n := by omega
    have h2 : (2 * n - 1) / 2 = n - 1 := by omega
    have h3 : 2 * (n ^^^ (n &&& (n - 1))) / 2 = n ^^^ (n &&& (n - 1)) := by omega
    rw [h1, h2, h3, Nat.testBit_xor, Nat.testBit_and]

/-- `simple` is the largest power of two that divides the size. -/
theorem simple_pow : ∀ (k : Nat) (s : Nat), 0 < s → 2 ^ k ∣ s → 2 ^ k ≤ s ^^^ (s &&& (s - 1))
  | 0, s, h, _ => by
    apply Nat.pos_of_ne_zero
    intro h0
    have hx : s ^^^ (s ^^^ (s &&& (s - 1))) = s ^^^ 0 := by rw [h0]
    rw [← Nat.xor_assoc, Nat.xor_self, Nat.zero_xor, Nat.xor_zero] at hx
    have : s &&& (s - 1) ≤ s - 1 := Nat.and_le_right
    omega
  | k + 1, s, h, hd => by
    obtain ⟨q, rfl⟩ := hd
    have hq : 2 ^ (k + 1) * q = 2 * (2 ^ k * q) := by rw [Nat.pow_succ]; grind
    rw [hq] at h ⊢
    rw [lowest_even _ (by omega), Nat.pow_succ]
    have := simple_pow k (2 ^ k * q) (by omega) (Nat.dvd_mul_right _ _)
    omega

theorem enlarged_exact {t : Ty} (h : IsType t) : enlargedSize t = t.size + t.align := by
  obtain ⟨k, hk⟩ := h.power
  obtain ⟨q, hq⟩ := h.multiple
  have ha : 0 < t.align := by rw [hk]; exact Nat.two_pow_pos k
  simp only [enlargedSize, roundUp]
  rw [hq, show t.align * q + 1 + t.align - 1 = t.align * (q + 1) by grind, Nat.mul_div_cancel_left _ ha]
  grind

/-- The alignment that is measured is the alignment of the type. -/
theorem alignment_exact {t : Ty} (h : IsType t) (fuel : Nat) : alignmentOf (fuel + 1) t = some t.align := by
  obtain ⟨k, hk⟩ := h.power
  have ha : 0 < t.align := by rw [hk]; exact Nat.two_pow_pos k
  have hd := h.multiple
  have hs : t.align ≤ simple t := by
    have := simple_pow k t.size h.size (hk ▸ hd)
    rw [← hk] at this
    exact this
  have he := enlarged_exact h
  simp only [alignmentOf, enlargement]
  rw [if_neg (by omega), he]
  rw [show t.size + t.align - t.size = t.align by omega]
  show some (if simple t < t.align then simple t else t.align) = _
  rw [if_neg (by omega)]

/-- The storage of a type whose alignment is at most 32 compiles, and has the size and the alignment of the type. -/
theorem storage_exact_partial {t : Ty} (h : IsType t) (h32 : t.align ≤ 32) (fuel : Nat) : storageFor (fuel + 1) t = some t := by
  obtain ⟨k, hk⟩ := h.power
  have hk5 : k < 6 := by
    rcases Nat.lt_or_ge k 6 with hlt | hge
    · exact hlt
    · have : 2 ^ 6 ≤ 2 ^ k := Nat.pow_le_pow_right (by decide) hge
      omega
  obtain ⟨q, hq⟩ := h.multiple
  have hq0 : 0 < q := by
    rcases Nat.eq_zero_or_pos q with h0 | h0
    · have := h.size; rw [hq, h0] at this; simp at this
    · exact h0
  obtain ⟨s, a⟩ := t
  simp only at hk hq h32
  subst hq
  have key : storage (a * q) a = some ⟨a * q, a⟩ := by
    have hcases : a = 1 ∨ a = 2 ∨ a = 4 ∨ a = 8 ∨ a = 16 ∨ a = 32 := by
      have hk' : k = 0 ∨ k = 1 ∨ k = 2 ∨ k = 3 ∨ k = 4 ∨ k = 5 := by omega
      rcases hk' with rfl | rfl | rfl | rfl | rfl | rfl <;> simp at hk <;> simp [hk]
    rcases hcases with rfl | rfl | rfl | rfl | rfl | rfl <;>
      (simp [storage, typeWithAlignment, roundUp]; omega)
  simp only [storageFor, alignment_exact h fuel, key]

example : IsType ⟨24, 8⟩ ∧ storageFor 1 ⟨24, 8⟩ = some ⟨24, 8⟩ := ⟨⟨⟨3, rfl⟩, by decide, ⟨3, rfl⟩⟩, by decide⟩

/-- There is no storage for types with an alignment of 64, which the compilers have: it does not compile. -/
theorem overaligned_violated : IsType ⟨64, 64⟩ ∧ alignmentOf 1 ⟨64, 64⟩ = some 64 ∧ storageFor 1 ⟨64, 64⟩ = none := ⟨⟨⟨6, rfl⟩, by decide, ⟨1, rfl⟩⟩, by decide, by decide⟩

/-- The measurement by the size alone, which is what one might think suffices, is not the alignment. -/
theorem simple_alone : IsType ⟨16, 4⟩ ∧ simple ⟨16, 4⟩ = 16 := ⟨⟨⟨2, rfl⟩, by decide, ⟨4, rfl⟩⟩, by decide⟩

end Verif.Storage.Aligned

import Verif.Bits.Builder

/-
C155: IntegerBuilder concatenates bit fields.
-/
namespace Verif.Builder

/-! ### Specification -/

/-- A fixed width. -/
def FixedWidth (w : Nat) : Prop := w = 8 ∨ w = 16 ∨ w = 32 ∨ w = 64

/-- A field that may be appended: of an unsigned type, its size positive, at most the width of its
type and less than the width of the result (or equal to it if that is below 32). -/
structure Proper (W : Nat) (f : Field) : Prop where
  width : FixedWidth f.width
  unsigned : f.signed = false
  value : 0 ≤ f.value ∧ f.value < ((2 ^ f.width : Nat) : Int)
  pos : 0 < f.size
  le : f.size ≤ f.width
  fits : f.size < W ∨ (f.size = W ∧ W < 32)

/-- The fields written one after the other, the first one most significant: each contributes its
`size` low bits. -/
def concat : Nat → List Field → Nat
  | acc, [] => acc
  | acc, f :: fs => concat (acc * 2 ^ f.size + f.value.toNat % 2 ^ f.size) fs

/-- The number of bits of the fields. -/
def bits : List Field → Nat
  | [] => 0
  | f :: fs => f.size + bits fs

/-! ### Lemmas -/

theorem mask_value (w k : Nat) (hk : 0 < k) (hle : k ≤ w) :
    mask w false (w - k) = some (((2 ^ k - 1 : Nat)) : Int) := by
  have h1 : w - k < promoted w := by unfold promoted; split <;> omega
  have h2 : (2 ^ w - 1) >>> (w - k) = 2 ^ k - 1 := by
    apply Nat.eq_of_testBit_eq
    intro i
    rw [Nat.testBit_shiftRight, Nat.testBit_two_pow_sub_one, Nat.testBit_two_pow_sub_one]
    exact decide_eq_decide.mpr (by omega)
  simp only [mask, if_pos h1, h2]
  rfl

theorem resetMsb_value (w k : Nat) (hk : 0 < k) (hle : k ≤ w) (v : Int) (hv : 0 ≤ v) :
    resetMsb w false v (w - k) = some ((v.toNat % 2 ^ k : Nat) : Int) := by
  rw [resetMsb, mask_value w k hk hle]
  simp only []
  rw [if_neg (by omega), Int.toNat_natCast, Nat.and_two_pow_sub_one_eq_mod]

theorem append_value (W r : Nat) (hW : FixedWidth W) (hr : r < 2 ^ W) (f : Field) (hf : Proper W f) :
    append W r f.width f.signed f.value f.size = some ((r * 2 ^ f.size + f.value.toNat % 2 ^ f.size) % 2 ^ W) := by
  have hs : shiftResult W r f.size = some ((r <<< f.size) % 2 ^ W) := by
    unfold shiftResult
    rw [if_pos]
    refine ⟨?_, ?_⟩
    · have := hf.fits; unfold promoted; split <;> omega
    · intro hw
      have h1 : f.size ≤ W := by have := hf.fits; omega
      have h2 : r * 2 ^ f.size < 2 ^ W * 2 ^ W :=
        Nat.lt_of_lt_of_le (Nat.mul_lt_mul_of_pos_right hr (Nat.two_pow_pos _))
          (Nat.mul_le_mul_left _ (Nat.pow_le_pow_right (by omega) h1))
      rw [← Nat.pow_add] at h2
      exact Nat.lt_of_lt_of_le h2 (Nat.pow_le_pow_right (by omega) (by rcases hW with h | h | h | h <;> omega))
  rw [append, hs, hf.unsigned, if_pos hf.le, resetMsb_value _ _ hf.pos hf.le _ hf.value.1]
  simp only []
  rw [← Int.natCast_emod, Int.toNat_natCast, ← Nat.or_mod_two_pow, Nat.mod_mod,
    ← Nat.shiftLeft_add_eq_or_of_lt (Nat.mod_lt _ (Nat.two_pow_pos _)), Nat.shiftLeft_eq]

theorem concat_add (fs : List Field) (a : Nat) : concat a fs = a * 2 ^ bits fs + concat 0 fs := by
  induction fs generalizing a with
  | nil => simp [concat, bits]
  | cons f fs ih =>
    rw [concat, ih, concat, ih (0 * _ + _), bits, Nat.pow_add]
    grind

theorem concat_mod (W : Nat) (fs : List Field) (a : Nat) : concat (a % 2 ^ W) fs % 2 ^ W = concat a fs % 2 ^ W := by
  rw [concat_add, concat_add fs a, Nat.add_mod, Nat.mul_mod, Nat.mod_mod, ← Nat.mul_mod, ← Nat.add_mod]

/-- **C155** For every sequence of fields the result is the concatenation of the `fieldSize` low bits of
each, the first field most significant, reduced to the width of the result: if it does not fit, the most significant
bits are lost. -/
theorem build_exact (W : Nat) (hW : FixedWidth W) (fs : List Field) (h : ∀ f ∈ fs, Proper W f) :
    build W fs = some (concat 0 fs % 2 ^ W) := by
  have key : ∀ (fs : List Field) (r : Nat), (∀ f ∈ fs, Proper W f) → r < 2 ^ W →
      appendAll W r fs = some (concat r fs % 2 ^ W) := by
    intro fs
    induction fs with
    | nil => intro r _ hr; simp [appendAll, concat, Nat.mod_eq_of_lt hr]
    | cons f fs ih =>
      intro r hf hr
      rw [appendAll, append_value W r hW hr f (hf f List.mem_cons_self)]
      simp only []
      rw [ih _ (fun g hg => hf g (List.mem_cons_of_mem _ hg)) (Nat.mod_lt _ (Nat.two_pow_pos _)), concat_mod, concat]
  exact key fs 0 h (Nat.two_pow_pos _)

theorem concat_lt (fs : List Field) : concat 0 fs < 2 ^ bits fs := by
  induction fs with
  | nil => simp [concat, bits]
  | cons f fs ih =>
    rw [concat, concat_add, bits, Nat.pow_add, Nat.zero_mul, Nat.zero_add]
    have h1 : f.value.toNat % 2 ^ f.size + 1 ≤ 2 ^ f.size := Nat.mod_lt _ (Nat.two_pow_pos _)
    have h2 := Nat.mul_le_mul_right (2 ^ bits fs) h1
    rw [Nat.add_mul] at h2
    omega

theorem concat_append (as bs : List Field) (a : Nat) : concat a (as ++ bs) = concat (concat a as) bs := by
  induction as generalizing a with
  | nil => rfl
  | cons f as ih => rw [List.cons_append, concat, ih, concat]

/-- **C155** If all fields together fit into the result, every one can be read back from its place: the
bits above those of the later fields. -/
theorem build_reads_back (W : Nat) (hW : FixedWidth W) (as bs : List Field) (f : Field)
    (h : ∀ g ∈ as ++ f :: bs, Proper W g) (hfit : bits (as ++ f :: bs) ≤ W) :
    ∃ r, build W (as ++ f :: bs) = some r ∧ r < 2 ^ bits (as ++ f :: bs) ∧
      r / 2 ^ bits bs % 2 ^ f.size = f.value.toNat % 2 ^ f.size := by
  refine ⟨_, build_exact W hW _ h, ?_, ?_⟩
  · exact Nat.lt_of_le_of_lt (Nat.mod_le _ _) (concat_lt _)
  · rw [Nat.mod_eq_of_lt (Nat.lt_of_lt_of_le (concat_lt _) (Nat.pow_le_pow_right (by omega) hfit)),
      concat_append, concat, concat_add bs, Nat.add_comm (_ * 2 ^ bits bs), Nat.mul_comm _ (2 ^ bits bs),
      Nat.add_mul_div_left _ _ (Nat.two_pow_pos _), Nat.div_eq_of_lt (concat_lt bs), Nat.zero_add,
      Nat.mul_comm, Nat.mul_add_mod, Nat.mod_mod]

/-- **C155** Appending a bit doubles the value and adds the bit. -/
theorem append_bit_exact (W r : Nat) (hW : FixedWidth W) (hr : r < 2 ^ W) (b : Bool) :
    appendBit W r b = some ((2 * r + (if b then 1 else 0)) % 2 ^ W) := by
  have hp : Proper W ⟨8, false, if b then 1 else 0, 1⟩ :=
    ⟨.inl rfl, rfl, by cases b <;> decide, Nat.one_pos, by show 1 ≤ 8; omega, by show 1 < W ∨ _; rcases hW with h | h | h | h <;> omega⟩
  have := append_value W r hW hr _ hp
  simp only [] at this
  rw [appendBit, this]
  cases b <;> simp [Nat.mul_comm]

/-- A 12 bit value from three fields of different types. -/
def demo : List Field := [⟨8, false, 0xab, 4⟩, ⟨32, false, 0x3, 3⟩, ⟨64, false, 0x1f, 5⟩]

theorem demo_proper : ∀ f ∈ demo, Proper 16 f := by
  intro f hf
  simp only [demo, List.mem_cons, List.not_mem_nil, or_false] at hf
  rcases hf with rfl | rfl | rfl
  · exact ⟨.inl rfl, rfl, by decide, by decide, by decide, by decide⟩
  · exact ⟨.inr (.inr (.inl rfl)), rfl, by decide, by decide, by decide, by decide⟩
  · exact ⟨.inr (.inr (.inr rfl)), rfl, by decide, by decide, by decide, by decide⟩

example : build 16 demo = some 0xb7f ∧ bits demo = 12 := by decide

/-- **C155** A field of a signed type is not reduced to its size: `-1` in four bits overwrites the bits appended before. -/
theorem signed_field_violated :
    build 32 [⟨8, false, 0x12, 8⟩, ⟨8, true, -1, 4⟩] = some (2 ^ 32 - 1) ∧
    concat 0 [⟨8, false, 0x12, 8⟩, ⟨8, false, 15, 4⟩] = 0x12f := by decide

/-- **C155** A field as wide as a 32 or 64 bit result, even as the only one, is shifted in with undefined behaviour, for every
value; so is a field of size zero of such a type. -/
theorem full_width_violated (v : Int) (signed : Bool) :
    build 32 [⟨32, signed, v, 32⟩] = none ∧ build 64 [⟨64, signed, v, 64⟩] = none ∧ build 64 [⟨32, signed, v, 0⟩] = none := by
  refine ⟨rfl, rfl, ?_⟩
  simp [build, appendAll, append, shiftResult, promoted, resetMsb, mask]

end Verif.Builder

import Verif.Num.CheckedInt
/-!
The overflow check is exact for every pair of types it compiles for; the range check is exact for values that the common type holds, and wrong for a negative index
compared with an unsigned size.
-/
namespace Verif.Num.Checked

/-- The claim for one pair of types. -/
def Exact (t u : Ty) : Prop :=
  ∀ v i : Int, t.lo ≤ v → v ≤ t.hi → u.lo ≤ i → i ≤ u.hi → checkOverflow t v u i = if t.lo ≤ v + i ∧ v + i ≤ t.hi then .passed else .threw

private theorem s8_s8 : Exact ⟨8, true⟩ ⟨8, true⟩ := by
  intro v i h1 h2 h3 h4
  simp [checkOverflow, less, sub, convert, common, promote, int, Ty.lo, Ty.hi] at *
  grind

private theorem u8_s8 : Exact ⟨8, false⟩ ⟨8, true⟩ := by
  intro v i h1 h2 h3 h4
  simp [checkOverflow, less, sub, convert, common, promote, int, Ty.lo, Ty.hi] at *
  grind

private theorem u8_u8 : Exact ⟨8, false⟩ ⟨8, false⟩ := by
  intro v i h1 h2 h3 h4
  simp [checkOverflow, less, sub, convert, common, promote, int, Ty.lo, Ty.hi] at *
  grind

private theorem s16_s8 : Exact ⟨16, true⟩ ⟨8, true⟩ := by
  intro v i h1 h2 h3 h4
  simp [checkOverflow, less, sub, convert, common, promote, int, Ty.lo, Ty.hi] at *
  grind

private theorem s16_u8 : Exact ⟨16, true⟩ ⟨8, false⟩ := by
  intro v i h1 h2 h3 h4
  simp [checkOverflow, less, sub, convert, common, promote, int, Ty.lo, Ty.hi] at *
  grind

private theorem s16_s16 : Exact ⟨16, true⟩ ⟨16, true⟩ := by
  intro v i h1 h2 h3 h4
  simp [checkOverflow, less, sub, convert, common, promote, int, Ty.lo, Ty.hi] at *
  grind

private theorem u16_s8 : Exact ⟨16, false⟩ ⟨8, true⟩ := by
  intro v i h1 h2 h3 h4
  simp [checkOverflow, less, sub, convert, common, promote, int, Ty.lo, Ty.hi] at *
  grind

private theorem u16_u8 : Exact ⟨16, false⟩ ⟨8, false⟩ := by
  intro v i h1 h2 h3 h4
  simp [checkOverflow, less, sub, convert, common, promote, int, Ty.lo, Ty.hi] at *
  grind

private theorem u16_s16 : Exact ⟨16, false⟩ ⟨16, true⟩ := by
  intro v i h1 h2 h3 h4
  simp [checkOverflow, less, sub, convert, common, promote, int, Ty.lo, Ty.hi] at *
  grind

private theorem u16_u16 : Exact ⟨16, false⟩ ⟨16, false⟩ := by
  intro v i h1 h2 h3 h4
  simp [checkOverflow, less, sub, convert, common, promote, int, Ty.lo, Ty.hi] at *
  grind

private theorem s32_s8 : Exact ⟨32, true⟩ ⟨8, true⟩ := by
  intro v i h1 h2 h3 h4
  simp [checkOverflow, less, sub, convert, common, promote, int, Ty.lo, Ty.hi] at *
  grind

private theorem s32_u8 : Exact ⟨32, true⟩ ⟨8, false⟩ := by
  intro v i h1 h2 h3 h4
  simp [checkOverflow, less, sub, convert, common, promote, int, Ty.lo, Ty.hi] at *
  grind

private theorem s32_s16 : Exact ⟨32, true⟩ ⟨16, true⟩ := by
  intro v i h1 h2 h3 h4
  simp [checkOverflow, less, sub, convert, common, promote, int, Ty.lo, Ty.hi] at *
  grind

private theorem s32_u16 : Exact ⟨32, true⟩ ⟨16, false⟩ := by
  intro v i h1 h2 h3 h4
  simp [checkOverflow, less, sub, convert, common, promote, int, Ty.lo, Ty.hi] at *
  grind

private theorem s32_s32 : Exact ⟨32, true⟩ ⟨32, true⟩ := by
  intro v i h1 h2 h3 h4
  simp [checkOverflow, less, sub, convert, common, promote, int, Ty.lo, Ty.hi] at *
  grind

private theorem u32_s8 : Exact ⟨32, false⟩ ⟨8, true⟩ := by
  intro v i h1 h2 h3 h4
  simp [checkOverflow, less, sub, convert, common, promote, int, Ty.lo, Ty.hi] at *
  grind

private theorem u32_u8 : Exact ⟨32, false⟩ ⟨8, false⟩ := by
  intro v i h1 h2 h3 h4
  simp [checkOverflow, less, sub, convert, common, promote, int, Ty.lo, Ty.hi] at *
  grind

private theorem u32_s16 : Exact ⟨32, false⟩ ⟨16, true⟩ := by
  intro v i h1 h2 h3 h4
  simp [checkOverflow, less, sub, convert, common, promote, int, Ty.lo, Ty.hi] at *
  grind

private theorem u32_u16 : Exact ⟨32, false⟩ ⟨16, false⟩ := by
  intro v i h1 h2 h3 h4
  simp [checkOverflow, less, sub, convert, common, promote, int, Ty.lo, Ty.hi] at *
  grind

private theorem u32_s32 : Exact ⟨32, false⟩ ⟨32, true⟩ := by
  intro v i h1 h2 h3 h4
  simp [checkOverflow, less, sub, convert, common, promote, int, Ty.lo, Ty.hi] at *
  grind

private theorem u32_u32 : Exact ⟨32, false⟩ ⟨32, false⟩ := by
  intro v i h1 h2 h3 h4
  simp [checkOverflow, less, sub, convert, common, promote, int, Ty.lo, Ty.hi] at *
  grind

private theorem s64_s8 : Exact ⟨64, true⟩ ⟨8, true⟩ := by
  intro v i h1 h2 h3 h4
  simp [checkOverflow, less, sub, convert, common, promote, int, Ty.lo, Ty.hi] at *
  grind

private theorem s64_u8 : Exact ⟨64, true⟩ ⟨8, false⟩ := by
  intro v i h1 h2 h3 h4
  simp [checkOverflow, less, sub, convert, common, promote, int, Ty.lo, Ty.hi] at *
  grind

private theorem s64_s16 : Exact ⟨64, true⟩ ⟨16, true⟩ := by
  intro v i h1 h2 h3 h4
  simp [checkOverflow, less, sub, convert, common, promote, int, Ty.lo, Ty.hi] at *
  grind

private theorem s64_u16 : Exact ⟨64, true⟩ ⟨16, false⟩ := by
  intro v i h1 h2 h3 h4
  simp [checkOverflow, less, sub, convert, common, promote, int, Ty.lo, Ty.hi] at *
  grind

private theorem s64_s32 : Exact ⟨64, true⟩ ⟨32, true⟩ := by
  intro v i h1 h2 h3 h4
  simp [checkOverflow, less, sub, convert, common, promote, int, Ty.lo, Ty.hi] at *
  grind

private theorem s64_u32 : Exact ⟨64, true⟩ ⟨32, false⟩ := by
  intro v i h1 h2 h3 h4
  simp [checkOverflow, less, sub, convert, common, promote, int, Ty.lo, Ty.hi] at *
  grind

private theorem s64_s64 : Exact ⟨64, true⟩ ⟨64, true⟩ := by
  intro v i h1 h2 h3 h4
  simp [checkOverflow, less, sub, convert, common, promote, int, Ty.lo, Ty.hi] at *
  grind

private theorem u64_s8 : Exact ⟨64, false⟩ ⟨8, true⟩ := by
  intro v i h1 h2 h3 h4
  simp [checkOverflow, less, sub, convert, common, promote, int, Ty.lo, Ty.hi] at *
  grind

private theorem u64_u8 : Exact ⟨64, false⟩ ⟨8, false⟩ := by
  intro v i h1 h2 h3 h4
  simp [checkOverflow, less, sub, convert, common, promote, int, Ty.lo, Ty.hi] at *
  grind

private theorem u64_s16 : Exact ⟨64, false⟩ ⟨16, true⟩ := by
  intro v i h1 h2 h3 h4
  simp [checkOverflow, less, sub, convert, common, promote, int, Ty.lo, Ty.hi] at *
  grind

private theorem u64_u16 : Exact ⟨64, false⟩ ⟨16, false⟩ := by
  intro v i h1 h2 h3 h4
  simp [checkOverflow, less, sub, convert, common, promote, int, Ty.lo, Ty.hi] at *
  grind

private theorem u64_s32 : Exact ⟨64, false⟩ ⟨32, true⟩ := by
  intro v i h1 h2 h3 h4
  simp [checkOverflow, less, sub, convert, common, promote, int, Ty.lo, Ty.hi] at *
  grind

private theorem u64_u32 : Exact ⟨64, false⟩ ⟨32, false⟩ := by
  intro v i h1 h2 h3 h4
  simp [checkOverflow, less, sub, convert, common, promote, int, Ty.lo, Ty.hi] at *
  grind

private theorem u64_s64 : Exact ⟨64, false⟩ ⟨64, true⟩ := by
  intro v i h1 h2 h3 h4
  simp [checkOverflow, less, sub, convert, common, promote, int, Ty.lo, Ty.hi] at *
  grind

private theorem u64_u64 : Exact ⟨64, false⟩ ⟨64, false⟩ := by
  intro v i h1 h2 h3 h4
  simp [checkOverflow, less, sub, convert, common, promote, int, Ty.lo, Ty.hi] at *
  grind

/-- The check throws exactly if the sum does not fit the type of the value, for all pairs of types that compile and all values; its own computation is always defined. -/
theorem overflow_check {t u : Ty} (ht : t ∈ types) (hu : u ∈ types) (ha : allowed t u = true) {v i : Int} (h1 : t.lo ≤ v) (h2 : v ≤ t.hi) (h3 : u.lo ≤ i) (h4 : i ≤ u.hi) :
    checkOverflow t v u i = if t.lo ≤ v + i ∧ v + i ≤ t.hi then .passed else .threw := by
  simp only [types, List.mem_cons, List.not_mem_nil, or_false] at ht hu
  rcases ht with rfl | rfl | rfl | rfl | rfl | rfl | rfl | rfl
  · rcases hu with rfl | rfl | rfl | rfl | rfl | rfl | rfl | rfl
    · exact s8_s8 v i h1 h2 h3 h4
    · exact absurd ha (by decide)
    · exact absurd ha (by decide)
    · exact absurd ha (by decide)
    · exact absurd ha (by decide)
    · exact absurd ha (by decide)
    · exact absurd ha (by decide)
    · exact absurd ha (by decide)
  · rcases hu with rfl | rfl | rfl | rfl | rfl | rfl | rfl | rfl
    · exact u8_s8 v i h1 h2 h3 h4
    · exact u8_u8 v i h1 h2 h3 h4
    · exact absurd ha (by decide)
    · exact absurd ha (by decide)
    · exact absurd ha (by decide)
    · exact absurd ha (by decide)
    · exact absurd ha (by decide)
    · exact absurd ha (by decide)
  · rcases hu with rfl | rfl | rfl | rfl | rfl | rfl | rfl | rfl
    · exact s16_s8 v i h1 h2 h3 h4
    · exact s16_u8 v i h1 h2 h3 h4
    · exact s16_s16 v i h1 h2 h3 h4
    · exact absurd ha (by decide)
    · exact absurd ha (by decide)
    · exact absurd ha (by decide)
    · exact absurd ha (by decide)
    · exact absurd ha (by decide)
  · rcases hu with rfl | rfl | rfl | rfl | rfl | rfl | rfl | rfl
    · exact u16_s8 v i h1 h2 h3 h4
    · exact u16_u8 v i h1 h2 h3 h4
    · exact u16_s16 v i h1 h2 h3 h4
    · exact u16_u16 v i h1 h2 h3 h4
    · exact absurd ha (by decide)
    · exact absurd ha (by decide)
    · exact absurd ha (by decide)
    · exact absurd ha (by decide)
  · rcases hu with rfl | rfl | rfl | rfl | rfl | rfl | rfl | rfl
    · exact s32_s8 v i h1 h2 h3 h4
    · exact s32_u8 v i h1 h2 h3 h4
    · exact s32_s16 v i h1 h2 h3 h4
    · exact s32_u16 v i h1 h2 h3 h4
    · exact s32_s32 v i h1 h2 h3 h4
    · exact absurd ha (by decide)
    · exact absurd ha (by decide)
    · exact absurd ha (by decide)
  · rcases hu with rfl | rfl | rfl | rfl | rfl | rfl | rfl | rfl
    · exact u32_s8 v i h1 h2 h3 h4
    · exact u32_u8 v i h1 h2 h3 h4
    · exact u32_s16 v i h1 h2 h3 h4
    · exact u32_u16 v i h1 h2 h3 h4
    · exact u32_s32 v i h1 h2 h3 h4
    · exact u32_u32 v i h1 h2 h3 h4
    · exact absurd ha (by decide)
    · exact absurd ha (by decide)
  · rcases hu with rfl | rfl | rfl | rfl | rfl | rfl | rfl | rfl
    · exact s64_s8 v i h1 h2 h3 h4
    · exact s64_u8 v i h1 h2 h3 h4
    · exact s64_s16 v i h1 h2 h3 h4
    · exact s64_u16 v i h1 h2 h3 h4
    · exact s64_s32 v i h1 h2 h3 h4
    · exact s64_u32 v i h1 h2 h3 h4
    · exact s64_s64 v i h1 h2 h3 h4
    · exact absurd ha (by decide)
  · rcases hu with rfl | rfl | rfl | rfl | rfl | rfl | rfl | rfl
    · exact u64_s8 v i h1 h2 h3 h4
    · exact u64_u8 v i h1 h2 h3 h4
    · exact u64_s16 v i h1 h2 h3 h4
    · exact u64_u16 v i h1 h2 h3 h4
    · exact u64_s32 v i h1 h2 h3 h4
    · exact u64_u32 v i h1 h2 h3 h4
    · exact u64_s64 v i h1 h2 h3 h4
    · exact u64_u64 v i h1 h2 h3 h4

example : checkOverflow ⟨32, true⟩ 2147483647 ⟨32, true⟩ 1 = .threw ∧ checkOverflow ⟨32, true⟩ (-2147483648) ⟨8, true⟩ (-1) = .threw ∧
    checkOverflow ⟨64, false⟩ 3 ⟨32, true⟩ (-4) = .threw ∧ checkOverflow ⟨64, false⟩ 3 ⟨32, true⟩ (-3) = .passed := by decide

/-- `<` of two values that are not negative is `<` of the numbers. -/
private theorem less_exact {t u : Ty} (ht : t ∈ types) (hu : u ∈ types) {a b : Int} (h1 : 0 ≤ a) (h2 : a ≤ t.hi) (h3 : 0 ≤ b) (h4 : b ≤ u.hi) : less t a u b = decide (a < b) := by
  have key : convert (common t u) a = a ∧ convert (common t u) b = b := by
    revert h2 h4
    simp only [types, List.mem_cons, List.not_mem_nil, or_false] at ht hu
    rcases ht with rfl | rfl | rfl | rfl | rfl | rfl | rfl | rfl <;>
    rcases hu with rfl | rfl | rfl | rfl | rfl | rfl | rfl | rfl <;>
    simp [convert, common, promote, Ty.hi] <;> omega
  simp only [less, key.1, key.2]

/-- What the range check tells of an index that is not negative, and bounds that are not negative: `index < size`, whatever the types. -/
theorem range2_partial {t u : Ty} (ht : t ∈ types) (hu : u ∈ types) {index size : Int} (h1 : 0 ≤ index) (h2 : index ≤ t.hi) (h3 : 0 ≤ size) (h4 : size ≤ u.hi) :
    (checkRange2 t index u size = true ↔ 0 ≤ index ∧ index < size) := by
  have key := less_exact ht hu h1 h2 h3 h4
  simp [checkRange2, key, h1]

/-- The same of the check with three arguments. -/
theorem range3_partial {t u w : Ty} (ht : t ∈ types) (hu : u ∈ types) (hw : w ∈ types) {index first last : Int} (h1 : 0 ≤ index) (h2 : index ≤ t.hi)
    (h3 : 0 ≤ first) (h4 : first ≤ u.hi) (h5 : 0 ≤ last) (h6 : last ≤ w.hi) :
    (checkRange3 t index u first w last = true ↔ first ≤ index ∧ index < last) := by
  simp [checkRange3, less_exact ht hu h1 h2 h3 h4, less_exact ht hw h1 h2 h5 h6]

example : checkRange2 ⟨8, true⟩ 100 ⟨64, false⟩ 101 = true ∧ checkRange2 ⟨8, true⟩ 100 ⟨64, false⟩ 100 = false ∧
    checkRange3 ⟨16, false⟩ 7 ⟨32, true⟩ 7 ⟨64, true⟩ 8 = true := by decide

/-- With operands all of whose values are signed the check is exact for the upper bound, but a negative index passes: the macro has no lower bound. -/
theorem range_negative_violated : checkRange2 ⟨32, true⟩ (-1) ⟨32, true⟩ 5 = true ∧ ¬(0 ≤ (-1 : Int) ∧ (-1 : Int) < 5) := by decide

/-- With an unsigned size a negative index is compared as the large number it wraps to: it is refused, except by a bound that is larger still; and the check with three
arguments refuses an index inside its bounds, when `first` is negative. -/
theorem range_unsigned_violated : checkRange2 ⟨32, true⟩ (-5) ⟨32, false⟩ 4294967295 = true ∧
    checkRange3 ⟨32, false⟩ 3 ⟨32, true⟩ (-1) ⟨32, true⟩ 10 = false := by decide

end Verif.Num.Checked

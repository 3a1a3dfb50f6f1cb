import Verif.Str.HumanSize
import Verif.Str.IntsProps
/-
C136: sizes in human-readable form.
-/
namespace Verif.Str

namespace Spec

/-- The text of a size: a number without a suffix, or a number and the letter of a power of 1024. -/
inductive SizeText : List Char → Nat → Nat → Prop where
  | plain (ds : List Char) : ds ≠ [] → ds.all isDigit = true → SizeText ds (decimal ds).toNat 0
  | k (ds : List Char) : ds ≠ [] → ds.all isDigit = true → SizeText (ds ++ ['k']) (decimal ds).toNat 1
  | M (ds : List Char) : ds ≠ [] → ds.all isDigit = true → SizeText (ds ++ ['M']) (decimal ds).toNat 2
  | G (ds : List Char) : ds ≠ [] → ds.all isDigit = true → SizeText (ds ++ ['G']) (decimal ds).toNat 3
  | T (ds : List Char) : ds ≠ [] → ds.all isDigit = true → SizeText (ds ++ ['T']) (decimal ds).toNat 4
  | P (ds : List Char) : ds ≠ [] → ds.all isDigit = true → SizeText (ds ++ ['P']) (decimal ds).toNat 5
  | E (ds : List Char) : ds ≠ [] → ds.all isDigit = true → SizeText (ds ++ ['E']) (decimal ds).toNat 6

end Spec

theorem u64_ok : u64.Ok ∧ u64.hi < 10 ^ 31 := int_types_ok u64 (by simp)

theorem all_dec {ds : List Char} (h : ds.all isDigit = true) : 0 ≤ decimal ds := fold_ge ds h 0 (by omega)

theorem suffix_cases {j : Nat} (hj : j < 6) : ∃ c, suffixes[j]? = some c ∧ suffixIndex c = some j ∧ isDigit c = false ∧ c ≠ '-' ∧ c ≠ '+' := by
  have : j = 0 ∨ j = 1 ∨ j = 2 ∨ j = 3 ∨ j = 4 ∨ j = 5 := by omega
  rcases this with rfl | rfl | rfl | rfl | rfl | rfl <;> exact ⟨_, rfl, by decide, by decide, by decide, by decide⟩

theorem suffixIndex_some {c : Char} {i : Nat} (h : suffixIndex c = some i) : i < 6 ∧ suffixes[i]? = some c := by
  unfold suffixIndex at h
  rw [List.findIdx?_eq_some_iff_getElem] at h
  obtain ⟨h1, h2, _⟩ := h
  refine ⟨h1, ?_⟩
  rw [List.getElem?_eq_getElem h1]
  simp only [decide_eq_true_eq] at h2
  rw [← h2]

theorem fromText_last_bad (t : IntTy) (ds : List Char) (c : Char) (hne : ds ≠ []) (hc : isDigit c = false) : fromText t (ds ++ [c]) = .formatError := by
  cases ds with
  | nil => exact absurd rfl hne
  | cons d ds =>
    rw [List.cons_append, fromText]
    have h1 : (ds ++ [c]).all isDigit = false := by simp [hc]
    split
    · rw [if_neg (by rw [h1]; decide)]
    · rw [if_neg (by rw [List.all_cons, h1]; simp)]

/-- **C136.**  A number, or a number with a letter: the number times the power of 1024, if it fits in 64 bits. -/
theorem from_human_reads {s : List Char} {n k : Nat} (h : Spec.SizeText s n k) (hb : n * 1024 ^ k < 2 ^ 64) : fromHuman s = .ok (n * 1024 ^ k : Nat) := by
  have hu := u64_ok.1
  have key : ∀ (ds : List Char) (j : Nat) (c : Char), j < 6 → suffixes[j]? = some c → ds ≠ [] → ds.all isDigit = true → (decimal ds).toNat * 1024 ^ (j + 1) < 2 ^ 64 →
      fromHuman (ds ++ [c]) = .ok ((decimal ds).toNat * 1024 ^ (j + 1) : Nat) := by
    intro ds j c hj hc hne hd hb
    obtain ⟨c', h1, h2, h3, _, _⟩ := suffix_cases hj
    rw [hc] at h1; cases h1
    have hsmall : decimal ds ≤ u64.hi := by
      have h0 := all_dec hd
      have : (decimal ds).toNat * 1 ≤ (decimal ds).toNat * 1024 ^ (j + 1) := Nat.mul_le_mul_left _ (Nat.pow_pos (by omega) : 0 < 1024 ^ (j + 1))
      show decimal ds ≤ 18446744073709551615
      omega
    have hpow : 2 ^ (10 * (j + 1)) = 1024 ^ (j + 1) := by rw [Nat.pow_mul]
    rw [fromHuman, fromText_last_bad _ _ _ hne h3]
    simp only [fromSuffixed, List.getLast?_concat, List.dropLast_concat]
    rw [if_pos ⟨hne, hd⟩, h2]
    simp only [(fromText_digits hu hne hd).1, if_pos hsmall]
    rw [hpow, wrap64, Nat.mod_eq_of_lt (by omega)]
  cases h with
  | plain _ hne hd =>
    have h0 := all_dec hd
    have hsmall : decimal s ≤ u64.hi := by show decimal s ≤ 18446744073709551615; omega
    rw [fromHuman, (fromText_digits hu hne hd).1, if_pos hsmall]
    simp only [Parsed.ok.injEq]; omega
  | k ds hne hd => exact key ds 0 _ (by omega) rfl hne hd hb
  | M ds hne hd => exact key ds 1 _ (by omega) rfl hne hd hb
  | G ds hne hd => exact key ds 2 _ (by omega) rfl hne hd hb
  | T ds hne hd => exact key ds 3 _ (by omega) rfl hne hd hb
  | P ds hne hd => exact key ds 4 _ (by omega) rfl hne hd hb
  | E ds hne hd => exact key ds 5 _ (by omega) rfl hne hd hb

theorem sizeText_suffix {ds : List Char} {j : Nat} {c : Char} (hj : j < 6) (hc : suffixes[j]? = some c) (hne : ds ≠ []) (hd : ds.all isDigit = true) :
    Spec.SizeText (ds ++ [c]) (decimal ds).toNat (j + 1) := by
  have : j = 0 ∨ j = 1 ∨ j = 2 ∨ j = 3 ∨ j = 4 ∨ j = 5 := by omega
  rcases this with rfl | rfl | rfl | rfl | rfl | rfl <;> cases hc
  · exact .k ds hne hd
  · exact .M ds hne hd
  · exact .G ds hne hd
  · exact .T ds hne hd
  · exact .P ds hne hd
  · exact .E ds hne hd

/-- **C136.**  Nothing else is read: a text that is accepted is a number with an optional sign, or a number and one of the letters. -/
theorem from_human_only {s : List Char} {v : Int} (h : fromHuman s = .ok v) : fromText u64 s = .ok v ∨ ∃ n k, Spec.SizeText s n k ∧ 1 ≤ k := by
  rw [fromHuman] at h
  split at h
  · left; cases h; assumption
  · right
    rw [fromSuffixed] at h
    split at h
    · cases h
    · rename_i c hc
      split at h
      · rename_i hd
        split at h
        · cases h
        · rename_i i hi
          obtain ⟨h1, h2⟩ := suffixIndex_some hi
          have hs : s = s.dropLast ++ [c] := by
            rw [List.getLast?_eq_some_iff] at hc
            obtain ⟨q, rfl⟩ := hc
            simp
          rw [hs]
          exact ⟨_, _, sizeText_suffix h1 h2 hd.1 hd.2, by omega⟩
      · cases h

theorem rounded_cases (size i : Nat) : ∃ q rem, size = q * 1024 ^ i + rem ∧ rem < 1024 ^ i ∧
    (roundedInUnits size i = q + 1 ∧ 1024 ^ i ≤ 2 * rem ∨ roundedInUnits size i = q ∧ (2 * rem < 1024 ^ i ∨ rem = 0)) := by
  have hpow : 2 ^ (10 * i) = 1024 ^ i := by rw [Nat.pow_mul]
  have hpos : 0 < 1024 ^ i := Nat.pow_pos (by omega)
  have heven : 1024 ^ i = 1 ∨ 1024 ^ i = 2 * (1024 ^ i / 2) := by
    cases i with
    | zero => left; rfl
    | succ i => right; rw [Nat.pow_succ]; omega
  unfold roundedInUnits
  rw [hpow]
  generalize 1024 ^ i = U at *
  refine ⟨size / U, size % U, by rw [Nat.mul_comm]; exact (Nat.div_add_mod size U).symm, Nat.mod_lt _ hpos, ?_⟩
  have hlt := Nat.mod_lt size hpos
  split
  · rename_i h; left; refine ⟨rfl, by omega⟩
  · rename_i h; right; refine ⟨rfl, ?_⟩
    rcases heven with h1 | h1
    · right; omega
    · left
      by_cases h2 : U > 1
      · have : ¬ size % U ≥ U / 2 := fun h3 => h ⟨h2, h3⟩
        omega
      · omega

theorem accepted_iff {size d i : Nat} (hi : i ≤ 6) (hs : size + d < 2 ^ 64) (hd : d < size) :
    accepted size d i = true ↔ size - d ≤ roundedInUnits size i * 1024 ^ i ∧ roundedInUnits size i * 1024 ^ i ≤ size + d := by
  have hpow : 2 ^ (10 * i) = 1024 ^ i := by rw [Nat.pow_mul]
  have hdvd : 1024 ^ i * 1024 ^ (6 - i) * 16 = 2 ^ 64 := by
    rw [← Nat.pow_add, show i + (6 - i) = 6 by omega]
  obtain ⟨q, rem, h1, h2, h3⟩ := rounded_cases size i
  unfold accepted
  rw [hpow]
  generalize roundedInUnits size i = R at *
  have hpos : 0 < 1024 ^ i := Nat.pow_pos (by omega)
  generalize 1024 ^ (6 - i) = V at *
  generalize 1024 ^ i = U at *
  have hw : wrap64 (size + d) = size + d := by unfold wrap64; exact Nat.mod_eq_of_lt (by omega)
  rw [hw]
  by_cases hr : R * U < 2 ^ 64
  · rw [show wrap64 (R * U) = R * U by unfold wrap64; exact Nat.mod_eq_of_lt (by omega)]
    simp
  · -- the product is exactly 2^64
    have hRU : R * U = 2 ^ 64 := by
      rcases h3 with ⟨h3, h4⟩ | ⟨h3, h4⟩
      · subst h3
        rw [Nat.add_mul, Nat.one_mul] at hr ⊢
        -- q * U ≤ size < 2^64 = U * (V * 16)
        have hq : q < V * 16 := by
          apply Nat.lt_of_mul_lt_mul_right (a := U)
          have : V * 16 * U = 2 ^ 64 := by rw [← hdvd]; simp [Nat.mul_comm, Nat.mul_assoc, Nat.mul_left_comm]
          omega
        have hq2 : (q + 1) * U ≤ V * 16 * U := Nat.mul_le_mul_right _ hq
        rw [Nat.add_mul, Nat.one_mul] at hq2
        have : V * 16 * U = 2 ^ 64 := by rw [← hdvd]; simp [Nat.mul_comm, Nat.mul_assoc, Nat.mul_left_comm]
        omega
      · subst h3; omega
    rw [hRU]
    have : wrap64 (2 ^ 64) = 0 := by decide
    rw [this]
    simp only [ge_iff_le, Bool.and_eq_true, decide_eq_true_eq]
    omega

theorem nearest {size d i m : Nat} (hd : d < size) (h1 : size - d ≤ m * 1024 ^ i) (h2 : m * 1024 ^ i ≤ size + d) :
    size - d ≤ roundedInUnits size i * 1024 ^ i ∧ roundedInUnits size i * 1024 ^ i ≤ size + d := by
  obtain ⟨q, rem, h3, h4, h5⟩ := rounded_cases size i
  generalize roundedInUnits size i = R at *
  generalize 1024 ^ i = U at *
  have hm : m * U ≤ q * U ∨ (q + 1) * U ≤ m * U := by
    rcases Nat.lt_or_ge q m with h | h
    · right; exact Nat.mul_le_mul_right _ h
    · left; exact Nat.mul_le_mul_right _ h
  rw [Nat.add_mul, Nat.one_mul] at hm
  rcases h5 with ⟨rfl, h6⟩ | ⟨rfl, h6⟩
  · rw [Nat.add_mul, Nat.one_mul]
    generalize q * U = a at *
    generalize m * U = b at *
    omega
  · generalize R * U = a at *
    generalize m * U = b at *
    omega

theorem rounded_le {size i : Nat} (hs : size < 2 ^ 64) : roundedInUnits size i < 2 ^ 64 := by
  obtain ⟨q, rem, h1, h2, h3⟩ := rounded_cases size i
  have hpos : 0 < 1024 ^ i := Nat.pow_pos (by omega)
  have hq : q * 1 ≤ q * 1024 ^ i := Nat.mul_le_mul_left _ hpos
  rcases h3 with ⟨h3, h4⟩ | ⟨h3, h4⟩ <;> omega

theorem loop_spec {size d : Nat} (hs : size + d < 2 ^ 64) (hd : d < size) : ∀ i, i ≤ 7 → 0 < i →
    ∃ k, k < i ∧ humanLoop size d [] i = unitText size k [] ∧ size - d ≤ roundedInUnits size k * 1024 ^ k ∧ roundedInUnits size k * 1024 ^ k ≤ size + d ∧
      ∀ j, k < j → j < i → accepted size d j = false := by
  intro i
  induction i with
  | zero => intro _ h; omega
  | succ i ih =>
    intro h7 _
    by_cases ha : accepted size d i = true
    · obtain ⟨h1, h2⟩ := (accepted_iff (by omega) hs hd).mp ha
      exact ⟨i, by omega, by rw [humanLoop, if_pos ha], h1, h2, fun j h3 h4 => by omega⟩
    · cases hi : i with
      | zero =>
        exfalso; apply ha
        subst hi
        exact (accepted_iff (by omega) hs hd).mpr (nearest hd (m := size) (by simp) (by simp))
      | succ i' =>
        obtain ⟨k, h1, h2, h3, h4, h5⟩ := ih (by omega) (by omega)
        rw [← hi]
        refine ⟨k, by omega, by rw [humanLoop, if_neg ha, h2], h3, h4, ?_⟩
        intro j h6 h7
        by_cases hj : j = i
        · subst hj; simpa using ha
        · exact h5 j h6 (by omega)

/-- **C136.**  The text of a size (without the space) is a number with one of the letters or none; what it stands for is within the allowed error of the size, is read back exactly,
it is the size rounded to the unit, half of it upwards, and no larger unit could have been used. -/
theorem to_human {size d : Nat} (hs : size + d < 2 ^ 64) (hd : d < size) :
    ∃ s n k, toHuman size d false = some s ∧ Spec.SizeText s n k ∧ size - d ≤ n * 1024 ^ k ∧ n * 1024 ^ k ≤ size + d ∧ fromHuman s = .ok (n * 1024 ^ k : Nat) ∧
      (2 * size < 2 * (n * 1024 ^ k) + 1024 ^ k ∧ 2 * (n * 1024 ^ k) ≤ 2 * size + 1024 ^ k) ∧ ∀ j, k < j → j ≤ 6 → ¬ ∃ m, size - d ≤ m * 1024 ^ j ∧ m * 1024 ^ j ≤ size + d := by
  obtain ⟨k, h1, h2, h3, h4, h5⟩ := loop_spec hs hd 7 (by omega) (by omega)
  have hlt := rounded_le (size := size) (i := k) (by omega)
  obtain ⟨ds, t1, t2, t3, t4, _⟩ := toText_spec u64_ok.1 u64_ok.2 (v := (roundedInUnits size k : Int)) (by show (0 : Int) ≤ _; omega) (by show _ ≤ (18446744073709551615 : Int); omega)
  rw [if_neg (by omega)] at t1
  have hn : (decimal ds).toNat = roundedInUnits size k := by omega
  have hj : ∀ j, k < j → j ≤ 6 → ¬ ∃ m, size - d ≤ m * 1024 ^ j ∧ m * 1024 ^ j ≤ size + d := by
    rintro j h6 h7 ⟨m, h8, h9⟩
    have := h5 j h6 (by omega)
    rw [(accepted_iff h7 hs hd).mpr (nearest hd h8 h9)] at this
    cases this
  have hr : 2 * size < 2 * (roundedInUnits size k * 1024 ^ k) + 1024 ^ k ∧ 2 * (roundedInUnits size k * 1024 ^ k) ≤ 2 * size + 1024 ^ k := by
    obtain ⟨q, rem, r1, r2, r3⟩ := rounded_cases size k
    generalize roundedInUnits size k = R at *
    generalize 1024 ^ k = U at *
    rcases r3 with ⟨rfl, r4⟩ | ⟨rfl, r4⟩
    · rw [Nat.add_mul, Nat.one_mul]; omega
    · omega
  have htop : toHuman size d false = unitText size k [] := by
    rw [toHuman, if_neg (by omega)]; exact h2
  cases k with
  | zero =>
    have hst := Spec.SizeText.plain ds t2 t3
    refine ⟨ds, _, 0, ?_, hst, by rw [hn]; exact h3, by rw [hn]; exact h4, from_human_reads hst (by rw [hn]; omega), by rw [hn]; exact hr, hj⟩
    rw [htop, unitText, t1]; simp
  | succ k =>
    obtain ⟨c, hc, _⟩ := suffix_cases (j := k) (by omega)
    have hst := sizeText_suffix (by omega) hc t2 t3
    refine ⟨ds ++ [c], _, k + 1, ?_, hst, by rw [hn]; exact h3, by rw [hn]; exact h4, from_human_reads hst (by rw [hn]; omega), by rw [hn]; exact hr, hj⟩
    rw [htop, unitText, t1]; simp [hc]

/-- **C136.**  With no error allowed the size itself is read back. -/
theorem to_human_exact {size : Nat} (hs : size < 2 ^ 64) : ∃ s, toHuman size 0 false = some s ∧ fromHuman s = .ok size := by
  by_cases h0 : size = 0
  · subst h0; exact ⟨['0'], rfl, by decide⟩
  · obtain ⟨s, n, k, h1, h2, h3, h4, h5, _, h6⟩ := to_human (size := size) (d := 0) (by omega) (by omega)
    refine ⟨s, h1, ?_⟩
    rw [h5, show n * 1024 ^ k = size by omega]

theorem loop_none {size d : Nat} (ws : List Char) (hs : size < 2 ^ 64) (hd : 2 * d < 2 ^ 64) (ho : 2 ^ 64 ≤ size + d) : ∀ i, humanLoop size d ws i = none := by
  intro i
  induction i with
  | zero => rfl
  | succ i ih =>
    rw [humanLoop, if_neg, ih]
    unfold accepted
    have : wrap64 (size + d) = size + d - 2 ^ 64 := by unfold wrap64; omega
    rw [this]
    simp only [ge_iff_le, Bool.and_eq_true, decide_eq_true_eq]
    omega

/-- Sizes that together with the allowed error do not fit in 64 bits are refused with an exception, whatever the size. -/
theorem to_human_large_violated {size d : Nat} (ws : Bool) (hs : size < 2 ^ 64) (hd : 2 * d < 2 ^ 64) (ho : 2 ^ 64 ≤ size + d) : toHuman size d ws = none := by
  rw [toHuman, if_neg (by omega)]
  exact loop_none _ hs hd ho _

/-- A size written with the space before the suffix is not read. -/
theorem to_human_space_violated : toHuman 5120 51 true = some "5 k".toList ∧ fromHuman "5 k".toList = .formatError := by decide +kernel

/-- Sizes that do not fit are read as something else. -/
theorem from_human_wraps_violated : fromHuman "16E".toList = .ok 0 ∧ fromHuman "17E".toList = .ok (2 ^ 60) := by decide +kernel

example : toHuman 1536 15 false = some "1536".toList ∧ toHuman 10230 102 false = some "10k".toList ∧ toHuman (3 * 2 ^ 30) 0 false = some "3G".toList := by decide +kernel
example : fromHuman "12M".toList = .ok 12582912 ∧ fromHuman "12m".toList = .formatError ∧ fromHuman "k".toList = .formatError := by decide +kernel

end Verif.Str

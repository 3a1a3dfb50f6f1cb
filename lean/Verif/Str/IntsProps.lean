import Verif.Str.Ints

/-! C75: integers as text. -/

namespace Verif.Str

/-- The number a string of digits denotes (specification). -/
def decimal (ds : List Char) : Int := ds.foldl (fun a c => a * 10 + digitVal c) 0

theorem fold_shift (ds : List Char) : ∀ a b : Int,
    ds.foldl (fun a c => a * 10 + digitVal c) (a + b) = ds.foldl (fun a c => a * 10 + digitVal c) a + b * 10 ^ ds.length := by
  induction ds with
  | nil => intro a b; simp
  | cons c ds ih =>
    intro a b
    simp only [List.foldl_cons, List.length_cons]
    have : (a + b) * 10 + digitVal c = (a * 10 + digitVal c) + b * 10 := by rw [Int.add_mul]; omega
    rw [this, ih, Int.pow_succ, Int.mul_assoc, Int.mul_comm 10]

theorem digitVal_range {c : Char} (h : isDigit c = true) : 0 ≤ digitVal c ∧ digitVal c ≤ 9 := by
  simp only [isDigit, Bool.and_eq_true, decide_eq_true_eq] at h
  simp only [digitVal]; omega

theorem fold_ge (ds : List Char) (h : ds.all isDigit = true) : ∀ a : Int, 0 ≤ a →
    a ≤ ds.foldl (fun a c => a * 10 + digitVal c) a := by
  induction ds with
  | nil => intro a _; simp
  | cons c ds ih =>
    intro a ha
    simp only [List.all_cons, Bool.and_eq_true] at h
    have := digitVal_range h.1
    simp only [List.foldl_cons]
    have := ih h.2 (a * 10 + digitVal c) (by omega)
    omega

theorem tdiv10 (x : Int) (h : 0 ≤ x) : x.tdiv 10 = x / 10 ∧ x.tmod 10 = x % 10 :=
  ⟨Int.tdiv_eq_ediv_of_nonneg h, Int.tmod_eq_emod_of_nonneg h⟩

theorem tdiv10_neg (x : Int) (h : x ≤ 0) : x.tdiv 10 = -((-x) / 10) ∧ x.tmod 10 = -((-x) % 10) := by
  have h1 := tdiv10 (-x) (by omega)
  rw [Int.neg_tdiv, Int.neg_tmod] at h1
  omega

/-- One step accepts exactly the values in range. -/
theorem safeStep_pos {t : IntTy} (ht : t.Ok) {v d : Int} (hv : 0 ≤ v) (hd : 0 ≤ d ∧ d ≤ 9) :
    safeStep t false v d = if v * 10 + d ≤ t.hi then some (v * 10 + d) else none := by
  have h := tdiv10 t.hi (by have := ht.hi; omega)
  simp only [safeStep, h.1, h.2]
  have e : (decide (v < t.hi / 10) || decide (v = t.hi / 10) && decide (d ≤ t.hi % 10)) = decide (v * 10 + d ≤ t.hi) := by
    rw [Bool.eq_iff_iff]
    simp only [Bool.or_eq_true, Bool.and_eq_true, decide_eq_true_eq]
    omega
  simp only [e, decide_eq_true_eq]
  cases t.signed <;> simp

theorem safeStep_neg {t : IntTy} (ht : t.Ok) (hs : t.signed = true) {v d : Int} (hv : 0 ≤ v) (hd : 0 ≤ d ∧ d ≤ 9) :
    safeStep t true (-v) d = if t.lo ≤ -(v * 10 + d) then some (-(v * 10 + d)) else none := by
  have hl := ht.lo
  rw [hs] at hl
  simp only [if_true] at hl
  have h := tdiv10_neg t.lo (by have := ht.hi; omega)
  simp only [safeStep, hs, if_true, h.1, h.2]
  have e : (decide (-v > -(-t.lo / 10)) || decide (-v = -(-t.lo / 10)) && decide (d ≤ -(-t.lo % 10) * -1)) = decide (t.lo ≤ -(v * 10 + d)) := by
    rw [Bool.eq_iff_iff]
    simp only [Bool.or_eq_true, Bool.and_eq_true, decide_eq_true_eq]
    omega
  have e2 : -v * 10 + -d = -(v * 10 + d) := by omega
  simp only [e, e2, decide_eq_true_eq]

theorem accumulate_pos {t : IntTy} (ht : t.Ok) (ds : List Char) (h : ds.all isDigit = true) : ∀ v : Int, 0 ≤ v → v ≤ t.hi →
    accumulate t false ds v = if ds.foldl (fun a c => a * 10 + digitVal c) v ≤ t.hi
      then .ok (ds.foldl (fun a c => a * 10 + digitVal c) v) else .rangeError := by
  induction ds with
  | nil => intro v h1 h2; simp [accumulate, h2]
  | cons c ds ih =>
    intro v h1 h2
    simp only [List.all_cons, Bool.and_eq_true] at h
    have hd := digitVal_range h.1
    simp only [accumulate, safeStep_pos ht h1 hd, List.foldl_cons]
    by_cases hc : v * 10 + digitVal c ≤ t.hi
    · simp only [hc, if_true]
      exact ih h.2 _ (by omega) hc
    · simp only [hc, if_false]
      have := fold_ge ds h.2 (v * 10 + digitVal c) (by omega)
      symm
      exact if_neg (by omega)

theorem accumulate_neg {t : IntTy} (ht : t.Ok) (hs : t.signed = true) (ds : List Char) (h : ds.all isDigit = true) :
    ∀ v : Int, 0 ≤ v → t.lo ≤ -v →
    accumulate t true ds (-v) = if t.lo ≤ -ds.foldl (fun a c => a * 10 + digitVal c) v
      then .ok (-ds.foldl (fun a c => a * 10 + digitVal c) v) else .rangeError := by
  induction ds with
  | nil => intro v h1 h2; simp [accumulate, h2]
  | cons c ds ih =>
    intro v h1 h2
    simp only [List.all_cons, Bool.and_eq_true] at h
    have hd := digitVal_range h.1
    simp only [accumulate, safeStep_neg ht hs h1 hd, List.foldl_cons]
    by_cases hc : t.lo ≤ -(v * 10 + digitVal c)
    · simp only [hc, if_true]
      exact ih h.2 _ (by omega) hc
    · simp only [hc, if_false]
      have := fold_ge ds h.2 (v * 10 + digitVal c) (by omega)
      symm
      exact if_neg (by omega)

theorem digit_not_sign {c : Char} (h : isDigit c = true) : ¬ (c = '-') ∧ ¬ (c = '+') := by
  constructor <;> (intro e; subst e; exact absurd h (by decide))

/-- C75.  Digits without a sign, or after `+`: the number if the type can hold it, otherwise the range
error. -/
theorem fromText_digits {t : IntTy} (ht : t.Ok) {ds : List Char} (hne : ds ≠ []) (h : ds.all isDigit = true) :
    fromText t ds = (if decimal ds ≤ t.hi then .ok (decimal ds) else .rangeError) ∧
    fromText t ('+' :: ds) = (if decimal ds ≤ t.hi then .ok (decimal ds) else .rangeError) := by
  have hk := accumulate_pos ht ds h 0 (by omega) (by have := ht.hi; omega)
  constructor
  · cases ds with
    | nil => exact absurd rfl hne
    | cons c cs =>
      have hd := digit_not_sign (List.all_eq_true.mp h c (by simp))
      simp only [fromText, hd.1, hd.2, h, decimal, decide_false, Bool.or_self, Bool.false_eq_true, if_false, if_true]
      exact hk
  · simp only [fromText, h, decimal]
    simp only [decide_true, Bool.or_true, if_true]
    have : decide (('+' : Char) = '-') = false := by decide
    rw [this]
    exact hk

/-- C75.  Digits after `-`: the negated number if a signed type can hold it; unsigned types reject
every minus sign before digits. -/
theorem fromText_negative {t : IntTy} (ht : t.Ok) {ds : List Char} (hne : ds ≠ []) (h : ds.all isDigit = true) :
    fromText t ('-' :: ds) = if t.signed ∧ t.lo ≤ -decimal ds then .ok (-decimal ds) else .rangeError := by
  have hl := ht.lo
  simp only [fromText, h, decimal]
  simp only [decide_true, Bool.true_or, if_true]
  cases hs : t.signed with
  | true =>
    have hk := accumulate_neg ht hs ds h 0 (by omega) (by have := ht.hi; rw [hs] at hl; simp at hl; omega)
    simp only [Int.neg_zero] at hk
    rw [hk]
    simp
  | false =>
    cases ds with
    | nil => exact absurd rfl hne
    | cons c cs => simp [accumulate, safeStep, hs]

/-- C75.  Everything else is refused: the empty string as an argument error, any other character
where a digit should be as a format error. -/
theorem fromText_refused (t : IntTy) : fromText t [] = .argumentError ∧
    ∀ (c : Char) (cs : List Char), (c = '-' ∨ c = '+' → cs.all isDigit = false) → (c ≠ '-' → c ≠ '+' → (c :: cs).all isDigit = false) →
      fromText t (c :: cs) = .formatError := by
  refine ⟨rfl, fun c cs h1 h2 => ?_⟩
  by_cases hc : c = '-' ∨ c = '+'
  · have := h1 hc
    have hd : (decide (c = '-') || decide (c = '+')) = true := by simpa using hc
    simp only [fromText, hd, this, if_true]
    rfl
  · have h3 := h2 (fun e => hc (Or.inl e)) (fun e => hc (Or.inr e))
    have hd : (decide (c = '-') || decide (c = '+')) = false := by simpa using hc
    simp only [fromText, hd, h3]
    rfl

/-- C75 is violated by a sign alone: it is accepted as 0, also by unsigned types. -/
theorem sign_alone_violated (t : IntTy) : fromText t ['-'] = .ok 0 ∧ fromText t ['+'] = .ok 0 := ⟨rfl, rfl⟩

theorem digitChar_val {d : Nat} (h : d < 10) : isDigit (digitChar d) = true ∧ digitVal (digitChar d) = d := by
  have : d = 0 ∨ d = 1 ∨ d = 2 ∨ d = 3 ∨ d = 4 ∨ d = 5 ∨ d = 6 ∨ d = 7 ∨ d = 8 ∨ d = 9 := by omega
  rcases this with h|h|h|h|h|h|h|h|h|h <;> subst h <;> decide

theorem insertIntegral_spec (room : Nat) : ∀ (v : Nat) (buf : List Char), v < 10 ^ room → 0 < room →
    ∃ ds, insertIntegral room v buf = some (ds ++ buf) ∧ ds ≠ [] ∧ ds.all isDigit = true ∧ decimal ds = v ∧
      (ds.head? = some '0' → v = 0 ∧ ds = ['0']) ∧ (∀ k, v < 10 ^ k → 0 < k → ds.length ≤ k) := by
  induction room with
  | zero => intro v buf h1 h2; omega
  | succ room ih =>
    intro v buf h1 h2
    simp only [insertIntegral]
    by_cases hv : v ≥ 10
    · rw [if_pos hv]
      have hr : 0 < room := by
        rcases Nat.eq_zero_or_pos room with h | h
        · subst h; simp at h1; omega
        · exact h
      obtain ⟨ds, a, b, c, d, e, f⟩ := ih (v / 10) (digitChar (v % 10) :: buf) (by rw [Nat.pow_succ] at h1; omega) hr
      have hd := digitChar_val (d := v % 10) (by omega)
      refine ⟨ds ++ [digitChar (v % 10)], ?_, by simp, ?_, ?_, ?_, ?_⟩
      · rw [a]; simp
      · simp [c, hd.1]
      · simp only [decimal, List.foldl_append, List.foldl_cons, List.foldl_nil]
        simp only [decimal] at d
        rw [d, hd.2]; omega
      · intro hh
        cases ds with
        | nil => exact absurd rfl b
        | cons x xs =>
          have := e (by simpa using hh)
          omega
      · intro k hk hk0
        cases k with
        | zero => omega
        | succ k =>
          have hk1 : 0 < k := by
            rcases Nat.eq_zero_or_pos k with h | h
            · subst h; simp at hk; omega
            · exact h
          have := f k (by rw [Nat.pow_succ] at hk; omega) hk1
          simp; exact this
    · rw [if_neg hv]
      have hd := digitChar_val (d := v) (by omega)
      refine ⟨[digitChar v], rfl, by simp, by simp [hd.1], by simp [decimal, hd.2], ?_, ?_⟩
      · intro hh
        simp only [List.head?_cons, Option.some.injEq] at hh
        have h0 := hd.2
        rw [hh] at h0
        have : digitVal '0' = 0 := by decide
        refine ⟨by omega, by rw [hh]⟩
      · intro k _ hk0
        simp; omega

/-- C75.  The text of a number is an optional `-` and decimal digits that denote its absolute value,
without leading zeros.  (The bound on the range is that of the 32-byte buffer.) -/
theorem toText_spec {t : IntTy} (ht : t.Ok) (hb : t.hi < 10 ^ 31) {v : Int} (h1 : t.lo ≤ v) (h2 : v ≤ t.hi) :
    ∃ ds, toText t v = some (if v < 0 then '-' :: ds else ds) ∧ ds ≠ [] ∧ ds.all isDigit = true ∧
      decimal ds = v.natAbs ∧ (ds.head? = some '0' → ds = ['0']) := by
  have hl := ht.lo
  have hh := ht.hi
  simp only [toText]
  by_cases hv : v < 0
  · simp only [hv, if_true]
    cases hs : t.signed with
    | false => rw [hs] at hl; simp at hl; omega
    | true =>
      rw [hs] at hl
      simp only [if_true] at hl
      have e : ((-(v % (t.hi - t.lo + 1))) % (t.hi - t.lo + 1)).toNat = v.natAbs := by
        have e1 : v % (t.hi - t.lo + 1) = v + (t.hi - t.lo + 1) := by
          rw [← Int.add_emod_right]; exact Int.emod_eq_of_lt (by omega) (by omega)
        rw [e1]
        have e2 : -(v + (t.hi - t.lo + 1)) = -v - (t.hi - t.lo + 1) := by omega
        rw [e2, ← Int.add_emod_right]
        have e3 : -v - (t.hi - t.lo + 1) + (t.hi - t.lo + 1) = -v := by omega
        rw [e3, Int.emod_eq_of_lt (by omega) (by omega)]
        omega
      rw [e]
      obtain ⟨ds, a, b, c, d, e', f⟩ := insertIntegral_spec 32 v.natAbs [] (by
        have : (10 : Int) ^ 31 = ((10 ^ 31 : Nat) : Int) := by simp
        have : (10 : Nat) ^ 32 = 10 * 10 ^ 31 := by rw [Nat.pow_succ]
        omega) (by omega)
      refine ⟨ds, ?_, b, c, d, fun h => (e' h).2⟩
      rw [a]; simp
  · simp only [hv, if_false]
    obtain ⟨ds, a, b, c, d, e', f⟩ := insertIntegral_spec 32 v.toNat [] (by
        have : (10 : Int) ^ 31 = ((10 ^ 31 : Nat) : Int) := by simp
        have : (10 : Nat) ^ 32 = 10 * 10 ^ 31 := by rw [Nat.pow_succ]
        omega) (by omega)
    refine ⟨ds, ?_, b, c, by rw [d]; omega, fun h => (e' h).2⟩
    rw [a]; simp

/-- C75.  Every value of every integer type survives the way through text. -/
theorem fromText_toText {t : IntTy} (ht : t.Ok) (hb : t.hi < 10 ^ 31) {v : Int} (h1 : t.lo ≤ v) (h2 : v ≤ t.hi) :
    ∃ s, toText t v = some s ∧ fromText t s = .ok v := by
  obtain ⟨ds, a, b, c, d, _⟩ := toText_spec ht hb h1 h2
  refine ⟨_, a, ?_⟩
  by_cases hv : v < 0
  · have hl := ht.lo
    cases hs : t.signed with
    | false => rw [hs] at hl; simp at hl; omega
    | true =>
      rw [if_pos hv, fromText_negative ht b c]
      have : decimal ds = -v := by omega
      rw [this, hs, if_pos ⟨rfl, by omega⟩]
      congr 1; omega
  · rw [if_neg hv, (fromText_digits ht b c).1]
    have : decimal ds = v := by omega
    rw [this, if_pos h2]

/-- The types of the library meet the hypotheses. -/
theorem int_types_ok : ∀ t ∈ [s8, u8, s16, u16, s32, u32, s64, u64], t.Ok ∧ t.hi < 10 ^ 31 := by
  intro t ht
  simp only [List.mem_cons, List.not_mem_nil, or_false] at ht
  rcases ht with h|h|h|h|h|h|h|h <;> subst h <;> exact ⟨⟨by decide, by decide⟩, by decide⟩

/-- Their limits are those of 8, 16, 32 and 64 bits. -/
theorem int_type_limits : ∀ p ∈ [(s8, u8, 8), (s16, u16, 16), (s32, u32, 32), (s64, u64, 64)],
    p.1.signed = true ∧ p.1.lo = -2 ^ (p.2.2 - 1) ∧ p.1.hi = 2 ^ (p.2.2 - 1) - 1 ∧ p.2.1.signed = false ∧ p.2.1.lo = 0 ∧ p.2.1.hi = 2 ^ p.2.2 - 1 := by
  decide +kernel

example : toText s64 (-9223372036854775808) = some "-9223372036854775808".toList := by decide +kernel
example : fromText s8 "-128".toList = .ok (-128) ∧ fromText s8 "128".toList = .rangeError ∧
    fromText u8 "-0".toList = .rangeError ∧ fromText s32 "1x".toList = .formatError := by decide +kernel

end Verif.Str

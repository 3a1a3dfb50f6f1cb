import Verif.Num.DecimalProps
/-
Decimal numbers as text.
-/
namespace Verif.Num
open Verif.Str

theorem decimal_append (a b : List Char) : decimal (a ++ b) = decimal a * 10 ^ b.length + decimal b := by
  have h := fold_shift b 0 (decimal a)
  rw [Int.zero_add] at h
  unfold decimal at h ⊢
  rw [List.foldl_append, h, Int.add_comm]

theorem decimal_nonneg {ds : List Char} (h : ds.all isDigit = true) : 0 ≤ decimal ds := fold_ge ds h 0 (by omega)

theorem decimal_zeros (k : Nat) : decimal (List.replicate k '0') = 0 := by
  induction k with
  | zero => rfl
  | succ k ih =>
    rw [List.replicate_succ', decimal_append, ih]
    rfl

theorem decimal_lt {ds : List Char} (h : ds.all isDigit = true) : decimal ds < 10 ^ ds.length := by
  induction ds with
  | nil => decide
  | cons c cs ih =>
    simp only [List.all_cons, Bool.and_eq_true] at h
    have hr := digitVal_range h.1
    have hi := ih h.2
    have e : decimal (c :: cs) = digitVal c * 10 ^ cs.length + decimal cs := by
      have := decimal_append [c] cs
      rw [List.singleton_append] at this
      rw [this]
      have : decimal [c] = digitVal c := by simp [decimal]
      rw [this]
    rw [e, List.length_cons, Int.pow_succ]
    have hp := pow10_pos cs.length
    have : digitVal c * 10 ^ cs.length ≤ 9 * 10 ^ cs.length := Int.mul_le_mul_of_nonneg_right hr.2 (by omega)
    omega

theorem crop_zeros (s : List Char) : ∃ k, s = cropZeros s ++ List.replicate k '0' := by
  unfold cropZeros
  have h := List.takeWhile_append_dropWhile (p := fun c => decide (c = '0')) (l := s.reverse)
  refine ⟨(s.reverse.takeWhile (fun c => decide (c = '0'))).length, ?_⟩
  have ht : s.reverse.takeWhile (fun c => decide (c = '0')) = List.replicate (s.reverse.takeWhile (fun c => decide (c = '0'))).length '0' := by
    apply List.eq_replicate_iff.mpr
    refine ⟨rfl, fun b hb => ?_⟩
    have := List.all_eq_true.mp (List.all_takeWhile (l := s.reverse) (p := fun c => decide (c = '0'))) b hb
    exact of_decide_eq_true this
  have h2 := congrArg List.reverse h
  rw [List.reverse_append, List.reverse_reverse, ht, List.reverse_replicate] at h2
  exact h2.symm

theorem crop_last (s : List Char) : (cropZeros s).getLast? ≠ some '0' := by
  unfold cropZeros
  rw [List.getLast?_reverse]
  intro h
  have := List.head?_dropWhile_not (fun c => decide (c = '0')) s.reverse
  rw [h] at this
  simp at this

theorem crop_digits {s : List Char} (h : s.all isDigit = true) : (cropZeros s).all isDigit = true := by
  obtain ⟨k, hk⟩ := crop_zeros s
  rw [hk, List.all_append, Bool.and_eq_true] at h
  exact h.1

/-- The text of a sign and at least as many digits as there are decimal places. -/
theorem layout_reads {sign ds : List Char} {e : Nat} (hs : sign = [] ∨ sign = ['-']) (h : ds.all isDigit = true) (he : e ≤ ds.length) :
    ∃ d', Spec.Reads (layout (sign ++ ds) e) d' ∧ Spec.Same d' ⟨(if sign = ['-'] then -1 else 1) * decimal ds, e⟩ := by
  have htake : (sign ++ ds).take ((sign ++ ds).length - e) = sign ++ ds.take (ds.length - e) := by
    rw [List.take_append, List.length_append, List.take_of_length_le (by omega)]
    congr 2; omega
  have hdrop : (sign ++ ds).drop ((sign ++ ds).length - e) = ds.drop (ds.length - e) := by
    rw [List.drop_append, List.length_append, List.drop_of_length_le (by omega), List.nil_append]
    congr 1; omega
  have hds : ds.take (ds.length - e) ++ ds.drop (ds.length - e) = ds := List.take_append_drop ..
  have hfl : (ds.drop (ds.length - e)).length = e := by rw [List.length_drop]; omega
  have hall := h
  rw [← hds, List.all_append, Bool.and_eq_true] at hall
  obtain ⟨hI, hF⟩ := hall
  obtain ⟨k, hk⟩ := crop_zeros (ds.drop (ds.length - e))
  have hC := crop_digits hF
  revert htake hdrop hds hfl hI hF hk hC
  generalize ds.take (ds.length - e) = I
  generalize ds.drop (ds.length - e) = F
  intro htake hdrop hds hfl hI hF hk hC
  -- the digits before the point
  have hint : ∃ J : List Char, integralOf (sign ++ I) = sign ++ J ∧ J ≠ [] ∧ J.all isDigit = true ∧ decimal J = decimal I := by
    by_cases hn : I = []
    · subst hn
      refine ⟨['0'], ?_, by simp, by decide, by decide⟩
      unfold integralOf
      rcases hs with hs | hs <;> subst hs <;> rfl
    · refine ⟨I, ?_, hn, hI, rfl⟩
      refine if_neg ?_
      rintro (hc | hc)
      · exact hn (List.append_eq_nil_iff.mp hc).2
      · rcases hs with hs | hs
        · subst hs
          rw [List.nil_append] at hc
          rw [hc] at hI
          exact absurd hI (by decide)
        · subst hs
          exact hn (List.append_right_eq_self.mp hc)
  obtain ⟨J, hJ, hJn, hJd, hJv⟩ := hint
  refine ⟨⟨(if sign = ['-'] then -1 else 1) * decimal (J ++ cropZeros F), (cropZeros F).length⟩, ⟨sign, J, cropZeros F, ?_, hJd, hC, ?_, ?_, rfl, rfl⟩, ?_⟩
  · rcases hs with hs | hs
    · exact Or.inl hs
    · exact Or.inr (Or.inl hs)
  · intro hc
    exact hJn (List.append_eq_nil_iff.mp hc).1
  · unfold layout
    rw [htake, hdrop, hJ]
    by_cases hc : cropZeros F = []
    · left
      rw [hc]
      exact ⟨rfl, rfl⟩
    · right
      refine if_neg ?_
      rw [List.isEmpty_iff]
      exact hc
  · unfold Spec.Same
    simp only []
    have e1 : decimal ds = decimal (J ++ cropZeros F) * 10 ^ k := by
      have hk2 := congrArg (fun x => decimal (I ++ x)) hk
      rw [← hds, hk2, ← List.append_assoc, decimal_append (I ++ cropZeros F), decimal_zeros, List.length_replicate, decimal_append I, decimal_append J, hJv]
      omega
    have e2 : e = (cropZeros F).length + k := by
      have := congrArg List.length hk
      rw [List.length_append, List.length_replicate] at this
      omega
    rw [e1, e2, Int.pow_add]
    simp only [Int.mul_assoc, Int.mul_comm, Int.mul_left_comm]

theorem s64_ok : s64.Ok ∧ s64.hi < 10 ^ 31 := int_types_ok s64 (by simp)

/-- The text of a number, which is not negative or has enough digits, denotes the number. -/
theorem to_text_partial {d : Decimal} (hm : inS64 d.mantissa = true) (h : 0 ≤ d.mantissa ∨ d.exponent = 0 ∨ 10 ^ (d.exponent - 1) ≤ -d.mantissa) :
    ∃ cs, d.toText = some cs ∧ ∃ d', Spec.Reads cs d' ∧ Spec.Same d' d := by
  obtain ⟨m, e⟩ := d
  simp only [inS64, Bool.and_eq_true, decide_eq_true_eq] at hm h
  obtain ⟨ds, h1, h2, h3, h4, -⟩ := toText_spec s64_ok.1 s64_ok.2 (v := m) hm.1 hm.2
  by_cases hn : m < 0
  · rw [if_pos hn] at h1
    have hl : e ≤ ds.length := by
      rcases h with h | h | h
      · omega
      · omega
      · have := decimal_lt h3
        rw [h4] at this
        have h5 : (10 : Int) ^ (e - 1) < 10 ^ ds.length := by omega
        have h6 : (10 : Nat) ^ (e - 1) < 10 ^ ds.length := by
          have : ((10 ^ (e - 1) : Nat) : Int) < ((10 ^ ds.length : Nat) : Int) := by
            rw [Int.natCast_pow, Int.natCast_pow]; exact h5
          omega
        have := (Nat.pow_lt_pow_iff_right (by decide : 1 < 10)).mp h6
        omega
    refine ⟨layout ('-' :: ds) e, ?_, ?_⟩
    · unfold Decimal.toText
      simp only []
      rw [h1]
      simp only [Option.map_some, Option.some.injEq]
      unfold padZeros
      rw [if_neg (by rw [List.length_cons]; omega)]
    · obtain ⟨d', h6, h7⟩ := layout_reads (sign := ['-']) (Or.inr rfl) h3 hl
      refine ⟨d', h6, ?_⟩
      have : (if ['-'] = ['-'] then -1 else 1) * decimal ds = m := by
        rw [if_pos rfl, h4]; omega
      rw [this] at h7
      exact h7
  · rw [if_neg hn] at h1
    have hp : (padZeros ds e).all isDigit = true ∧ e ≤ (padZeros ds e).length ∧ decimal (padZeros ds e) = decimal ds := by
      unfold padZeros
      by_cases hl : ds.length < e
      · rw [if_pos hl]
        refine ⟨?_, ?_, ?_⟩
        · rw [List.all_append, Bool.and_eq_true]
          refine ⟨?_, h3⟩
          rw [List.all_eq_true]
          intro x hx
          rw [(List.mem_replicate.mp hx).2]
          decide
        · rw [List.length_append, List.length_replicate]; omega
        · rw [decimal_append, decimal_zeros]; omega
      · rw [if_neg hl]
        exact ⟨h3, by omega, rfl⟩
    refine ⟨layout (padZeros ds e) e, ?_, ?_⟩
    · unfold Decimal.toText
      simp only []
      rw [h1]; rfl
    · obtain ⟨d', h6, h7⟩ := layout_reads (sign := []) (Or.inl rfl) hp.1 hp.2.1
      refine ⟨d', h6, ?_⟩
      have : (if ([] : List Char) = ['-'] then -1 else 1) * decimal (padZeros ds e) = m := by
        rw [if_neg (by simp), hp.2.2, h4]; omega
      rw [this] at h7
      exact h7

/-- The text never ends with a zero or a point after a point. -/
theorem to_text_short {d : Decimal} {a b : List Char} (h : d.toText = some (a ++ '.' :: b)) (ha : '.' ∉ a) (hm : inS64 d.mantissa = true) : b ≠ [] ∧ b.getLast? ≠ some '0' := by
  obtain ⟨m, e⟩ := d
  simp only [inS64, Bool.and_eq_true, decide_eq_true_eq] at hm
  obtain ⟨ds, h1, h2, h3, h4, -⟩ := toText_spec s64_ok.1 s64_ok.2 (v := m) hm.1 hm.2
  unfold Decimal.toText at h
  simp only [] at h
  rw [h1] at h
  simp only [Option.map_some, Option.some.injEq] at h
  have hnp : '.' ∉ padZeros (if m < 0 then '-' :: ds else ds) e := by
    have hd : '.' ∉ (if m < 0 then '-' :: ds else ds) := by
      have : '.' ∉ ds := by
        intro hc
        have := List.all_eq_true.mp h3 _ hc
        exact absurd this (by decide)
      by_cases hn : m < 0
      · rw [if_pos hn]
        intro hc
        rcases List.mem_cons.mp hc with hc | hc
        · exact absurd hc (by decide)
        · exact this hc
      · rw [if_neg hn]; exact this
    revert hd
    generalize (if m < 0 then '-' :: ds else ds) = v
    intro hd
    unfold padZeros
    split
    · intro hc
      rcases List.mem_append.mp hc with hc | hc
      · exact absurd (List.mem_replicate.mp hc).2 (by decide)
      · exact hd hc
    · exact hd
  revert h hnp
  generalize padZeros (if m < 0 then '-' :: ds else ds) e = v
  intro h hnp
  have hi : ∀ s : List Char, '.' ∉ s → '.' ∉ integralOf s := by
    intro s hs
    unfold integralOf
    split
    · intro hc
      rcases List.mem_append.mp hc with hc | hc
      · exact hs hc
      · exact absurd (List.mem_singleton.mp hc) (by decide)
    · exact hs
  have hti : '.' ∉ integralOf (v.take (v.length - e)) := hi _ (fun hc => hnp (List.mem_of_mem_take hc))
  unfold layout at h
  by_cases hc : (cropZeros (v.drop (v.length - e))).isEmpty = true
  · rw [if_pos hc] at h
    rw [h] at hti
    exact absurd (List.mem_append.mpr (Or.inr List.mem_cons_self)) hti
  · rw [if_neg hc] at h
    have hb : b = cropZeros (v.drop (v.length - e)) := by
      rcases List.append_eq_append_iff.mp h with ⟨x, h5, h6⟩ | ⟨x, h5, h6⟩
      · cases x with
        | nil => rw [List.nil_append] at h6; exact (List.cons.inj h6).2.symm
        | cons y ys =>
          rw [List.cons_append] at h6
          have := (List.cons.inj h6).1
          exact absurd (h5 ▸ List.mem_append.mpr (Or.inr (this ▸ List.mem_cons_self))) ha
      · cases x with
        | nil => rw [List.nil_append] at h6; exact (List.cons.inj h6).2
        | cons y ys =>
          rw [List.cons_append] at h6
          have := (List.cons.inj h6).1
          exact absurd (h5 ▸ List.mem_append.mpr (Or.inr (this ▸ List.mem_cons_self))) hti
    subst hb
    exact ⟨fun hb => hc (by rw [hb]; rfl), crop_last _⟩

theorem takeWhile_point {a b : List Char} (ha : '.' ∉ a) :
    (a ++ '.' :: b).takeWhile (fun c => decide (c ≠ '.')) = a ∧ ((a ++ '.' :: b).dropWhile (fun c => decide (c ≠ '.'))).drop 1 = b := by
  induction a with
  | nil => exact ⟨rfl, rfl⟩
  | cons x xs ih =>
    have hx : decide (x ≠ '.') = true := by
      rw [decide_eq_true_eq]; intro hc; exact ha (hc ▸ List.mem_cons_self)
    obtain ⟨i1, i2⟩ := ih (fun hc => ha (List.mem_cons_of_mem _ hc))
    rw [List.cons_append, List.takeWhile_cons, List.dropWhile_cons, hx]
    simp only [if_true]
    exact ⟨by rw [i1], i2⟩

theorem signed_no_point {sign ds : List Char} (hs : sign = [] ∨ sign = ['-'] ∨ sign = ['+']) (h : ds.all isDigit = true) : '.' ∉ sign ++ ds := by
  intro hc
  rcases List.mem_append.mp hc with hc | hc
  · rcases hs with hs | hs | hs <;> subst hs <;> simp at hc
  · exact absurd (List.all_eq_true.mp h _ hc) (by decide)

/-- The digits before the point. -/
theorem partOf_signed {sign ds : List Char} (hs : sign = [] ∨ sign = ['-'] ∨ sign = ['+']) (h : ds.all isDigit = true) (hb : decimal ds ≤ 2 ^ 53) :
    partOf (sign ++ ds) = .ok ((if sign = ['-'] then -1 else 1) * decimal ds) := by
  have h0 := decimal_nonneg h
  unfold partOf
  by_cases hn : ds = []
  · subst hn
    rcases hs with hs | hs | hs <;> subst hs <;> rfl
  · obtain ⟨f1, f2⟩ := fromText_digits s64_ok.1 hn h
    have f3 := fromText_negative s64_ok.1 hn h
    rw [if_pos (by show decimal ds ≤ 9223372036854775807; omega)] at f1 f2
    rw [if_pos (⟨rfl, by show -9223372036854775808 ≤ -decimal ds; omega⟩)] at f3
    rw [if_neg (by simp [hn])]
    rcases hs with hs | hs | hs <;> subst hs
    · rw [List.nil_append, f1, if_neg (by simp), Int.one_mul]
    · rw [List.singleton_append, f3, if_pos rfl]
      congr 1; omega
    · rw [List.singleton_append, f2, if_neg (by decide), Int.one_mul]

theorem assemble_ok {raw : List Char} {i f m g t : Int} {e : Nat} (h1 : scale i e = some m) (h2 : (if i ≥ 0 then f else -f) = g)
    (h3 : (if raw.head? = some '-' ∧ i = 0 then (-1 : Int) else 1) = t) (h4 : inS64 (m + g) = true) : assemble raw i f e = .ok ⟨(m + g) * t, e⟩ := by
  unfold assemble
  rw [h1]
  simp only []
  rw [h2, h3, if_pos h4]

/-- Text in the usual notation is read as the number it denotes. -/
theorem from_text_partial {cs : List Char} {d : Decimal} (h : Spec.Reads cs d) (hm : d.mantissa.natAbs ≤ 2 ^ 53) (he : d.exponent ≤ 308) :
    ∃ d', Decimal.fromText cs = .ok d' ∧ Spec.Same d' d := by
  obtain ⟨m, e⟩ := d
  obtain ⟨sign, ds, fs, hs, hd, hf, hne, hcs, h1, h2⟩ := h
  simp only [] at h1 h2 hm he
  have hd0 := decimal_nonneg hd
  have hf0 := decimal_nonneg hf
  have hall : (ds ++ fs).all isDigit = true := by rw [List.all_append, hd, hf]; rfl
  have hall0 := decimal_nonneg hall
  have hv : decimal (ds ++ fs) ≤ 2 ^ 53 := by
    rw [h2] at hm
    split at hm <;> omega
  rcases hcs with ⟨hcs, hfs⟩ | hcs
  · subst hfs
    rw [List.append_nil] at hne h2 hv
    have hnp := signed_no_point hs hd
    have hp := partOf_signed hs hd hv
    unfold partOf at hp
    have hne2 : (sign ++ ds).isEmpty = false := by simp [hne]
    rw [hne2] at hp
    refine ⟨⟨m, e⟩, ?_, rfl⟩
    unfold Decimal.fromText
    rw [hcs, hne2]
    rw [if_neg (by decide), if_neg (by simp only [List.contains_iff_mem]; exact hnp)]
    rw [if_neg (by decide)] at hp
    rw [hp, h1, h2]
    rfl
  · have hnp := signed_no_point hs hd
    obtain ⟨t1, t2⟩ := takeWhile_point (b := fs) hnp
    obtain ⟨k, hk⟩ := crop_zeros fs
    have hC := crop_digits hf
    revert hk hC
    have hcrop : cropZeros fs = cropZeros fs := rfl
    revert hcrop
    generalize hCe : cropZeros fs = C
    intro _ hk hC
    have hC0 := decimal_nonneg hC
    have hval : decimal (ds ++ fs) = decimal (ds ++ C) * 10 ^ k := by
      rw [hk, ← List.append_assoc, decimal_append (ds ++ C), decimal_zeros, List.length_replicate]; omega
    have hle : decimal (ds ++ C) ≤ 2 ^ 53 := by
      have hx : 0 ≤ decimal (ds ++ C) := decimal_nonneg (by rw [List.all_append, hd, hC]; rfl)
      have : decimal (ds ++ C) * 1 ≤ decimal (ds ++ C) * 10 ^ k := Int.mul_le_mul_of_nonneg_left (by have := pow10_pos k; omega) hx
      omega
    have hsplit := decimal_append ds C
    have hmul : 0 ≤ decimal ds * 10 ^ C.length := Int.mul_nonneg hd0 (by have := pow10_pos C.length; omega)
    have hdle : decimal ds ≤ 2 ^ 53 := by
      have : decimal ds * 1 ≤ decimal ds * 10 ^ C.length := Int.mul_le_mul_of_nonneg_left (by have := pow10_pos C.length; omega) hd0
      omega
    have hlen : fs.length = C.length + k := by
      have := congrArg List.length hk
      rwa [List.length_append, List.length_replicate] at this
    have p1 := partOf_signed hs hd hdle
    have p2 := partOf_signed (sign := []) (Or.inl rfl) hC (by omega)
    rw [List.nil_append, if_neg (by simp), Int.one_mul] at p2
    have hsc : scale ((if sign = ['-'] then -1 else 1) * decimal ds) C.length = some ((if sign = ['-'] then -1 else 1) * decimal ds * 10 ^ C.length) := by
      apply scale_exact (by omega)
      rw [Int.mul_assoc]
      split <;> omega
    have hres : assemble (sign ++ ds) ((if sign = ['-'] then -1 else 1) * decimal ds) (decimal C) C.length = .ok ⟨(if sign = ['-'] then -1 else 1) * decimal (ds ++ C), C.length⟩ := by
      by_cases hneg : sign = ['-']
      · subst hneg
        simp only [if_true] at hsc ⊢
        by_cases hz : decimal ds = 0
        · rw [hz] at hsplit hsc ⊢
          rw [assemble_ok hsc (g := decimal C) (t := -1) (if_pos (by decide)) (if_pos (by simp)) (by apply inS64_small; simp only [Int.mul_zero, Int.zero_mul, Int.zero_add]; omega)]
          congr 2
          omega
        · rw [assemble_ok hsc (g := -decimal C) (t := 1) (if_neg (by omega)) (if_neg (by intro hc; omega)) (by apply inS64_small; rw [Int.mul_assoc]; omega)]
          congr 2
          rw [Int.mul_assoc]; omega
      · simp only [if_neg hneg] at hsc ⊢
        have hh : (if (sign ++ ds).head? = some '-' ∧ 1 * decimal ds = 0 then (-1 : Int) else 1) = 1 := by
          refine if_neg ?_
          rintro ⟨hc, -⟩
          rcases hs with hs | hs | hs
          · subst hs
            rw [List.nil_append] at hc
            have := List.mem_of_mem_head? hc
            exact absurd (List.all_eq_true.mp hd _ this) (by decide)
          · exact hneg hs
          · subst hs
            simp at hc
        rw [assemble_ok hsc (g := decimal C) (t := 1) (if_pos (by omega)) hh (by apply inS64_small; rw [Int.mul_assoc]; omega)]
        congr 2
        rw [Int.mul_assoc]; omega
    refine ⟨⟨(if sign = ['-'] then -1 else 1) * decimal (ds ++ C), C.length⟩, ?_, ?_⟩
    · unfold Decimal.fromText
      rw [hcs, t1, t2, hCe, p1, p2]
      simp only []
      rw [Nat.mod_eq_of_lt (by omega), hres]
      rw [if_neg (by simp), if_pos (by simp), if_neg]
      rintro ⟨hx, hy⟩
      rw [List.isEmpty_iff] at hx hy
      obtain ⟨-, hx⟩ := List.append_eq_nil_iff.mp hx
      exact hne (by rw [hx, hy]; rfl)
    · unfold Spec.Same
      simp only []
      rw [h1, h2, hval, hlen, Int.pow_add]
      simp only [Int.mul_assoc, Int.mul_comm, Int.mul_left_comm]

theorem fromText_chars {t : IntTy} {s : List Char} {v : Int} (h : Str.fromText t s = .ok v) : ∀ c ∈ s, isDigit c = true ∨ c = '-' ∨ c = '+' := by
  cases s with
  | nil => intro c hc; exact absurd hc (by simp)
  | cons c cs =>
    by_cases hs : c = '-' ∨ c = '+'
    · cases hd : cs.all isDigit with
      | false =>
        rw [(fromText_refused t).2 c cs (fun _ => hd) (fun h1 h2 => (hs.elim h1 h2).elim)] at h
        exact absurd h (by simp)
      | true =>
        intro x hx
        rcases List.mem_cons.mp hx with hx | hx
        · subst hx; exact Or.inr hs
        · exact Or.inl (List.all_eq_true.mp hd x hx)
    · cases hd : (c :: cs).all isDigit with
      | false =>
        rw [(fromText_refused t).2 c cs (fun h1 => absurd h1 hs) (fun _ _ => hd)] at h
        exact absurd h (by simp)
      | true =>
        intro x hx
        exact Or.inl (List.all_eq_true.mp hd x hx)

theorem partOf_chars {s : List Char} {v : Int} (h : partOf s = .ok v) : ∀ c ∈ s, isDigit c = true ∨ c = '-' ∨ c = '+' := by
  unfold partOf at h
  by_cases hs : s.isEmpty = true
  · rw [List.isEmpty_iff] at hs
    subst hs
    intro c hc; exact absurd hc (by simp)
  · rw [if_neg hs] at h
    exact fromText_chars h

/-- Text is only accepted if it consists of digits, signs and at most one point. -/
theorem from_text_shape {cs : List Char} {d : Decimal} (h : Decimal.fromText cs = .ok d) :
    (∀ c ∈ cs, isDigit c = true ∨ c = '-' ∨ c = '+' ∨ c = '.') ∧ cs.count '.' ≤ 1 ∧ ∃ c ∈ cs, c ≠ '.' := by
  have hnd : ∀ s : List Char, (∀ c ∈ s, isDigit c = true ∨ c = '-' ∨ c = '+') → s.count '.' = 0 := by
    intro s hs
    rw [List.count_eq_zero]
    intro hc
    rcases hs _ hc with h | h | h
    · exact absurd h (by decide)
    · exact absurd h (by decide)
    · exact absurd h (by decide)
  unfold Decimal.fromText at h
  by_cases he : cs.isEmpty = true
  · rw [if_pos he] at h
    exact absurd h (by simp)
  rw [if_neg he] at h
  by_cases hc : cs.contains '.' = true
  · rw [if_pos hc] at h
    rw [List.contains_iff_mem] at hc
    obtain ⟨a, b, hab⟩ := List.append_of_mem hc
    have hspl : ∃ a b : List Char, cs = a ++ '.' :: b ∧ '.' ∉ a := by
      clear h he hab a b
      induction cs with
      | nil => exact absurd hc (by simp)
      | cons x xs ih =>
        by_cases hx : x = '.'
        · exact ⟨[], xs, by rw [hx]; rfl, by simp⟩
        · obtain ⟨a, b, h1, h2⟩ := ih ((List.mem_cons.mp hc).resolve_left (fun e => hx e.symm))
          refine ⟨x :: a, b, by rw [h1]; rfl, ?_⟩
          intro hc
          rcases List.mem_cons.mp hc with hc | hc
          · exact hx hc.symm
          · exact h2 hc
    clear hab a b
    obtain ⟨a, b, hab, ha⟩ := hspl
    obtain ⟨t1, t2⟩ := takeWhile_point (b := b) ha
    rw [hab, t1, t2] at h
    by_cases hb : a.isEmpty = true ∧ b.isEmpty = true
    · rw [if_pos hb] at h; exact absurd h (by simp)
    rw [if_neg hb] at h
    cases h1 : partOf a with
    | ok i =>
      rw [h1] at h
      simp only [] at h
      cases h2 : partOf (cropZeros b) with
      | ok f =>
        have c1 := partOf_chars h1
        have c2 := partOf_chars h2
        obtain ⟨k, hk⟩ := crop_zeros b
        have c3 : ∀ c ∈ b, isDigit c = true ∨ c = '-' ∨ c = '+' := by
          intro c hc
          rw [hk] at hc
          rcases List.mem_append.mp hc with hc | hc
          · exact c2 c hc
          · rw [(List.mem_replicate.mp hc).2]; exact Or.inl (by decide)
        refine ⟨?_, ?_, ?_⟩
        · rw [hab]
          intro c hc
          rcases List.mem_append.mp hc with hc | hc
          · rcases c1 c hc with x | x | x
            · exact Or.inl x
            · exact Or.inr (Or.inl x)
            · exact Or.inr (Or.inr (Or.inl x))
          · rcases List.mem_cons.mp hc with hc | hc
            · exact Or.inr (Or.inr (Or.inr hc))
            · rcases c3 c hc with x | x | x
              · exact Or.inl x
              · exact Or.inr (Or.inl x)
              · exact Or.inr (Or.inr (Or.inl x))
        · rw [hab, List.count_append, List.count_cons, hnd a c1, hnd b c3]
          simp
        · by_cases hae : a = []
          · have hbe : b ≠ [] := fun e => hb ⟨by rw [hae]; rfl, by rw [e]; rfl⟩
            obtain ⟨c, hcb⟩ := List.exists_mem_of_ne_nil b hbe
            refine ⟨c, by rw [hab]; simp [hcb], ?_⟩
            rcases c3 c hcb with x | x | x
            · intro e; rw [e] at x; exact absurd x (by decide)
            · rw [x]; decide
            · rw [x]; decide
          · obtain ⟨c, hca⟩ := List.exists_mem_of_ne_nil a hae
            exact ⟨c, by rw [hab]; simp [hca], fun e => ha (e ▸ hca)⟩
      | argumentError => rw [h2] at h; exact absurd h (by simp)
      | formatError => rw [h2] at h; exact absurd h (by simp)
      | rangeError => rw [h2] at h; exact absurd h (by simp)
    | argumentError => rw [h1] at h; exact absurd h (by simp)
    | formatError => rw [h1] at h; exact absurd h (by simp)
    | rangeError => rw [h1] at h; exact absurd h (by simp)
  · rw [if_neg hc] at h
    cases h1 : Str.fromText s64 cs with
    | ok v =>
      have c1 := fromText_chars h1
      refine ⟨?_, by rw [hnd cs c1]; omega, ?_⟩
      · intro c hc
        rcases c1 c hc with x | x | x
        · exact Or.inl x
        · exact Or.inr (Or.inl x)
        · exact Or.inr (Or.inr (Or.inl x))
      · obtain ⟨c, hcc⟩ := List.exists_mem_of_ne_nil cs (by intro e; rw [e] at he; exact he rfl)
        exact ⟨c, hcc, fun e => hc (by rw [List.contains_iff_mem]; exact e ▸ hcc)⟩
    | argumentError => rw [h1] at h; exact absurd h (by simp)
    | formatError => rw [h1] at h; exact absurd h (by simp)
    | rangeError => rw [h1] at h; exact absurd h (by simp)

/-- What is printed is read back as the same number. -/
theorem text_round_trip_partial {d : Decimal} (hm : d.mantissa.natAbs ≤ 2 ^ 53) (he : d.exponent ≤ 308)
    (h : 0 ≤ d.mantissa ∨ d.exponent = 0 ∨ 10 ^ (d.exponent - 1) ≤ -d.mantissa) :
    ∃ cs d', d.toText = some cs ∧ Decimal.fromText cs = .ok d' ∧ Spec.Same d' d := by
  obtain ⟨cs, h1, d1, h2, h3⟩ := to_text_partial (inS64_small hm) h
  obtain ⟨m, e⟩ := d
  obtain ⟨sign, ds, fs, hs, hd, hf, hne, hcs, h4, h5⟩ := h2
  -- the printed number has no more digits than the mantissa
  have key : d1.mantissa.natAbs ≤ 2 ^ 53 ∧ d1.exponent ≤ 308 := by
    have hshort : d1.exponent ≤ e := by
      have hl : ∀ (v : List Char), (cropZeros (v.drop (v.length - e))).length ≤ e := by
        intro v
        obtain ⟨k, hk⟩ := crop_zeros (v.drop (v.length - e))
        have := congrArg List.length hk
        rw [List.length_append, List.length_replicate, List.length_drop] at this
        omega
      by_cases h0 : fs = []
      · rw [h4, h0]; exact Nat.zero_le _
      · have hcs2 : cs = (sign ++ ds) ++ '.' :: fs := by
          rcases hcs with ⟨-, hc⟩ | hc
          · exact absurd hc h0
          · exact hc
        obtain ⟨xs, x1, -, x3, -, -⟩ := toText_spec s64_ok.1 s64_ok.2 (v := m) (by show -9223372036854775808 ≤ m; simp only [] at hm; omega) (by show m ≤ 9223372036854775807; simp only [] at hm; omega)
        unfold Decimal.toText at h1
        simp only [] at h1
        rw [x1] at h1
        simp only [Option.map_some, Option.some.injEq] at h1
        have hnp : '.' ∉ padZeros (if m < 0 then '-' :: xs else xs) e := by
          have hx : '.' ∉ (if m < 0 then '-' :: xs else xs) := by
            have : '.' ∉ xs := fun hc => absurd (List.all_eq_true.mp x3 _ hc) (by decide)
            by_cases hn : m < 0
            · rw [if_pos hn]
              intro hc
              rcases List.mem_cons.mp hc with hc | hc
              · exact absurd hc (by decide)
              · exact this hc
            · rw [if_neg hn]; exact this
          revert hx
          generalize (if m < 0 then '-' :: xs else xs) = v
          intro hx
          unfold padZeros
          split
          · intro hc
            rcases List.mem_append.mp hc with hc | hc
            · exact absurd (List.mem_replicate.mp hc).2 (by decide)
            · exact hx hc
          · exact hx
        revert h1 hnp
        generalize padZeros (if m < 0 then '-' :: xs else xs) e = v
        intro h1 hnp
        have hti : '.' ∉ integralOf (v.take (v.length - e)) := by
          have h7 : '.' ∉ v.take (v.length - e) := fun hc => hnp (List.mem_of_mem_take hc)
          unfold integralOf
          split
          · intro hc
            rcases List.mem_append.mp hc with hc | hc
            · exact h7 hc
            · exact absurd (List.mem_singleton.mp hc) (by decide)
          · exact h7
        unfold layout at h1
        rw [hcs2] at h1
        by_cases hc : (cropZeros (v.drop (v.length - e))).isEmpty = true
        · rw [if_pos hc] at h1
          rw [h1] at hti
          exact absurd (List.mem_append.mpr (Or.inr List.mem_cons_self)) hti
        · rw [if_neg hc] at h1
          have t1 := (takeWhile_point (b := fs) (signed_no_point hs hd)).2
          rw [← h1, (takeWhile_point hti).2] at t1
          rw [h4, ← t1]
          exact hl v
    simp only [] at hm he
    refine ⟨?_, by omega⟩
    unfold Spec.Same at h3
    simp only [] at h3
    have h6 := congrArg Int.natAbs h3
    rw [Int.natAbs_mul, Int.natAbs_mul, Int.natAbs_pow, Int.natAbs_pow] at h6
    have h7 : (10 : Nat) ^ d1.exponent ≤ 10 ^ e := Nat.pow_le_pow_right (by decide) hshort
    have h8 : d1.mantissa.natAbs * 10 ^ e ≤ m.natAbs * 10 ^ e := by
      show d1.mantissa.natAbs * (10 : Int).natAbs ^ e ≤ m.natAbs * (10 : Int).natAbs ^ e
      rw [h6]
      exact Nat.mul_le_mul_left _ h7
    exact Nat.le_trans (Nat.le_of_mul_le_mul_right h8 (Nat.pow_pos (by decide))) hm
  obtain ⟨d', h6, h7⟩ := from_text_partial ⟨sign, ds, fs, hs, hd, hf, hne, hcs, h4, h5⟩ key.1 key.2
  refine ⟨cs, d', h1, h6, ?_⟩
  unfold Spec.Same at *
  simp only [] at *
  have hp := pow10_pos d1.exponent
  have e1 : d'.mantissa * 10 ^ e * 10 ^ d1.exponent = m * 10 ^ d'.exponent * 10 ^ d1.exponent := by
    calc d'.mantissa * 10 ^ e * 10 ^ d1.exponent = d'.mantissa * 10 ^ d1.exponent * 10 ^ e := by simp only [Int.mul_assoc, Int.mul_comm, Int.mul_left_comm]
      _ = d1.mantissa * 10 ^ e * 10 ^ d'.exponent := by rw [h7]; simp only [Int.mul_assoc, Int.mul_comm, Int.mul_left_comm]
      _ = _ := by rw [h3]; simp only [Int.mul_assoc, Int.mul_comm, Int.mul_left_comm]
  exact (Int.mul_eq_mul_right_iff (by omega)).mp e1

/-- Every negative number with fewer digits than decimal places minus one prints its sign after the point: the text is no number in the usual notation. -/
theorem negative_fraction_violated {d : Decimal} (hm : inS64 d.mantissa = true) (hn : d.mantissa < 0) (h : -d.mantissa < 10 ^ (d.exponent - 1)) :
    ∃ fs, d.toText = some ('0' :: '.' :: fs) ∧ '-' ∈ fs ∧ ¬ ∃ d', Spec.Reads ('0' :: '.' :: fs) d' := by
  obtain ⟨m, e⟩ := d
  simp only [inS64, Bool.and_eq_true, decide_eq_true_eq] at hm hn h
  obtain ⟨ds, h1, h2, h3, h4, h5⟩ := toText_spec s64_ok.1 s64_ok.2 (v := m) hm.1 hm.2
  rw [if_pos hn] at h1
  have hl : ds.length ≤ e - 1 := by
    -- no leading zero, so the value is at least ten to the number of digits minus one
    cases ds with
    | nil => exact absurd rfl h2
    | cons c cs =>
      simp only [List.all_cons, Bool.and_eq_true] at h3
      have hc := digitVal_range h3.1
      have hc0 : c ≠ '0' := by
        intro hc
        have := h5 (by rw [hc]; rfl)
        rw [this] at h4
        have : decimal ['0'] = 0 := by decide
        omega
      have hc1 : 1 ≤ digitVal c := by
        have hne : digitVal c ≠ 0 := by
          intro hz
          apply hc0
          unfold digitVal at hz
          have h48 : c.toNat = 48 := by omega
          rw [← Char.ofNat_toNat c, h48]
        omega
      have hv : decimal (c :: cs) = digitVal c * 10 ^ cs.length + decimal cs := by
        have := decimal_append [c] cs
        rw [List.singleton_append] at this
        rw [this]
        have : decimal [c] = digitVal c := by simp [decimal]
        rw [this]
      have h0 := decimal_nonneg h3.2
      have hp := pow10_pos cs.length
      have : 1 * 10 ^ cs.length ≤ digitVal c * 10 ^ cs.length := Int.mul_le_mul_of_nonneg_right hc1 (by omega)
      have h6 : (10 : Int) ^ cs.length < 10 ^ (e - 1) := by omega
      have h7 : (10 : Nat) ^ cs.length < 10 ^ (e - 1) := by
        have : ((10 ^ cs.length : Nat) : Int) < ((10 ^ (e - 1) : Nat) : Int) := by
          rw [Int.natCast_pow, Int.natCast_pow]; exact h6
        omega
      have := (Nat.pow_lt_pow_iff_right (by decide : 1 < 10)).mp h7
      rw [List.length_cons]; omega
  have he : ds ≠ [] := h2
  have hlen : 0 < ds.length := List.length_pos_iff.mpr he
  have hv : padZeros ('-' :: ds) e = List.replicate (e - (ds.length + 1)) '0' ++ '-' :: ds := by
    unfold padZeros
    rw [List.length_cons]
    by_cases hlt : ds.length + 1 < e
    · rw [if_pos hlt]
    · rw [if_neg hlt]
      have : e - (ds.length + 1) = 0 := by omega
      rw [this]; rfl
  have hvl : (padZeros ('-' :: ds) e).length = e := by
    rw [hv, List.length_append, List.length_replicate, List.length_cons]; omega
  have hmem : '-' ∈ cropZeros (padZeros ('-' :: ds) e) := by
    obtain ⟨k, hk⟩ := crop_zeros (padZeros ('-' :: ds) e)
    have : '-' ∈ padZeros ('-' :: ds) e := by
      rw [hv]; exact List.mem_append.mpr (Or.inr List.mem_cons_self)
    rw [hk] at this
    rcases List.mem_append.mp this with h8 | h8
    · exact h8
    · exact absurd (List.mem_replicate.mp h8).2 (by decide)
  refine ⟨cropZeros (padZeros ('-' :: ds) e), ?_, hmem, ?_⟩
  · unfold Decimal.toText
    simp only []
    rw [h1]
    simp only [Option.map_some, Option.some.injEq]
    unfold layout
    rw [hvl, Nat.sub_self, List.drop_zero, List.take_zero]
    rw [if_neg]
    · rfl
    · rw [List.isEmpty_iff]
      intro hc
      rw [hc] at hmem
      exact absurd hmem (by simp)
  · rintro ⟨d', sign, xs, fs, hs, hd, hf, -, hcs, -, -⟩
    have hnp := signed_no_point hs hd
    rcases hcs with ⟨hcs, -⟩ | hcs
    · exact hnp (by rw [← hcs]; simp)
    · have t1 := (takeWhile_point (b := fs) hnp).2
      have t2 := (takeWhile_point (a := ['0']) (b := cropZeros (padZeros ('-' :: ds) e)) (by decide)).2
      rw [List.singleton_append, hcs, t1] at t2
      rw [← t2] at hmem
      exact absurd (List.all_eq_true.mp hf _ hmem) (by decide)

/-- Such text is not read back, or text that is no number is accepted. -/
theorem signs_after_point_violated :
    (Decimal.toText ⟨-5, 3⟩ = some ['0', '.', '0', '-', '5'] ∧ Decimal.fromText ['0', '.', '0', '-', '5'] = .refused .formatError) ∧
    Decimal.fromText ['1', '.', '-', '5'] = .ok ⟨95, 2⟩ ∧ Decimal.fromText ['1', '.', '+', '5'] = .ok ⟨105, 2⟩ ∧
    Decimal.fromText ['-', '.'] = .ok ⟨0, 0⟩ := by decide +kernel

-- -12.340 prints as -12.34; -0.05 and 12.340 are read
example : Decimal.toText ⟨-12340, 3⟩ = some ['-', '1', '2', '.', '3', '4'] ∧ Decimal.fromText ['-', '0', '.', '0', '5'] = .ok ⟨-5, 2⟩ ∧
    Decimal.fromText ['1', '2', '.', '3', '4', '0'] = .ok ⟨1234, 2⟩ ∧ (10 : Int) ^ (3 - 1) ≤ 12340 := by decide +kernel
example : Spec.Reads ['-', '1', '2', '.', '3', '4'] ⟨-1234, 2⟩ :=
  ⟨['-'], ['1', '2'], ['3', '4'], Or.inr (Or.inl rfl), by decide, by decide, by decide, Or.inr rfl, rfl, by decide⟩
example : Decimal.toText ⟨-5, 3⟩ = some ('0' :: '.' :: ['0', '-', '5']) ∧ -(-5 : Int) < 10 ^ (3 - 1) := by decide +kernel

end Verif.Num

import Verif.BigNum.Compare
/-
Property C54: conversion of `BigUnsignedInteger` from and to text and bytes, for every block width `w` in which the base fits.
-/
namespace Verif.BigNum

/-- The character `c` stands for the digit `v`: decimal digits, then Latin letters of either case. -/
def Spec.Digit (c v : Nat) : Prop := (v < 10 ∧ c = 48 + v) ∨ (10 ≤ v ∧ v < 36 ∧ (c = 55 + v ∨ c = 87 + v))

/-- The string `s` spells the digits `ds` (most significant first) in the base. -/
def Spec.Spells (base : Nat) : List Nat → List Nat → Prop
  | [], [] => True
  | c :: s, v :: ds => Digit c v ∧ v < base ∧ Spells base s ds
  | _, _ => False

/-- The number written with the digits `ds`, most significant first. -/
def Spec.number (base : Nat) (ds : List Nat) : Nat := ds.foldl (fun acc v => acc * base + v) 0

open Spec

theorem digitOf_some {c v : Nat} : digitOf c = some v ↔ Digit c v := by
  unfold digitOf Digit
  by_cases h1 : c ≥ 0x30 ∧ c ≤ 0x39
  · rw [if_pos h1]; simp only [Option.some.injEq]; omega
  · rw [if_neg h1]
    by_cases h2 : c ≥ 0x41 ∧ c ≤ 0x5a
    · rw [if_pos h2]; simp only [Option.some.injEq]; omega
    · rw [if_neg h2]
      by_cases h3 : c ≥ 0x61 ∧ c ≤ 0x7a
      · rw [if_pos h3]; simp only [Option.some.injEq]; omega
      · rw [if_neg h3]; simp only [reduceCtorEq, false_iff]; omega

theorem digit_lt {c v : Nat} (h : Digit c v) : v < 36 := by unfold Digit at h; omega

/-- A number as the library represents it: normalised, or the single zero block of `BigUnsignedInteger(0)`. -/
def Spec.Repr (w : Nat) (l : List Nat) : Prop := Blocks w l ∧ (Norm l ∨ l = [0])

theorem blocks_one {w v : Nat} (h : v < 2 ^ w) : Blocks w [v] := blocks_cons h (blocks_nil w)

theorem pushDigit_value {w base v : Nat} {us : List Nat} (hu : Repr w us) (hb : base < 2 ^ w) (hv : v < 2 ^ w) :
    ∃ r, pushDigit w base us v = some r ∧ Repr w r ∧ value w r = value w us * base + v := by
  unfold pushDigit ofNat
  obtain ⟨t, h1, h2, h3, h4⟩ := mul_exact hu.1 (blocks_one hb)
  rw [h1]
  simp only [Option.bind_some]
  obtain ⟨r, g1, g2, g3, g4⟩ := add_value h2 (blocks_one hv)
  refine ⟨r, g1, ⟨g2, ?_⟩, ?_⟩
  · by_cases ht : t = []
    · subst ht
      have : r = [v] := by simpa [add] using g1.symm
      subst this
      by_cases hv0 : v = 0
      · right; rw [hv0]
      · left; simp [Norm, hv0]
    · left
      refine g4 h3 (Or.inr ⟨ht, ?_⟩)
      rcases t with _ | ⟨y, t⟩
      · exact absurd rfl ht
      · simp
  · rw [g3, h4]; simp [value]

theorem loadString_ok {w base : Nat} (hb : base < 2 ^ w) (h36 : 36 ≤ 2 ^ w) : ∀ (s ds us : List Nat), Repr w us → Spells base s ds →
    ∃ r, loadString w base s us = some (.ok r) ∧ Repr w r ∧ value w r = ds.foldl (fun acc v => acc * base + v) (value w us)
  | [], [], us, hu, _ => ⟨us, rfl, hu, rfl⟩
  | c :: s, v :: ds, us, hu, h => by
    obtain ⟨h1, h2, h3⟩ := h
    obtain ⟨t, g1, g2, g3⟩ := pushDigit_value (v := v) hu hb (by have := digit_lt h1; omega)
    obtain ⟨r, k1, k2, k3⟩ := loadString_ok hb h36 s ds t g2 h3
    refine ⟨r, ?_, k2, ?_⟩
    · rw [loadString.eq_def]
      simp only [digitOf_some.mpr h1, if_pos h2, g1, k1]
    · rw [k3, g3]; rfl
  | [], _ :: _, _, _, h => h.elim
  | _ :: _, [], _, _, h => h.elim

theorem loadString_err {w base : Nat} (hb : base < 2 ^ w) (h36 : 36 ≤ 2 ^ w) : ∀ (s us : List Nat), Repr w us → (∀ ds, ¬ Spells base s ds) →
    loadString w base s us = some (.error .badDigit)
  | [], us, hu, h => (h [] trivial).elim
  | c :: s, us, hu, h => by
    rw [loadString.eq_def]
    cases hd : digitOf c with
    | none => simp only [hd]
    | some v =>
      simp only [hd]
      by_cases hv : v < base
      · rw [if_pos hv]
        have h1 := digitOf_some.mp hd
        obtain ⟨t, g1, g2, g3⟩ := pushDigit_value (v := v) hu hb (by have := digit_lt h1; omega)
        simp only [g1]
        exact loadString_err hb h36 s t g2 (fun ds h2 => h (v :: ds) ⟨h1, hv, h2⟩)
      · rw [if_neg hv]

theorem repr_nil (w : Nat) : Repr w [] := ⟨blocks_nil w, Or.inl (by simp [Norm])⟩

/-- C54, parsing: a string of digits of the base yields the number it spells; any other string is rejected. -/
theorem parse_exact {w base : Nat} (hb : base < 2 ^ w) (h36 : 36 ≤ 2 ^ w) (s : List Nat) :
    (∃ ds r, Spells base s ds ∧ loadString w base s [] = some (.ok r) ∧ Repr w r ∧ value w r = number base ds) ∨
    ((∀ ds, ¬ Spells base s ds) ∧ loadString w base s [] = some (.error .badDigit)) := by
  by_cases h : ∃ ds, Spells base s ds
  · obtain ⟨ds, h⟩ := h
    obtain ⟨r, h1, h2, h3⟩ := loadString_ok hb h36 s ds [] (repr_nil w) h
    exact Or.inl ⟨ds, r, h, h1, h2, h3⟩
  · have h' : ∀ ds, ¬ Spells base s ds := fun ds hd => h ⟨ds, hd⟩
    exact Or.inr ⟨h', loadString_err hb h36 s [] (repr_nil w) h'⟩

/-- C54, prefixes: `0x` selects base 16, `0b` base 2, anything else base 10. -/
theorem parse_prefix (w : Nat) (s : List Nat) :
    loadPrefixed w ("0x".toList.map Char.toNat ++ s) = loadString w 16 s [] ∧
    loadPrefixed w ("0b".toList.map Char.toNat ++ s) = loadString w 2 s [] ∧
    ((∀ t, s ≠ "0x".toList.map Char.toNat ++ t ∧ s ≠ "0b".toList.map Char.toNat ++ t) → loadPrefixed w s = loadString w 10 s []) := by
  refine ⟨?_, ?_, ?_⟩
  · unfold loadPrefixed
    rw [if_pos (by rfl)]; rfl
  · unfold loadPrefixed
    rw [if_neg (by simp), if_pos (by rfl)]; rfl
  · intro h
    unfold loadPrefixed
    rw [if_neg, if_neg]
    · intro e
      refine (h (s.drop 2)).2 ?_
      have := List.take_append_drop 2 s
      rw [e] at this
      exact this.symm
    · intro e
      refine (h (s.drop 2)).1 ?_
      have := List.take_append_drop 2 s
      rw [e] at this
      exact this.symm

/-! ### Printing -/

theorem single_of_small {w : Nat} {l : List Nat} (hb : Blocks w l) (hn : Norm l) (hv : value w l < 2 ^ w) : (l = [] ∧ value w l = 0) ∨ ∃ v, l = [v] ∧ value w l = v := by
  rcases l with _ | ⟨x, _ | ⟨y, l⟩⟩
  · exact Or.inl ⟨rfl, rfl⟩
  · exact Or.inr ⟨x, rfl, by simp [value]⟩
  · have := norm_ge (w := w) hn (by simp)
    have h2 : 2 ^ w ≤ 2 ^ (w * ((x :: y :: l).length - 1)) := by
      refine Nat.pow_le_pow_right (by omega) ?_
      simp only [List.length_cons, Nat.add_sub_cancel]
      exact Nat.le_mul_of_pos_right _ (by omega)
    omega

theorem toPrimitive_small {w t : Nat} {l : List Nat} (hb : Blocks w l) (hn : Norm l) (hv : value w l < 2 ^ w) (ht : value w l < 2 ^ t) : toPrimitive t l = .ok (value w l) := by
  rcases single_of_small hb hn hv with ⟨h, h2⟩ | ⟨v, h, h2⟩
  · rw [h2, h]; rfl
  · rw [h2, h, toPrimitive, Nat.mod_eq_of_lt (by omega), if_pos rfl]

/-- Digits least significant first.  For BigNum.cpp 37-160. -/
def lsNumber (base : Nat) : List Nat → Nat
  | [] => 0
  | v :: ds => v + base * lsNumber base ds

theorem lsNumber_reverse (base : Nat) : ∀ ds, number base ds.reverse = lsNumber base ds := by
  intro ds
  unfold number
  rw [List.foldl_reverse]
  induction ds with
  | nil => rfl
  | cons v ds ih => simp only [List.foldr_cons, lsNumber, ih]; rw [Nat.mul_comm]; omega

theorem norm_zero {w : Nat} {l : List Nat} (hn : Norm l) (h : value w l = 0) : l = [] := by
  by_cases h0 : l = []
  · exact h0
  · have := norm_ge (w := w) hn h0
    have h3 : 0 < 2 ^ (w * (l.length - 1)) := Nat.pow_pos (by omega)
    omega

theorem dumpLoop_spec {w base : Nat} (hb2 : 2 ≤ base) (hbw : base < 2 ^ w) (hb8 : base ≤ 256) : ∀ (n : Nat) (x : List Nat), Repr w x → value w x < 2 ^ (n - 1) → 1 ≤ n → (x = [0] → 2 ≤ n) →
    ∃ ds, dumpLoop w base n x = some (.ok ds) ∧ (∀ v ∈ ds, v < base) ∧ lsNumber base ds = value w x ∧ (Norm x → ds.getLast? ≠ some 0) ∧ (x = [0] → ds = [0])
  | 0, _, _, _, h, _ => by omega
  | n + 1, x, hx, hv, _, h0 => by
    rw [dumpLoop.eq_def]
    simp only []
    by_cases hx0 : x = []
    · rw [if_pos hx0]
      subst hx0
      exact ⟨[], rfl, by simp, rfl, by simp, by simp⟩
    · rw [if_neg hx0]
      have hn1 : 1 ≤ n := by
        rcases hx.2 with h | h
        · by_cases hn : n = 0
          · subst hn
            simp only [Nat.zero_add, Nat.sub_self, Nat.pow_zero] at hv
            exact absurd (norm_zero (w := w) h (by omega)) hx0
          · omega
        · have := h0 h; omega
      obtain ⟨r, q, g1, g2, g3, g4, g5, g6, g7, g8⟩ := divMod_value (w := w) (a := x) (d := [base]) hx.1 (blocks_one hbw) (by simp [Norm]; omega) (by simp)
      have hlen : ([base] : List Nat).length ≤ x.length := by
        rcases x with _ | ⟨y, x⟩
        · exact absurd rfl hx0
        · simp
      have hbv : value w [base] = base := by simp [value]
      rw [hbv] at g6 g7
      have hr : value w r < base := by rw [g7]; exact Nat.mod_lt _ (by omega)
      have hq : value w q < 2 ^ (n - 1) := by
        rw [g6]
        refine Nat.div_lt_of_lt_mul ?_
        have e : 2 ^ n = 2 * 2 ^ (n - 1) := by
          obtain ⟨m, rfl⟩ : ∃ m, n = m + 1 := ⟨n - 1, by omega⟩
          rw [Nat.add_sub_cancel, Nat.pow_succ, Nat.mul_comm]
        have h3 : 2 * 2 ^ (n - 1) ≤ base * 2 ^ (n - 1) := Nat.mul_le_mul_right _ hb2
        rw [Nat.add_sub_cancel] at hv
        omega
      obtain ⟨ds, k1, k2, k3, k4, k5⟩ := dumpLoop_spec hb2 hbw hb8 n q ⟨g3, Or.inl g5⟩ hq hn1 (by intro e; subst e; simp [Norm] at g5)
      refine ⟨value w r :: ds, ?_, ?_, ?_, ?_, ?_⟩
      · simp only [ofNat, g1, toPrimitive_small (t := 8) g2 (g8 hlen) (by omega) (by omega), k1]
      · intro v hv
        rcases List.mem_cons.mp hv with h | h
        · rw [h]; exact hr
        · exact k2 v h
      · rw [lsNumber, k3, g6, g7]
        exact Nat.mod_add_div _ _
      · intro hn
        by_cases hds : ds = []
        · subst hds
          have hq0 : value w x / base = 0 := by rw [← g6, ← k3]; rfl
          have h1 := Nat.mod_add_div (value w x) base
          rw [hq0, Nat.mul_zero, Nat.add_zero] at h1
          intro e
          simp only [List.getLast?_singleton, Option.some.injEq] at e
          rw [g7] at e
          exact hx0 (norm_zero (w := w) hn (by omega))
        · rw [List.getLast?_cons_of_ne_nil hds]
          exact k4 g5
      · intro e
        subst e
        have h1 : value w q = 0 := by rw [g6]; simp [value]
        have h2 : value w r = 0 := by rw [g7]; simp [value]
        have h3 := norm_zero g5 h1
        subst h3
        have : ds = [] := by
          obtain ⟨m, rfl⟩ : ∃ m, n = m + 1 := ⟨n - 1, by omega⟩
          rw [dumpLoop.eq_def] at k1
          simp only [if_pos] at k1
          injection k1 with k1
          injection k1 with k1
          exact k1.symm
        rw [this, h2]

/-- C54, the digits of a number in a base up to 256, most significant first: they spell the number and, for a normalised number, do not begin with zero. -/
theorem dump_exact {w base : Nat} (hb2 : 2 ≤ base) (hbw : base < 2 ^ w) (hb8 : base ≤ 256) {x : List Nat} (hx : Repr w x) :
    ∃ ds, dump w base x = some (.ok ds) ∧ (∀ v ∈ ds, v < base) ∧ number base ds = value w x ∧ (Norm x → ds.head? ≠ some 0) ∧ (x = [0] → ds = [0]) := by
  have hv := value_lt hx.1
  obtain ⟨ds, h1, h2, h3, h4, h5⟩ := dumpLoop_spec hb2 hbw hb8 (w * x.length + 2) x hx
    (Nat.lt_of_lt_of_le hv (Nat.pow_le_pow_right (by omega) (by omega))) (by omega) (fun _ => by omega)
  refine ⟨ds.reverse, ?_, ?_, ?_, ?_, ?_⟩
  · unfold dump; rw [h1]; rfl
  · intro v hv; exact h2 v (by simpa using hv)
  · rw [lsNumber_reverse]; exact h3
  · intro hn; rw [List.head?_reverse]; exact h4 hn
  · intro e; rw [h5 e]; rfl

theorem spells_map {base : Nat} (hb : base ≤ 36) : ∀ (ds : List Nat), (∀ v ∈ ds, v < base) → Spells base (ds.map (fun v => if v < 10 then 0x30 + v else 0x41 + v - 10)) ds
  | [], _ => trivial
  | v :: ds, h => by
    have hv := h v (by simp)
    refine ⟨?_, hv, spells_map hb ds (fun u hu => h u (by simp [hu]))⟩
    by_cases h1 : v < 10
    · exact Or.inl ⟨h1, if_pos h1⟩
    · refine Or.inr ⟨by omega, by omega, Or.inl ?_⟩
      show (if v < 10 then 0x30 + v else 0x41 + v - 10) = 55 + v
      rw [if_neg h1]; omega

/-- C54, printing in a base from 2 to 36: the string spells the number, begins with `0` only if it is the string "0", and reading it back gives the number. -/
theorem print_exact {w base : Nat} (hb2 : 2 ≤ base) (hb : base ≤ 36) (hw : 36 < 2 ^ w) {x : List Nat} (hx : Repr w x) :
    ∃ s ds r, toStr w base x = some (.ok s) ∧ Spells base s ds ∧ number base ds = value w x ∧ s ≠ [] ∧ (s.head? = some 48 → s = [48] ∧ value w x = 0) ∧
      loadString w base s [] = some (.ok r) ∧ value w r = value w x := by
  obtain ⟨ds, h1, h2, h3, h4, h5⟩ := dump_exact hb2 (by omega) (by omega) hx
  have hstr : toStr w base x = some (.ok (if ds = [] then [0x30] else ds.map (fun v => if v < 10 then 0x30 + v else 0x41 + v - 10))) := by
    unfold toStr; rw [h1]; rfl
  by_cases hds : ds = []
  · subst hds
    rw [if_pos rfl] at hstr
    have hsp : Spells base [48] [0] := by
      refine ⟨Or.inl ⟨by omega, rfl⟩, by omega, trivial⟩
    have hv : value w x = 0 := by rw [← h3]; rfl
    obtain ⟨r, g1, g2, g3⟩ := loadString_ok (by omega) (by omega) [48] [0] [] (repr_nil w) hsp
    have hz : number base [0] = 0 := by simp [number]
    refine ⟨[48], [0], r, hstr, hsp, ?_, by simp, fun _ => ⟨rfl, hv⟩, g1, ?_⟩
    · rw [hv]; exact hz
    · rw [g3, hv]; exact hz
  · rw [if_neg hds] at hstr
    have hsp := spells_map hb ds h2
    obtain ⟨r, g1, g2, g3⟩ := loadString_ok (by omega) (by omega) _ ds [] (repr_nil w) hsp
    refine ⟨_, ds, r, hstr, hsp, h3, by simp [hds], ?_, g1, ?_⟩
    · intro hh
      rcases ds with _ | ⟨v, ds⟩
      · exact absurd rfl hds
      · simp only [List.map_cons, List.head?_cons, Option.some.injEq] at hh
        have hv0 : v = 0 := by
          by_cases h10 : v < 10
          · rw [if_pos h10] at hh; omega
          · rw [if_neg h10] at hh; omega
        rcases hx.2 with hn | hz
        · exact absurd (by rw [hv0]; rfl) (h4 hn)
        · have := h5 hz
          rw [this]
          exact ⟨rfl, by rw [hz]; simp [value]⟩
    · rw [g3]; exact h3

theorem loadData_ok {w : Nat} (hb : 256 < 2 ^ w) : ∀ (s us : List Nat), Repr w us → (∀ c ∈ s, c < 256) →
    ∃ r, loadData w s us = some r ∧ Repr w r ∧ value w r = s.foldl (fun acc v => acc * 256 + v) (value w us)
  | [], us, hu, _ => ⟨us, rfl, hu, rfl⟩
  | c :: s, us, hu, h => by
    obtain ⟨t, g1, g2, g3⟩ := pushDigit_value (v := c) hu hb (by have := h c (by simp); omega)
    obtain ⟨r, k1, k2, k3⟩ := loadData_ok hb s t g2 (fun u hu => h u (by simp [hu]))
    refine ⟨r, ?_, k2, ?_⟩
    · rw [loadData, g1]; exact k1
    · rw [k3, g3]; rfl

/-- C54, bytes: the number is the big-endian value of the bytes, `ToByteArray` gives the big-endian bytes back without leading zeroes, and the round trip keeps the
number. -/
theorem bytes_exact {w : Nat} (hw : 256 < 2 ^ w) :
    (∀ s : List Nat, (∀ c ∈ s, c < 256) → ∃ r, loadData w s [] = some r ∧ Repr w r ∧ value w r = number 256 s) ∧
    (∀ x, Repr w x → ∃ ds r, dump w 256 x = some (.ok ds) ∧ (∀ v ∈ ds, v < 256) ∧ number 256 ds = value w x ∧ (Norm x → ds.head? ≠ some 0) ∧
      loadData w ds [] = some r ∧ value w r = value w x) := by
  refine ⟨fun s hs => loadData_ok hw s [] (repr_nil w) hs, ?_⟩
  intro x hx
  obtain ⟨ds, h1, h2, h3, h4, _⟩ := dump_exact (base := 256) (by omega) hw (by omega) hx
  obtain ⟨r, g1, g2, g3⟩ := loadData_ok hw ds [] (repr_nil w) h2
  exact ⟨ds, r, h1, h2, h3, h4, g1, by rw [g3]; exact h3⟩

/-- C54, conversion to a primitive type of `t` bits: exact if the number fits into the type and into a block, otherwise an exception. -/
theorem toPrimitive_exact {w t : Nat} {x : List Nat} (hx : Repr w x) :
    (value w x < 2 ^ t ∧ value w x < 2 ^ w ∧ toPrimitive t x = .ok (value w x)) ∨
    ((2 ^ t ≤ value w x ∨ 2 ^ w ≤ value w x) ∧ toPrimitive t x = .error .notImplemented) := by
  have hp : 0 < 2 ^ t := Nat.pow_pos (by omega)
  have hpw : 0 < 2 ^ w := Nat.pow_pos (by omega)
  rcases hx with ⟨hb, hn | hz⟩
  · by_cases h1 : value w x < 2 ^ w
    · by_cases h2 : value w x < 2 ^ t
      · exact Or.inl ⟨h2, h1, toPrimitive_small hb hn h1 h2⟩
      · refine Or.inr ⟨Or.inl (by omega), ?_⟩
        rcases single_of_small hb hn h1 with ⟨h, h3⟩ | ⟨v, h, h3⟩
        · omega
        · rw [h, toPrimitive, if_neg]
          have := Nat.mod_lt v hp
          omega
    · refine Or.inr ⟨Or.inr (by omega), ?_⟩
      rcases x with _ | ⟨y, _ | ⟨z, x⟩⟩
      · simp [value] at h1
      · have := hb y (by simp)
        simp [value] at h1
        omega
      · rfl
  · subst hz
    have : value w [0] = 0 := by simp [value]
    rw [this]
    refine Or.inl ⟨hp, hpw, ?_⟩
    rw [toPrimitive, Nat.zero_mod, if_pos rfl]

/-! Non-vacuity: "255" and "ff" give the same number, "-1" is rejected. -/
example : loadString 64 10 [50, 53, 53] [] = some (.ok [255]) ∧ loadPrefixed 64 [48, 120, 102, 70] = some (.ok [255]) ∧
    loadString 64 10 [45, 49] [] = some (.error .badDigit) ∧ toStr 8 16 [255, 18] = some (.ok [49, 50, 70, 70]) ∧ Repr 64 (ofNat 0) ∧ Spells 16 [102, 70] [15, 15] := by
  refine ⟨by with_unfolding_all rfl, by with_unfolding_all rfl, by with_unfolding_all rfl, by with_unfolding_all rfl, ⟨blocks_one (by omega), Or.inr rfl⟩, ?_⟩
  refine ⟨?_, by omega, ?_, by omega, trivial⟩ <;> (unfold Digit; omega)

end Verif.BigNum

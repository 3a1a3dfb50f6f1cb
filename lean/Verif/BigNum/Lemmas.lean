import Verif.BigNum.Model
namespace Verif.BigNum

/-- The number denoted by a list of blocks, least significant first. -/
def Spec.value (w : Nat) : List Nat → Nat
  | [] => 0
  | x :: l => x + 2 ^ w * Spec.value w l

/-- Every block fits. -/
def Spec.Blocks (w : Nat) (l : List Nat) : Prop := ∀ x ∈ l, x < 2 ^ w

open Spec

theorem Spec.Blocks.cons {w x : Nat} {l : List Nat} (h : Blocks w (x :: l)) : x < 2 ^ w ∧ Blocks w l := ⟨h x (by simp), fun y hy => h y (by simp [hy])⟩

theorem blocks_cons {w x : Nat} {l : List Nat} (hx : x < 2 ^ w) (h : Blocks w l) : Blocks w (x :: l) := by
  intro y hy
  rcases List.mem_cons.mp hy with rfl | hy
  · exact hx
  · exact h y hy

theorem blocks_append {w : Nat} {a b : List Nat} (ha : Blocks w a) (hb : Blocks w b) : Blocks w (a ++ b) := by
  intro y hy
  rcases List.mem_append.mp hy with hy | hy
  · exact ha y hy
  · exact hb y hy

theorem blocks_nil (w : Nat) : Blocks w [] := fun _ h => by cases h

theorem blocks_take {w : Nat} {l : List Nat} (h : Blocks w l) (k : Nat) : Blocks w (l.take k) := fun y hy => h y (List.mem_of_mem_take hy)
theorem blocks_drop {w : Nat} {l : List Nat} (h : Blocks w l) (k : Nat) : Blocks w (l.drop k) := fun y hy => h y (List.mem_of_mem_drop hy)

theorem value_append (w : Nat) (a b : List Nat) : value w (a ++ b) = value w a + 2 ^ (w * a.length) * value w b := by
  induction a with
  | nil => simp [value]
  | cons x a ih =>
    simp only [List.cons_append, value, ih, List.length_cons]
    rw [show w * (a.length + 1) = w + w * a.length by rw [Nat.mul_add, Nat.mul_one, Nat.add_comm], Nat.pow_add, Nat.mul_add, Nat.mul_assoc]
    omega

theorem value_lt {w : Nat} {l : List Nat} (h : Blocks w l) : value w l < 2 ^ (w * l.length) := by
  induction l with
  | nil => simp [value]
  | cons x l ih =>
    obtain ⟨hx, hl⟩ := h.cons
    have := ih hl
    simp only [value, List.length_cons]
    rw [show w * (l.length + 1) = w + w * l.length by rw [Nat.mul_add, Nat.mul_one, Nat.add_comm], Nat.pow_add]
    have h2 : 2 ^ w * (value w l + 1) ≤ 2 ^ w * 2 ^ (w * l.length) := Nat.mul_le_mul_left _ this
    rw [Nat.mul_add] at h2
    omega

theorem value_replicate (w n : Nat) : value w (List.replicate n 0) = 0 := by
  induction n with
  | zero => rfl
  | succ n ih => simp [List.replicate_succ, value, ih]

theorem blocks_replicate (w n : Nat) : Blocks w (List.replicate n 0) := by
  intro x hx
  rw [List.eq_of_mem_replicate hx]
  exact Nat.pow_pos (by omega)

theorem value_take_drop (w : Nat) {k : Nat} {l : List Nat} (hk : k ≤ l.length) : value w l = value w (l.take k) + 2 ^ (w * k) * value w (l.drop k) := by
  have := value_append w (l.take k) (l.drop k)
  rwa [List.take_append_drop, List.length_take, Nat.min_eq_left hk] at this

/-- No leading zero block. -/
def Spec.Norm (l : List Nat) : Prop := l.getLast? ≠ some 0

theorem zap_nil : zap [] = [] := rfl

theorem zap_append_zero (l : List Nat) : zap (l ++ [0]) = zap l := by simp [zap]

theorem zap_append_pos (l : List Nat) {x : Nat} (h : x ≠ 0) : zap (l ++ [x]) = l ++ [x] := by simp [zap, h]

theorem eq_nil_or_concat' (l : List Nat) : l = [] ∨ ∃ a x, l = a ++ [x] := by
  rcases List.eq_nil_or_concat l with h | ⟨a, x, h⟩
  · exact Or.inl h
  · exact Or.inr ⟨a, x, by rw [h, List.concat_eq_append]⟩

theorem zap_spec (w : Nat) : ∀ (n : Nat) (l : List Nat), l.length = n → value w (zap l) = value w l ∧ Norm (zap l) ∧ (Blocks w l → Blocks w (zap l)) ∧ (zap l).length ≤ l.length := by
  intro n
  induction n with
  | zero => intro l h; rw [List.length_eq_zero_iff.mp h, zap_nil]; exact ⟨rfl, by simp [Norm], fun _ => blocks_nil w, Nat.le_refl _⟩
  | succ n ih =>
    intro l h
    rcases eq_nil_or_concat' l with rfl | ⟨a, x, rfl⟩
    · simp at h
    have ha : a.length = n := by simpa using h
    obtain ⟨h1, h2, h3, h4⟩ := ih a ha
    by_cases hx : x = 0
    · subst hx
      rw [zap_append_zero, value_append, h1]
      refine ⟨by simp [value], h2, fun hb => h3 (fun y hy => hb y (by simp [hy])), by simp; omega⟩
    · rw [zap_append_pos a hx]
      exact ⟨rfl, by simp [Norm, hx], id, Nat.le_refl _⟩

theorem zap_value (w : Nat) (l : List Nat) : value w (zap l) = value w l := (zap_spec w _ l rfl).1
theorem zap_norm (l : List Nat) : Norm (zap l) := (zap_spec 0 _ l rfl).2.1
theorem zap_blocks {w : Nat} {l : List Nat} (h : Blocks w l) : Blocks w (zap l) := (zap_spec w _ l rfl).2.2.1 h

/-- A normalised number of `n` blocks is at least `2 ^ (w * (n - 1))`. -/
theorem norm_ge {w : Nat} {l : List Nat} (h : Norm l) (hl : l ≠ []) : 2 ^ (w * (l.length - 1)) ≤ value w l := by
  rcases eq_nil_or_concat' l with rfl | ⟨a, x, rfl⟩
  · exact absurd rfl hl
  · have hx : x ≠ 0 := by simpa [Norm] using h
    rw [value_append]
    simp only [List.length_append, List.length_singleton, Nat.add_sub_cancel, value]
    have : 2 ^ (w * a.length) * 1 ≤ 2 ^ (w * a.length) * (x + 2 ^ w * 0) := Nat.mul_le_mul_left _ (by omega)
    omega

theorem norm_of_ge {w : Nat} {l : List Nat} (hb : Blocks w l) (h : l = [] ∨ 2 ^ (w * (l.length - 1)) ≤ value w l) : Norm l := by
  rcases eq_nil_or_concat' l with rfl | ⟨a, x, rfl⟩
  · simp [Norm]
  · rcases h with h | h
    · simp at h
    · simp only [Norm, List.getLast?_append, List.getLast?_singleton, Option.some_or, ne_eq, Option.some.injEq]
      intro hx
      subst hx
      rw [value_append] at h
      simp only [List.length_append, List.length_singleton, Nat.add_sub_cancel, value, Nat.mul_zero, Nat.add_zero] at h
      have := value_lt (w := w) (l := a) (fun y hy => hb y (by simp [hy]))
      omega

/-- Normalised representations are unique. -/
theorem norm_unique {w : Nat} {a b : List Nat} (ha : Blocks w a) (hb : Blocks w b) (na : Norm a) (nb : Norm b) (h : value w a = value w b) : a = b := by
  have key : ∀ (a b : List Nat), Blocks w a → Blocks w b → a.length = b.length → value w a = value w b → a = b := by
    intro a
    induction a with
    | nil => intro b _ _ hl _; exact (List.length_eq_zero_iff.mp hl.symm).symm
    | cons x a ih =>
      intro b ha hb hl hv
      rcases b with _ | ⟨y, b⟩
      · simp at hl
      simp only [value] at hv
      have hx := ha.cons.1
      have hy := hb.cons.1
      have e1 : x = y := by
        have := congrArg (· % 2 ^ w) hv
        simp only [Nat.add_mul_mod_self_left, Nat.mod_eq_of_lt hx, Nat.mod_eq_of_lt hy] at this
        exact this
      subst e1
      have e2 : value w a = value w b := by
        have h3 : 2 ^ w * value w a = 2 ^ w * value w b := by omega
        exact Nat.eq_of_mul_eq_mul_left (Nat.pow_pos (by omega)) h3
      rw [ih b ha.cons.2 hb.cons.2 (by simpa using hl) e2]
  refine key a b ha hb ?_ h
  have mono : ∀ {a b : List Nat}, Blocks w a → Norm b → value w a = value w b → b.length ≤ a.length := by
    intro a b ha nb hv
    by_cases hb0 : b = []
    · subst hb0; simp
    · have h1 := norm_ge (w := w) nb hb0
      have h2 := value_lt ha
      rw [hv] at h2
      have h3 : 2 ^ (w * (b.length - 1)) < 2 ^ (w * a.length) := by omega
      have h4 := (Nat.pow_lt_pow_iff_right (a := 2) (by omega)).mp h3
      have h5 := Nat.lt_of_mul_lt_mul_left h4
      omega
  have := mono ha nb h
  have := mono hb na h.symm
  omega

/-! ### Addition -/

theorem addBlock_spec {w u d : Nat} (hu : u < 2 ^ w) (hd : d < 2 ^ w) (c : Bool) :
    (addBlock w u d c).1 < 2 ^ w ∧ (addBlock w u d c).1 + 2 ^ w * (addBlock w u d c).2.toNat = u + d + c.toNat := by
  have hp : 0 < 2 ^ w := Nat.pow_pos (by omega)
  unfold addBlock
  generalize 2 ^ w = B at *
  by_cases h : u + d < B
  · rw [Nat.mod_eq_of_lt h]
    cases c
    · have : ¬ u + d < u := by omega
      simp [this]; exact h
    · simp only [if_true, Bool.toNat_true]
      by_cases h2 : u + d + 1 < B
      · rw [Nat.mod_eq_of_lt h2]
        have e1 : ¬ u + d < u := by omega
        have e2 : ¬ u + d + 1 = 0 := by omega
        simp [e1]; exact h2
      · have e : u + d + 1 = B := by omega
        rw [e, Nat.mod_self]
        have e1 : ¬ u + d < u := by omega
        simp [e1]; exact hp
  · have e : (u + d) % B = u + d - B := by
      rw [Nat.mod_eq_sub_mod (by omega), Nat.mod_eq_of_lt (by omega)]
    rw [e]
    have e1 : u + d - B < u := by omega
    cases c
    · simp [e1]; omega
    · have e3 : (u + d - B + 1) % B = u + d - B + 1 := Nat.mod_eq_of_lt (by omega)
      simp only [if_true, e3, e1, decide_true, Bool.true_or, Bool.toNat_true]
      omega

theorem carryUp_spec {w : Nat} : ∀ (us : List Nat) (c : Bool), Blocks w us → ∃ r co, carryUp w us c = some (r, co) ∧ Blocks w r ∧ r.length = us.length ∧
    value w r + 2 ^ (w * us.length) * co.toNat = value w us + c.toNat := by
  intro us
  induction us with
  | nil =>
    intro c _
    cases c
    · exact ⟨[], false, rfl, blocks_nil w, rfl, by simp [value]⟩
    · exact ⟨[], true, rfl, blocks_nil w, rfl, by simp [value]⟩
  | cons u us ih =>
    intro c hb
    cases c
    · exact ⟨u :: us, false, rfl, hb, rfl, by simp⟩
    · obtain ⟨hu, hus⟩ := hb.cons
      obtain ⟨r, co, h1, h2, h3, h4⟩ := ih (decide ((u + 1) % 2 ^ w = 0)) hus
      refine ⟨(u + 1) % 2 ^ w :: r, co, ?_, blocks_cons (Nat.mod_lt _ (Nat.pow_pos (by omega))) h2, by simp [h3], ?_⟩
      · rw [carryUp, h1]; rfl
      · simp only [value, List.length_cons, Bool.toNat_true]
        rw [show w * (us.length + 1) = w + w * us.length by rw [Nat.mul_add, Nat.mul_one, Nat.add_comm], Nat.pow_add, Nat.mul_assoc]
        have h5 : 2 ^ w * (value w r + 2 ^ (w * us.length) * co.toNat) = 2 ^ w * (value w us + (decide ((u + 1) % 2 ^ w = 0)).toNat) := by rw [h4]
        rw [Nat.mul_add, Nat.mul_add] at h5
        by_cases he : u + 1 = 2 ^ w
        · rw [he, Nat.mod_self] at h5 ⊢
          simp only [decide_true, Bool.toNat_true, Nat.mul_one] at h5
          omega
        · have e : (u + 1) % 2 ^ w = u + 1 := Nat.mod_eq_of_lt (by omega)
          rw [e] at h5 ⊢
          simp only [Nat.add_one_ne_zero, decide_false, Bool.toNat_false, Nat.mul_zero] at h5
          omega

theorem addBlocks_spec {w : Nat} : ∀ (us ds : List Nat) (c : Bool), Blocks w us → Blocks w ds → ds.length ≤ us.length →
    ∃ r co, addBlocks w us ds c = some (r, co) ∧ Blocks w r ∧ r.length = us.length ∧ value w r + 2 ^ (w * us.length) * co.toNat = value w us + value w ds + c.toNat := by
  intro us
  induction us with
  | nil =>
    intro ds c hu _ hl
    have : ds = [] := List.length_eq_zero_iff.mp (by simpa using hl)
    subst this
    obtain ⟨r, co, h1, h2, h3, h4⟩ := carryUp_spec [] c hu
    exact ⟨r, co, by simpa [addBlocks] using h1, h2, h3, by simpa [value] using h4⟩
  | cons u us ih =>
    intro ds c hu hd hl
    rcases ds with _ | ⟨d, ds⟩
    · obtain ⟨r, co, h1, h2, h3, h4⟩ := carryUp_spec (u :: us) c hu
      exact ⟨r, co, by simpa [addBlocks] using h1, h2, h3, by simpa [value] using h4⟩
    · obtain ⟨hu1, hu2⟩ := hu.cons
      obtain ⟨hd1, hd2⟩ := hd.cons
      obtain ⟨b1, b2⟩ := addBlock_spec hu1 hd1 c
      obtain ⟨r, co, h1, h2, h3, h4⟩ := ih ds (addBlock w u d c).2 hu2 hd2 (by simpa using hl)
      refine ⟨(addBlock w u d c).1 :: r, co, by rw [addBlocks, h1]; rfl, blocks_cons b1 h2, by simp [h3], ?_⟩
      simp only [value, List.length_cons]
      rw [show w * (us.length + 1) = w + w * us.length by rw [Nat.mul_add, Nat.mul_one, Nat.add_comm], Nat.pow_add, Nat.mul_assoc]
      have h5 : 2 ^ w * (value w r + 2 ^ (w * us.length) * co.toNat) = 2 ^ w * (value w us + value w ds + (addBlock w u d c).2.toNat) := by rw [h4]
      rw [Nat.mul_add, Nat.mul_add, Nat.mul_add] at h5
      omega

/-! ### Subtraction -/

theorem subBlock_spec {w u d : Nat} (hu : u < 2 ^ w) (hd : d < 2 ^ w) (b : Bool) :
    (subBlock w u d b).1 < 2 ^ w ∧ (subBlock w u d b).1 + d + b.toNat = u + 2 ^ w * (subBlock w u d b).2.toNat := by
  have hp : 0 < 2 ^ w := Nat.pow_pos (by omega)
  unfold subBlock
  generalize 2 ^ w = B at *
  by_cases h : d ≤ u
  · have e : (u + B - d) % B = u - d := by
      rw [show u + B - d = (u - d) + B by omega, Nat.add_mod_right, Nat.mod_eq_of_lt (by omega)]
    rw [e]
    have e1 : ¬ u - d > u := by omega
    cases b
    · simp [e1]; omega
    · by_cases h2 : u = d
      · subst h2
        simp only [if_true, Nat.sub_self, Nat.zero_add, decide_true, Bool.or_true, Bool.toNat_true]
        rw [Nat.mod_eq_of_lt (by omega)]; omega
      · have e3 : (u - d + B - 1) % B = u - d - 1 := by
          rw [show u - d + B - 1 = (u - d - 1) + B by omega, Nat.add_mod_right, Nat.mod_eq_of_lt (by omega)]
        have e4 : ¬ u - d = 0 := by omega
        simp only [if_true, e3, e1, e4, decide_false, Bool.or_false, Bool.toNat_false, Bool.toNat_true]
        omega
  · have e : (u + B - d) % B = u + B - d := Nat.mod_eq_of_lt (by omega)
    rw [e]
    have e1 : u + B - d > u := by omega
    cases b
    · simp [e1]; omega
    · have e3 : (u + B - d + B - 1) % B = u + B - d - 1 := by
        rw [show u + B - d + B - 1 = (u + B - d - 1) + B by omega, Nat.add_mod_right, Nat.mod_eq_of_lt (by omega)]
      simp only [if_true, e3, e1, decide_true, Bool.true_or, Bool.toNat_true]
      omega

/-- The borrow loop: no borrow left means an exact result; a borrow left means that the number was zero. -/
theorem borrowDown_spec {w : Nat} : ∀ (us : List Nat) (b : Bool) (lim : Nat), Blocks w us → lim ≤ us.length → value w us < 2 ^ (w * lim) →
    ∃ r bo, borrowDown w us b lim = some (r, bo) ∧ Blocks w r ∧ r.length = us.length ∧
      (bo = false → value w r + b.toNat = value w us) ∧ (bo = true → value w us < b.toNat) := by
  intro us
  induction us with
  | nil =>
    intro b lim _ hl _
    have : lim = 0 := by simpa using hl
    subst this
    cases b
    · exact ⟨[], false, rfl, blocks_nil w, rfl, fun _ => rfl, by simp⟩
    · exact ⟨[], true, rfl, blocks_nil w, rfl, by simp, fun _ => by simp [value]⟩
  | cons u us ih =>
    intro b lim hb hl hv
    cases b
    · exact ⟨u :: us, false, by cases lim <;> rfl, hb, rfl, fun _ => by simp, by simp⟩
    · cases lim with
      | zero =>
        refine ⟨u :: us, true, rfl, hb, rfl, by simp, fun _ => ?_⟩
        simpa using hv
      | succ lim =>
        obtain ⟨hu, hus⟩ := hb.cons
        have hp : 0 < 2 ^ w := Nat.pow_pos (by omega)
        have hv' : value w us < 2 ^ (w * lim) := by
          simp only [value] at hv
          rw [show w * (lim + 1) = w + w * lim by rw [Nat.mul_add, Nat.mul_one, Nat.add_comm], Nat.pow_add] at hv
          exact Nat.lt_of_mul_lt_mul_left (a := 2 ^ w) (by omega)
        obtain ⟨r, bo, h1, h2, h3, h4, h5⟩ := ih (decide (u = 0)) lim hus (by simpa using hl) hv'
        refine ⟨(u + 2 ^ w - 1) % 2 ^ w :: r, bo, by rw [borrowDown, h1]; rfl, blocks_cons (Nat.mod_lt _ hp) h2, by simp [h3], ?_, ?_⟩
        · intro hbo
          have h6 := congrArg (2 ^ w * ·) (h4 hbo)
          simp only [Nat.mul_add] at h6
          simp only [value, Bool.toNat_true]
          by_cases hu0 : u = 0
          · subst hu0
            simp only [decide_true, Bool.toNat_true, Nat.mul_one] at h6
            rw [Nat.mod_eq_of_lt (by omega)]; omega
          · have e : (u + 2 ^ w - 1) % 2 ^ w = u - 1 := by
              rw [show u + 2 ^ w - 1 = (u - 1) + 2 ^ w by omega, Nat.add_mod_right, Nat.mod_eq_of_lt (by omega)]
            simp only [hu0, decide_false, Bool.toNat_false, Nat.mul_zero] at h6
            rw [e]; omega
        · intro hbo
          have h6 := h5 hbo
          by_cases hu0 : u = 0
          · subst hu0
            simp only [decide_true, Bool.toNat_true] at h6
            have : value w us = 0 := by omega
            simp [value, this]
          · simp [hu0] at h6

/-- Subtraction of `ds` from `us`, whose value fits in `lim` blocks: exact if no borrow is left, otherwise the result would be negative. -/
theorem subBlocks_spec {w : Nat} : ∀ (us ds : List Nat) (b : Bool) (lim : Nat), Blocks w us → Blocks w ds → ds.length ≤ us.length → lim ≤ us.length →
    value w us < 2 ^ (w * lim) →
    ∃ r bo, subBlocks w us ds b lim = some (r, bo) ∧ Blocks w r ∧ r.length = us.length ∧
      (bo = false → value w r + value w ds + b.toNat = value w us) ∧ (bo = true → value w us < value w ds + b.toNat) := by
  intro us
  induction us with
  | nil =>
    intro ds b lim hu _ hl hlim hv
    have : ds = [] := List.length_eq_zero_iff.mp (by simpa using hl)
    subst this
    obtain ⟨r, bo, h1, h2, h3, h4, h5⟩ := borrowDown_spec [] b lim hu hlim hv
    exact ⟨r, bo, by simpa [subBlocks] using h1, h2, h3, by simpa [value] using h4, by simpa [value] using h5⟩
  | cons u us ih =>
    intro ds b lim hu hd hl hlim hv
    rcases ds with _ | ⟨d, ds⟩
    · obtain ⟨r, bo, h1, h2, h3, h4, h5⟩ := borrowDown_spec (u :: us) b lim hu hlim hv
      exact ⟨r, bo, by simpa [subBlocks] using h1, h2, h3, by simpa [value] using h4, by simpa [value] using h5⟩
    · obtain ⟨hu1, hu2⟩ := hu.cons
      obtain ⟨hd1, hd2⟩ := hd.cons
      obtain ⟨b1, b2⟩ := subBlock_spec hu1 hd1 b
      have hv' : value w us < 2 ^ (w * (lim - 1)) := by
        simp only [value] at hv
        cases lim with
        | zero =>
          have hp : 0 < 2 ^ w := Nat.pow_pos (by omega)
          simp only [Nat.mul_zero, Nat.pow_zero] at hv
          have h0 : 2 ^ w * value w us = 0 := by omega
          have : value w us = 0 := by
            rcases Nat.mul_eq_zero.mp h0 with h | h
            · omega
            · exact h
          simp [this]
        | succ lim =>
          rw [show w * (lim + 1) = w + w * lim by rw [Nat.mul_add, Nat.mul_one, Nat.add_comm], Nat.pow_add] at hv
          exact Nat.lt_of_mul_lt_mul_left (a := 2 ^ w) (by rw [Nat.add_sub_cancel]; omega)
      obtain ⟨r, bo, h1, h2, h3, h4, h5⟩ := ih ds (subBlock w u d b).2 (lim - 1) hu2 hd2 (by simpa using hl) (by simp at hlim; omega) hv'
      refine ⟨(subBlock w u d b).1 :: r, bo, by rw [subBlocks, h1]; rfl, blocks_cons b1 h2, by simp [h3], ?_, ?_⟩
      · intro hbo
        have h6 := congrArg (2 ^ w * ·) (h4 hbo)
        simp only [Nat.mul_add] at h6
        simp only [value]
        omega
      · intro hbo
        have h6 : 2 ^ w * (value w us + 1) ≤ 2 ^ w * (value w ds + (subBlock w u d b).2.toNat) := Nat.mul_le_mul_left _ (h5 hbo)
        rw [Nat.mul_add, Nat.mul_add] at h6
        simp only [value]
        omega

/-! ### Shifted blocks -/

/-- The shifted blocks, recursively. -/
def shiftRec (w bits : Nat) : Nat → List Nat → List Nat
  | p, [] => [(if bits = 0 then 0 else p >>> (w - bits)) ||| 0]
  | p, x :: l => ((if bits = 0 then 0 else p >>> (w - bits)) ||| ((x <<< bits) % 2 ^ w)) :: shiftRec w bits x l

theorem shiftedFrom_cons (w bits : Nat) (num : List Nat) (k : Nat) (hk : k ≤ num.length) : shiftedFrom w num k bits =
    shiftRec w bits (if k = 0 then 0 else num.getD (k - 1) 0) (num.drop k) := by
  have key : ∀ (n k : Nat), k ≤ num.length → num.length + 1 - k = n + 1 → (List.range (n + 1)).map (fun i => shiftedBlock w num (k + i) bits) =
      shiftRec w bits (if k = 0 then 0 else num.getD (k - 1) 0) (num.drop k) := by
    intro n
    induction n with
    | zero =>
      intro k hk hn
      have : k = num.length := by omega
      subst this
      rw [List.drop_length, shiftRec]
      simp only [List.range_one, List.map_cons, List.map_nil, Nat.add_zero, shiftedBlock, if_true]
      by_cases h0 : num.length = 0
      · simp [h0]
      · by_cases hb : bits = 0
        · simp [hb]
        · simp [h0, hb]
    | succ n ih =>
      intro k hk hn
      have hlt : k < num.length := by omega
      rw [List.range_succ_eq_map, List.map_cons, List.map_map, List.drop_eq_getElem_cons hlt, shiftRec]
      have e := ih (k + 1) (by omega) (by omega)
      simp only [Nat.add_one_ne_zero, if_false, Nat.add_sub_cancel] at e
      have g : num.getD k 0 = num[k] := by rw [List.getD_eq_getElem?_getD, List.getElem?_eq_getElem hlt]; rfl
      rw [g] at e
      congr 1
      · rw [Nat.add_zero]
        unfold shiftedBlock
        rw [if_neg (show ¬ k = num.length by omega), g]
        by_cases h0 : k = 0
        · simp [h0]
        · by_cases hb : bits = 0
          · simp [hb]
          · simp [h0, hb]
      · rw [← e]
        apply List.map_congr_left
        intro i _
        simp only [Function.comp_apply]
        congr 1
        omega
  obtain ⟨n, hn⟩ : ∃ n, num.length + 1 - k = n + 1 := ⟨num.length - k, by omega⟩
  unfold shiftedFrom
  rw [hn]
  exact key n k hk hn

theorem high_lt {w bits p : Nat} (hb : bits < w) (hp : p < 2 ^ w) : (if bits = 0 then 0 else p >>> (w - bits)) < 2 ^ bits := by
  by_cases h : bits = 0
  · simp [h]
  · rw [if_neg h, Nat.shiftRight_eq_div_pow]
    apply Nat.div_lt_of_lt_mul
    rw [← Nat.pow_add, Nat.sub_add_cancel (by omega)]; exact hp

theorem or_high {w bits h x : Nat} (hb : bits < w) (hh : h < 2 ^ bits) : h ||| ((x <<< bits) % 2 ^ w) = h + (x % 2 ^ (w - bits)) * 2 ^ bits := by
  have e : (x <<< bits) % 2 ^ w = (x % 2 ^ (w - bits)) <<< bits := by
    rw [Nat.shiftLeft_eq, Nat.shiftLeft_eq]
    have : 2 ^ w = 2 ^ (w - bits) * 2 ^ bits := by rw [← Nat.pow_add, Nat.sub_add_cancel (by omega)]
    rw [this, Nat.mul_mod_mul_right]
  rw [e, Nat.or_comm, ← Nat.shiftLeft_add_eq_or_of_lt hh, Nat.shiftLeft_eq, Nat.add_comm]

theorem shiftRec_spec {w bits : Nat} (hb : bits < w) : ∀ (l : List Nat) (p : Nat), p < 2 ^ w → Blocks w l →
    Blocks w (shiftRec w bits p l) ∧ (shiftRec w bits p l).length = l.length + 1 ∧
      value w (shiftRec w bits p l) = (if bits = 0 then 0 else p >>> (w - bits)) + 2 ^ bits * value w l := by
  have hpow : 2 ^ (w - bits) * 2 ^ bits = 2 ^ w := by rw [← Nat.pow_add, Nat.sub_add_cancel (by omega)]
  have hle : 2 ^ bits ≤ 2 ^ w := Nat.pow_le_pow_right (by omega) (by omega)
  intro l
  induction l with
  | nil =>
    intro p hp _
    have := high_lt hb hp
    refine ⟨?_, rfl, ?_⟩
    · intro y hy
      simp only [shiftRec, Nat.or_zero, List.mem_singleton] at hy
      omega
    · simp [shiftRec, value]
  | cons x l ih =>
    intro p hp hl
    obtain ⟨hx, hl'⟩ := hl.cons
    obtain ⟨h1, h2, h3⟩ := ih x hx hl'
    have hh := high_lt hb hp
    simp only [shiftRec, value, h3, or_high hb hh]
    refine ⟨blocks_cons ?_ h1, by simp [h2], ?_⟩
    · have hm : x % 2 ^ (w - bits) < 2 ^ (w - bits) := Nat.mod_lt _ (Nat.pow_pos (by omega))
      have h4 : (x % 2 ^ (w - bits) + 1) * 2 ^ bits ≤ 2 ^ (w - bits) * 2 ^ bits := Nat.mul_le_mul_right _ hm
      rw [hpow, Nat.add_mul] at h4
      omega
    · have hx2 : (if bits = 0 then 0 else x >>> (w - bits)) = x / 2 ^ (w - bits) := by
        by_cases h0 : bits = 0
        · subst h0; simp only [if_true, Nat.sub_zero]; rw [Nat.div_eq_of_lt hx]
        · rw [if_neg h0, Nat.shiftRight_eq_div_pow]
      rw [hx2]
      have e1 : x = 2 ^ (w - bits) * (x / 2 ^ (w - bits)) + x % 2 ^ (w - bits) := (Nat.div_add_mod _ _).symm
      have e2 : 2 ^ bits * x = 2 ^ w * (x / 2 ^ (w - bits)) + x % 2 ^ (w - bits) * 2 ^ bits := by
        have := congrArg (2 ^ bits * ·) e1
        simp only [Nat.mul_add] at this
        rw [this, ← Nat.mul_assoc, Nat.mul_comm (2 ^ bits) (2 ^ (w - bits)), hpow, Nat.mul_comm (2 ^ bits) (x % _)]
      rw [Nat.mul_add, Nat.mul_add, e2]
      have e3 : 2 ^ w * (2 ^ bits * value w l) = 2 ^ bits * (2 ^ w * value w l) := by rw [← Nat.mul_assoc, ← Nat.mul_assoc, Nat.mul_comm (2 ^ w)]
      omega

theorem shiftedFrom_spec {w bits : Nat} (hb : bits < w) {num : List Nat} (hn : Blocks w num) : Blocks w (shiftedFrom w num 0 bits) ∧
    (shiftedFrom w num 0 bits).length = num.length + 1 ∧ value w (shiftedFrom w num 0 bits) = value w num * 2 ^ bits := by
  rw [shiftedFrom_cons w bits num 0 (Nat.zero_le _)]
  simp only [if_true, List.drop_zero]
  obtain ⟨h1, h2, h3⟩ := shiftRec_spec hb num 0 (Nat.pow_pos (by omega)) hn
  refine ⟨h1, h2, ?_⟩
  rw [h3]
  by_cases h0 : bits = 0
  · simp [h0]
  · rw [if_neg h0, Nat.zero_shiftRight, Nat.zero_add, Nat.mul_comm]

end Verif.BigNum

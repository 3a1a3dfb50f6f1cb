import Verif.Time.Spec
import Verif.Time.Calendar

namespace Verif.Time

theorem tmod_zero (a b : Int) : a.tmod b = 0 ↔ a % b = 0 := by
  rw [← Int.dvd_iff_tmod_eq_zero, ← Int.dvd_iff_emod_eq_zero]

theorem leapCheck_iff (n : Int) : leapCheck n = true ↔ Spec.isLeap (n + 1900) := by
  simp only [leapCheck, Spec.isLeap, Bool.or_eq_true, Bool.and_eq_true, decide_eq_true_eq, bne_iff_ne, ne_eq, tmod_zero]

/-- Days from 1 January 1970 to the first day of the year `y + 1900`. -/
def dby (y : Int) : Int :=
  365 * (y - 70) + ((y + 1899) / 4 - 492) - ((y + 1899) / 100 - 19) + ((y + 1899) / 400 - 4)

theorem dby_succ (y : Int) : dby (y + 1) = dby y + yearLength (leapCheck y) := by
  have h := leapCheck_iff y
  cases hl : leapCheck y
  · have : ¬ Spec.isLeap (y + 1900) := by rw [← h, hl]; simp
    simp only [Spec.isLeap] at this
    simp only [dby, yearLength]
    simp
    omega
  · have : Spec.isLeap (y + 1900) := by rw [← h, hl]
    simp only [Spec.isLeap] at this
    simp only [dby, yearLength]
    simp
    omega

theorem dby_cycle (y c : Int) : dby (y + c * 400) = dby y + c * daysInCycle := by
  simp only [dby, daysInCycle]; omega

theorem leap_cycle (y c : Int) : leapCheck (y + c * 400) = leapCheck y := by
  rw [Bool.eq_iff_iff, leapCheck_iff, leapCheck_iff]
  simp only [Spec.isLeap]; omega

theorem dby_lt {y z : Int} (h : y < z) : dby y + yearLength (leapCheck y) ≤ dby z := by
  rw [← dby_succ]
  simp only [dby]; omega

theorem yearLength_pos (b : Bool) : 365 ≤ yearLength b ∧ yearLength b ≤ 366 := by
  cases b <;> decide

theorem yearUp_spec (fuel : Nat) : ∀ (m y : Int), 0 ≤ m → m < dby (y + fuel) - dby y →
    ∃ m' y', yearUp fuel m y = some (m', y') ∧ 0 ≤ m' ∧ m' < yearLength (leapCheck y') ∧
      dby y' + m' = dby y + m := by
  induction fuel with
  | zero => intro m y h1 h2; simp at h2; omega
  | succ fuel ih =>
    intro m y h1 h2
    simp only [yearUp]
    split
    · have e := dby_succ y
      obtain ⟨m', y', a, b, c, d⟩ := ih (m - yearLength (leapCheck y)) (y + 1) (by omega)
        (by
          have : y + 1 + (fuel : Int) = y + ((fuel + 1 : Nat) : Int) := by omega
          rw [this]; omega)
      exact ⟨m', y', a, b, c, by omega⟩
    · exact ⟨m, y, rfl, h1, by omega, rfl⟩

theorem yearDown_spec (fuel : Nat) : ∀ (m y : Int), m < 0 → -m ≤ dby (y + 1) - dby (y + 1 - fuel) →
    ∃ m' y', yearDown fuel m y = some (m', y') ∧ m' < 0 ∧ -yearLength (leapCheck y') ≤ m' ∧
      dby (y' + 1) + m' = dby (y + 1) + m := by
  induction fuel with
  | zero => intro m y h1 h2; simp at h2; omega
  | succ fuel ih =>
    intro m y h1 h2
    simp only [yearDown]
    split
    · have e := dby_succ y
      obtain ⟨m', y', a, b, c, d⟩ := ih (m + yearLength (leapCheck y)) (y - 1) (by omega)
        (by
          have h3 : y - 1 + 1 - (fuel : Int) = y + 1 - ((fuel + 1 : Nat) : Int) := by omega
          have h4 : y - 1 + 1 = y := by omega
          rw [h3, h4]; omega)
      refine ⟨m', y', a, b, c, ?_⟩
      have h4 : y - 1 + 1 = y := by omega
      rw [h4] at d
      omega
    · exact ⟨m, y, rfl, h1, by omega, rfl⟩

/-- The two month tables as functions. -/
def dim (l : Bool) (mon : Nat) : Int := (daysInMonth l mon).getD 0
/-- See `dim`. -/
def cum (l : Bool) (mon : Nat) : Int := (daysBeforeMonth l mon).getD 0

theorem daysInMonth_some {l : Bool} {mon : Nat} (h : mon ≤ 12) : daysInMonth l mon = some (dim l mon) := by
  have : mon = 0 ∨ mon = 1 ∨ mon = 2 ∨ mon = 3 ∨ mon = 4 ∨ mon = 5 ∨ mon = 6 ∨ mon = 7 ∨ mon = 8 ∨ mon = 9 ∨ mon = 10 ∨ mon = 11 ∨ mon = 12 := by omega
  rcases this with h|h|h|h|h|h|h|h|h|h|h|h|h <;> subst h <;> cases l <;> rfl

theorem daysBeforeMonth_some {l : Bool} {mon : Nat} (h : mon ≤ 12) : daysBeforeMonth l mon = some (cum l mon) := by
  have : mon = 0 ∨ mon = 1 ∨ mon = 2 ∨ mon = 3 ∨ mon = 4 ∨ mon = 5 ∨ mon = 6 ∨ mon = 7 ∨ mon = 8 ∨ mon = 9 ∨ mon = 10 ∨ mon = 11 ∨ mon = 12 := by omega
  rcases this with h|h|h|h|h|h|h|h|h|h|h|h|h <;> subst h <;> cases l <;> rfl

theorem cum_succ {l : Bool} {mon : Nat} (h : mon < 12) : cum l (mon + 1) = cum l mon + dim l mon := by
  have : mon = 0 ∨ mon = 1 ∨ mon = 2 ∨ mon = 3 ∨ mon = 4 ∨ mon = 5 ∨ mon = 6 ∨ mon = 7 ∨ mon = 8 ∨ mon = 9 ∨ mon = 10 ∨ mon = 11 := by omega
  rcases this with h|h|h|h|h|h|h|h|h|h|h|h <;> subst h <;> cases l <;> rfl

theorem dim_pos {l : Bool} {mon : Nat} (h : mon < 12) : 28 ≤ dim l mon ∧ dim l mon ≤ 31 := by
  have : mon = 0 ∨ mon = 1 ∨ mon = 2 ∨ mon = 3 ∨ mon = 4 ∨ mon = 5 ∨ mon = 6 ∨ mon = 7 ∨ mon = 8 ∨ mon = 9 ∨ mon = 10 ∨ mon = 11 := by omega
  rcases this with h|h|h|h|h|h|h|h|h|h|h|h <;> subst h <;> cases l <;> decide

theorem cum_zero (l : Bool) : cum l 0 = 0 := by cases l <;> rfl
theorem cum_12 (l : Bool) : cum l 12 = yearLength l := by cases l <;> rfl

theorem dim_eq (y : Int) {mon : Nat} (h : mon < 12) :
    dim (leapCheck y) mon = Spec.monthLength (y + 1900) (mon + 1) := by
  have hl := leapCheck_iff y
  have : mon = 0 ∨ mon = 1 ∨ mon = 2 ∨ mon = 3 ∨ mon = 4 ∨ mon = 5 ∨ mon = 6 ∨ mon = 7 ∨ mon = 8 ∨ mon = 9 ∨ mon = 10 ∨ mon = 11 := by omega
  cases hc : leapCheck y <;> rw [hc] at hl <;> simp at hl <;>
  rcases this with h|h|h|h|h|h|h|h|h|h|h|h <;> subst h <;> simp [Spec.monthLength, dim, daysInMonth, hl]

theorem monthUp_spec (fuel : Nat) : ∀ (l : Bool) (m : Int) (mon : Nat), 12 < mon + fuel → mon ≤ 12 → 0 ≤ m →
    m < yearLength l - cum l mon →
    ∃ m' mon', monthUp fuel l m mon = some (m', mon') ∧ mon' < 12 ∧ 0 ≤ m' ∧ m' < dim l mon' ∧
      cum l mon' + m' = cum l mon + m := by
  induction fuel with
  | zero => intro l m mon h h0; omega
  | succ fuel ih =>
    intro l m mon h h0 h1 h2
    have hlt : mon < 12 := by
      apply Classical.byContradiction; intro hn
      have : mon = 12 := by omega
      subst this
      rw [cum_12] at h2; omega
    have hc := cum_succ (l := l) hlt
    simp only [monthUp, daysInMonth_some (l := l) h0]
    split
    · obtain ⟨m', mon', a, b, c, d, e⟩ := ih l (m - dim l mon) (mon + 1) (by omega) (by omega) (by omega) (by omega)
      exact ⟨m', mon', a, b, c, d, by omega⟩
    · exact ⟨m, mon, rfl, hlt, h1, by omega, rfl⟩

theorem monthDown_spec (fuel : Nat) : ∀ (l : Bool) (m : Int) (mon : Nat), mon < fuel → mon < 12 → m < 0 →
    -m ≤ cum l (mon + 1) →
    ∃ m' mon', monthDown fuel l m mon = some (m', mon') ∧ mon' < 12 ∧ 0 ≤ m' ∧ m' < dim l mon' ∧
      cum l mon' + m' = cum l (mon + 1) + m := by
  induction fuel with
  | zero => intro l m mon h; omega
  | succ fuel ih =>
    intro l m mon h h0 h1 h2
    have hc := cum_succ (l := l) h0
    simp only [monthDown, daysInMonth_some (l := l) (Nat.le_of_lt h0)]
    split
    · cases mon with
      | zero => rw [cum_zero] at hc; simp only [Nat.zero_add] at *; omega
      | succ k =>
        obtain ⟨m', mon', a, b, c, d, e⟩ := ih l (m + dim l (k + 1)) k (by omega) (by omega) (by omega) (by omega)
        exact ⟨m', mon', a, b, c, d, by omega⟩
    · exact ⟨m + dim l mon, mon, rfl, h0, by omega, by omega, by omega⟩

theorem tdiv_tmod (a b : Int) : a = b * a.tdiv b + a.tmod b := by
  have := Int.mul_tdiv_add_tmod a b; omega

/-- The date of a day number, in the form the other proofs use. -/
theorem dateOf_spec {n : Int} (h1 : -200000000000 ≤ n) (h2 : n ≤ 200000000000) :
    ∃ (y : Int) (mon : Nat) (m : Int), dateOf n = some (y, mon, m + 1, cum (leapCheck y) mon + m) ∧ mon < 12 ∧
      0 ≤ m ∧ m < dim (leapCheck y) mon ∧ dby y + cum (leapCheck y) mon + m = n := by
  have hdm := tdiv_tmod n daysInCycle
  have hC : daysInCycle = 146097 := by decide
  unfold dateOf
  split
  · rename_i hn
    have hr0 := Int.tmod_nonneg daysInCycle hn
    have hr1 := Int.tmod_lt_of_pos n (b := daysInCycle) (by omega)
    generalize hq : n.tdiv daysInCycle = q at hdm ⊢
    generalize hr : n.tmod daysInCycle = r at *
    rw [hC] at hdm hr1
    have hf : (fitsInt q && fitsInt (q * 400) && fitsInt (70 + q * 400)) = true := by
      simp [fitsInt]; omega
    rw [if_pos hf]
    have e : n - q * daysInCycle = r := by rw [hC]; omega
    rw [e]
    have hcy := dby_cycle 70 q
    have h70 : dby 70 = 0 := by decide
    obtain ⟨m, y, a, b, c, d⟩ := yearUp_spec 401 r (70 + q * 400) hr0 (by
      have h3 := dby_cycle (70 + q * 400) 1
      have h4 := dby_lt (y := 70 + q * 400 + 1 * 400) (z := 70 + q * 400 + (401 : Nat)) (by omega)
      have := yearLength_pos (leapCheck (70 + q * 400 + 1 * 400))
      rw [hC] at h3
      omega)
    rw [a]
    simp only []
    obtain ⟨m', mon, a', b', c', d', e'⟩ := monthUp_spec 13 (leapCheck y) m 0 (by omega) (by omega) b (by rw [cum_zero]; omega)
    rw [a']
    simp only [dateFields, daysBeforeMonth_some (l := leapCheck y) (Nat.le_of_lt b')]
    rw [cum_zero] at e'
    rw [hC] at hcy
    exact ⟨y, mon, m', rfl, b', c', d', by omega⟩
  · rename_i hn
    have hr0 : n.tmod daysInCycle ≤ 0 := by
      have := Int.tmod_nonneg daysInCycle (a := -n) (by omega)
      rw [Int.neg_tmod] at this; omega
    have hr1 : -daysInCycle < n.tmod daysInCycle := by
      have := Int.tmod_lt_of_pos (-n) (b := daysInCycle) (by omega)
      rw [Int.neg_tmod] at this; omega
    generalize hq : n.tdiv daysInCycle = q at hdm ⊢
    generalize hr : n.tmod daysInCycle = r at *
    rw [hC] at hdm hr1
    have hf : (fitsInt (q + 1) && fitsInt ((q + 1) * 400) && fitsInt (69 + (q + 1) * 400)) = true := by
      simp [fitsInt]; omega
    rw [if_pos hf]
    have e : n - (q + 1) * daysInCycle = r - 146097 := by rw [hC]; omega
    rw [e]
    have hcy := dby_cycle 70 (q + 1)
    have h70 : dby 70 = 0 := by decide
    have e1 : 69 + (q + 1) * 400 + 1 = 70 + (q + 1) * 400 := by omega
    obtain ⟨m, y, a, b, c, d⟩ := yearDown_spec 801 (r - 146097) (69 + (q + 1) * 400) (by omega) (by
      have h3 := dby_cycle (70 + (q + 1) * 400) (-2)
      have h4 := dby_lt (y := 70 + (q + 1) * 400 - (801 : Nat)) (z := 70 + (q + 1) * 400 + (-2) * 400) (by omega)
      have := yearLength_pos (leapCheck (70 + (q + 1) * 400 - (801 : Nat)))
      rw [hC] at h3
      rw [e1]
      omega)
    rw [a]
    simp only []
    have hy := dby_succ y
    obtain ⟨m', mon, a', b', c', d', e'⟩ := monthDown_spec 13 (leapCheck y) m 11 (by omega) (by omega) b (by rw [cum_12]; omega)
    rw [a']
    simp only [dateFields, daysBeforeMonth_some (l := leapCheck y) (Nat.le_of_lt b')]
    rw [cum_12] at e'
    rw [hC] at hcy
    rw [e1] at d
    exact ⟨y, mon, m', rfl, b', c', d', by omega⟩

/-- A day number determines year, month and day. -/
theorem triple_unique {y y' : Int} {mon mon' : Nat} {m m' : Int} (h1 : mon < 12) (h2 : mon' < 12)
    (h3 : 0 ≤ m) (h4 : m < dim (leapCheck y) mon) (h5 : 0 ≤ m') (h6 : m' < dim (leapCheck y') mon')
    (h : dby y + cum (leapCheck y) mon + m = dby y' + cum (leapCheck y') mon' + m') :
    y = y' ∧ mon = mon' ∧ m = m' := by
  have mono : ∀ (l : Bool) (a b : Nat), a < b → b ≤ 12 → cum l a + dim l a ≤ cum l b := by
    intro l a b hab hb
    induction b with
    | zero => omega
    | succ b ih =>
      have e := cum_succ (l := l) (mon := b) (by omega)
      have := dim_pos (l := l) (mon := b) (by omega)
      by_cases hb' : a = b
      · subst hb'; omega
      · have := ih (by omega) (by omega)
        omega
  have bound : ∀ (y : Int) (a : Nat), a < 12 → 0 ≤ cum (leapCheck y) a ∧ cum (leapCheck y) a + dim (leapCheck y) a ≤ yearLength (leapCheck y) := by
    intro y a ha
    have := mono (leapCheck y) a 12 ha (by omega)
    rw [cum_12] at this
    refine ⟨?_, this⟩
    by_cases ha0 : a = 0
    · subst ha0; rw [cum_zero]; omega
    · have := mono (leapCheck y) 0 a (by omega) (by omega)
      have := dim_pos (l := leapCheck y) (mon := 0) (by omega)
      rw [cum_zero] at *
      omega
  have b1 := bound y mon h1
  have b2 := bound y' mon' h2
  have hy : y = y' := by
    apply Classical.byContradiction; intro hne
    rcases Int.lt_or_lt_of_ne hne with hlt | hlt
    · have := dby_lt hlt; omega
    · have := dby_lt hlt; omega
  subst hy
  refine ⟨rfl, ?_⟩
  have hm : mon = mon' := by
    apply Classical.byContradiction; intro hne
    rcases Nat.lt_or_gt_of_ne hne with hlt | hlt
    · have := mono (leapCheck y) mon mon' hlt (by omega); omega
    · have := mono (leapCheck y) mon' mon hlt (by omega); omega
  subst hm
  exact ⟨rfl, by omega⟩

/-- The time-of-day fields. -/
theorem splitTime_spec (t : Int) : ∃ s mi h d, splitTime t = (s, mi, h, d) ∧ 0 ≤ s ∧ s < 60 ∧ 0 ≤ mi ∧ mi < 60 ∧
    0 ≤ h ∧ h < 24 ∧ t = d * 86400 + h * 3600 + mi * 60 + s := by
  have e1 := tdiv_tmod t 60
  have e2 := tdiv_tmod (t.tdiv 60) 60
  have e3 := tdiv_tmod ((t.tdiv 60).tdiv 60) 24
  have k : ∀ (a b : Int), 0 < b → (0 ≤ a → 0 ≤ a.tmod b ∧ 0 ≤ a.tdiv b) ∧ (a ≤ 0 → a.tmod b ≤ 0 ∧ a.tdiv b ≤ 0) ∧ a.tmod b < b ∧ -b < a.tmod b := by
    intro a b hb
    refine ⟨fun ha => ⟨Int.tmod_nonneg b ha, Int.tdiv_nonneg ha (by omega)⟩, fun ha => ?_, Int.tmod_lt_of_pos a hb, ?_⟩
    · have h1 := Int.tmod_nonneg b (a := -a) (by omega)
      have h2 := Int.tdiv_nonneg (a := -a) (b := b) (by omega) (by omega)
      rw [Int.neg_tmod] at h1; rw [Int.neg_tdiv] at h2; omega
    · have := Int.tmod_lt_of_pos (-a) hb
      rw [Int.neg_tmod] at this; omega
  have k1 := k t 60 (by omega)
  have k2 := k (t.tdiv 60) 60 (by omega)
  have k3 := k ((t.tdiv 60).tdiv 60) 24 (by omega)
  unfold splitTime
  generalize t.tmod 60 = a1 at *
  generalize (t.tdiv 60).tmod 60 = a2 at *
  generalize ((t.tdiv 60).tdiv 60).tmod 24 = a3 at *
  generalize ((t.tdiv 60).tdiv 60).tdiv 24 = a4 at *
  generalize (t.tdiv 60).tdiv 60 = a5 at *
  generalize t.tdiv 60 = a6 at *
  simp only [wrap]
  split <;> simp only [] <;> split <;> simp only [] <;> split <;>
    exact ⟨_, _, _, _, rfl, by omega, by omega, by omega, by omega, by omega, by omega, by omega⟩

theorem weekDay_eq (d : Int) : weekDay d = (d + 4) % 7 := by
  have e := tdiv_tmod (d + 4) 7
  have h1 := Int.tmod_lt_of_pos (d + 4) (b := 7) (by omega)
  have h2 := Int.tmod_lt_of_pos (-(d + 4)) (b := 7) (by omega)
  rw [Int.neg_tmod] at h2
  simp only [weekDay]
  split <;> omega

theorem addYears_spec (fuel : Nat) : ∀ (year orig days : Int), year ≤ orig → orig - year < fuel →
    addYears fuel year orig days = some (days + dby orig - dby year) := by
  induction fuel with
  | zero => intro y o d h1 h2; simp at h2; omega
  | succ fuel ih =>
    intro y o d h1 h2
    simp only [addYears]
    split
    · rw [ih _ _ _ (by omega) (by omega)]
      have := dby_succ y
      congr 1; omega
    · have : y = o := by omega
      subst this
      congr 1; omega

theorem subYears_spec (fuel : Nat) : ∀ (year orig days : Int), orig ≤ year → year - orig < fuel →
    subYears fuel year orig days = some (days + dby orig - dby (year + 1)) := by
  induction fuel with
  | zero => intro y o d h1 h2; simp at h2; omega
  | succ fuel ih =>
    intro y o d h1 h2
    have := dby_succ y
    simp only [subYears]
    split
    · rw [ih _ _ _ (by omega) (by omega)]
      have h3 : y - 1 + 1 = y := by omega
      rw [h3]
      congr 1; omega
    · have : y = o := by omega
      subst this
      congr 1; omega

theorem daysOfYear_spec {orig days : Int} (h1 : -400 ≤ orig) (h2 : orig ≤ 500) :
    daysOfYear orig days = some (days + dby orig) := by
  have h70 : dby 70 = 0 := by decide
  simp only [daysOfYear]
  split
  · rw [addYears_spec _ _ _ _ (by omega) (by omega)]; congr 1; omega
  · split
    · rw [subYears_spec _ _ _ _ (by omega) (by omega)]
      have : (69 : Int) + 1 = 70 := by omega
      rw [this]
      congr 1; omega
    · have : orig = 70 := by omega
      subst this; congr 1; omega

theorem cyclesOf_spec (orig : Int) : -400 ≤ orig - cyclesOf orig * 400 ∧ orig - cyclesOf orig * 400 ≤ 500 := by
  have e := tdiv_tmod (orig - 100) 400
  have h1 := Int.tmod_lt_of_pos (orig - 100) (b := 400) (by omega)
  have h2 := Int.tmod_lt_of_pos (-(orig - 100)) (b := 400) (by omega)
  rw [Int.neg_tmod] at h2
  have h3 : 0 ≤ orig - 100 → 0 ≤ (orig - 100).tmod 400 := fun h => Int.tmod_nonneg 400 h
  have h4 : orig - 100 ≤ 0 → (orig - 100).tmod 400 ≤ 0 := fun h => by
    have := Int.tmod_nonneg 400 (a := -(orig - 100)) (by omega)
    rw [Int.neg_tmod] at this; omega
  simp only [cyclesOf]
  split
  · omega
  · split <;> omega

/-- `timegm64` in closed form. -/
theorem timegm64_spec (d : Tm) (h : 0 ≤ d.mon) :
    timegm64 d = some ((dby (d.year + d.mon / 12) + cum (leapCheck (d.year + d.mon / 12)) (d.mon % 12).toNat + (d.mday - 1)) * 86400
      + d.hour * 3600 + d.min * 60 + d.sec) := by
  have e1 : d.mon.tdiv 12 = d.mon / 12 := Int.tdiv_eq_ediv_of_nonneg h
  have e2 : d.mon.tmod 12 = d.mon % 12 := Int.tmod_eq_emod_of_nonneg h
  unfold timegm64
  rw [e1]
  generalize hy : d.year + d.mon / 12 = y
  have hc := cyclesOf_spec y
  rw [daysOfYear_spec hc.1 hc.2]
  generalize hcy : cyclesOf y = c at *
  have hd := dby_cycle (y - c * 400) c
  have hl := leap_cycle (y - c * 400) c
  have e3 : y - c * 400 + c * 400 = y := by omega
  rw [e3] at hd hl
  simp only [finishTimegm, e2]
  have hm : 0 ≤ d.mon % 12 ∧ d.mon % 12 < 12 := by omega
  rw [if_neg (by omega), ← hl, daysBeforeMonth_some (l := leapCheck y) (by omega)]
  simp only []
  generalize cum (leapCheck y) (d.mon % 12).toNat = k
  congr 1
  omega

end Verif.Time

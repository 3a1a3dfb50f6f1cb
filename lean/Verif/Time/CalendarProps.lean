import Verif.Time.CalendarLemmas

/-! C71: the conversion between seconds and calendar fields is the Gregorian calendar. -/

namespace Verif.Time

/-- The calendar date of a broken down time. -/
def Tm.date (t : Tm) : Spec.Date := ⟨t.year + 1900, t.mon + 1, t.mday⟩

theorem next_triple {y : Int} {mon : Nat} {m : Int} (h1 : mon < 12) (h3 : 0 ≤ m) (h4 : m < dim (leapCheck y) mon) :
    ∃ (y' : Int) (mon' : Nat) (m' : Int), mon' < 12 ∧ 0 ≤ m' ∧ m' < dim (leapCheck y') mon' ∧
      (⟨y + 1900, mon + 1, m + 1⟩ : Spec.Date).next = ⟨y' + 1900, mon' + 1, m' + 1⟩ ∧
      dby y' + cum (leapCheck y') mon' + m' = dby y + cum (leapCheck y) mon + m + 1 := by
  have hd := dim_eq y h1
  have hc := cum_succ (l := leapCheck y) h1
  have hp := @dim_pos
  simp only [Spec.Date.next]
  rw [← hd]
  split
  · exact ⟨y, mon, m + 1, h1, by omega, by omega, rfl, by omega⟩
  · split
    · refine ⟨y, mon + 1, 0, by omega, by omega, ?_, ?_, by omega⟩
      · have := hp (l := leapCheck y) (mon := mon + 1) (by omega); omega
      · simp
    · have hm : mon = 11 := by omega
      subst hm
      have := dby_succ y
      rw [cum_12] at hc
      refine ⟨y + 1, 0, 0, by omega, by omega, ?_, ?_, ?_⟩
      · have := hp (l := leapCheck (y + 1)) (mon := 0) (by omega); omega
      · congr 1; omega
      · rw [cum_zero]; omega

/-- The calendar of the specification, computed from the model (used only to show that the
specification can be met). -/
def civil (n : Int) : Spec.Date :=
  match dateOf (n % daysInCycle) with
  | none => ⟨0, 0, 0⟩
  | some (y, mon, d, _) => ⟨y + 1900 + 400 * (n / daysInCycle), mon + 1, d⟩

theorem civil_triple (n : Int) : ∃ (y : Int) (mon : Nat) (m : Int), civil n = ⟨y + 1900, mon + 1, m + 1⟩ ∧ mon < 12 ∧
      0 ≤ m ∧ m < dim (leapCheck y) mon ∧ dby y + cum (leapCheck y) mon + m = n := by
  have hC : daysInCycle = 146097 := by decide
  have hb : 0 ≤ n % daysInCycle ∧ n % daysInCycle < 146097 := by rw [hC]; omega
  obtain ⟨y, mon, m, a, b, c, d, e⟩ := dateOf_spec (n := n % daysInCycle) (by omega) (by omega)
  refine ⟨y + n / daysInCycle * 400, mon, m, ?_, b, c, ?_, ?_⟩
  · unfold civil
    rw [a]
    simp only []
    congr 1; omega
  · rw [leap_cycle]; exact d
  · rw [leap_cycle, dby_cycle]
    have := Int.mul_ediv_add_emod n daysInCycle
    have hcm := Int.mul_comm daysInCycle (n / daysInCycle)
    omega

theorem civil_valid_of {y : Int} {mon : Nat} {m : Int} (h1 : mon < 12) (h3 : 0 ≤ m) (h4 : m < dim (leapCheck y) mon) :
    Spec.Date.Valid ⟨y + 1900, mon + 1, m + 1⟩ := by
  rw [dim_eq y h1] at h4
  exact ⟨by simp only []; omega, by simp only []; omega, by simp only []; omega, by simp only []; omega⟩

theorem civil_isCalendar : Spec.IsCalendar civil := by
  refine ⟨by decide +kernel, ?_, ?_⟩
  · intro n
    obtain ⟨y, mon, m, a, b, c, d, e⟩ := civil_triple n
    obtain ⟨y1, mon1, m1, a1, b1, c1, d1, e1⟩ := civil_triple (n + 1)
    obtain ⟨y2, mon2, m2, a2, b2, c2, d2, e2⟩ := next_triple b c d
    obtain ⟨u1, u2, u3⟩ := triple_unique b1 a2 c1 d1 b2 c2 (by omega)
    rw [a, d2, a1, u1, u2, u3]
  · intro n
    obtain ⟨y, mon, m, a, b, c, d, e⟩ := civil_triple n
    rw [a]
    exact civil_valid_of b c d

/-- The specification of the calendar can be met. -/
theorem calendar_exists : ∃ f, Spec.IsCalendar f := ⟨civil, civil_isCalendar⟩

theorem cal_triple {f : Int → Spec.Date} (hf : Spec.IsCalendar f) (n : Int) :
    ∃ (y : Int) (mon : Nat) (m : Int), f n = ⟨y + 1900, mon + 1, m + 1⟩ ∧ mon < 12 ∧
      0 ≤ m ∧ m < dim (leapCheck y) mon ∧ dby y + cum (leapCheck y) mon + m = n := by
  rw [hf.unique civil_isCalendar n]
  exact civil_triple n

/-- C71.  A time `t` (in seconds, any sign; the bound is far beyond what milliseconds in 64 bits can
hold) is broken down into the date of its day in the Gregorian calendar, the hour, minute and second
within the day, the day of the week counted from Sunday, and the number of days since 1 January of
the same year. -/
theorem gmtime_gregorian {f : Int → Spec.Date} (hf : Spec.IsCalendar f) {t : Int}
    (h1 : -10000000000000000 ≤ t) (h2 : t ≤ 10000000000000000) :
    ∃ b, gmtime64 t = some b ∧ b.date = f (t / 86400) ∧
      0 ≤ b.sec ∧ b.sec < 60 ∧ 0 ≤ b.min ∧ b.min < 60 ∧ 0 ≤ b.hour ∧ b.hour < 24 ∧
      b.hour * 3600 + b.min * 60 + b.sec = t % 86400 ∧
      b.wday = (t / 86400 + 4) % 7 ∧
      0 ≤ b.yday ∧ f (t / 86400 - b.yday) = ⟨(f (t / 86400)).year, 1, 1⟩ := by
  obtain ⟨s, mi, hh, d, hs, s0, s1, m0, m1, h0, h3, ht⟩ := splitTime_spec t
  have hd : d = t / 86400 := by omega
  subst hd
  obtain ⟨y, mon, m, a, b, c, dd, e⟩ := dateOf_spec (n := t / 86400) (by omega) (by omega)
  obtain ⟨y1, mon1, m1', a1, b1, c1, d1, e1⟩ := cal_triple hf (t / 86400)
  obtain ⟨u1, u2, u3⟩ := triple_unique b1 b c1 d1 c dd (by omega)
  subst u1 u2 u3
  refine ⟨_, by simp only [gmtime64, hs, a]; rfl, ?_, s0, s1, m0, m1, h0, h3, by simp only []; omega, weekDay_eq _, ?_, ?_⟩
  · rw [a1]; rfl
  · have : 0 ≤ cum (leapCheck y1) mon1 := by
      have : mon1 = 0 ∨ mon1 = 1 ∨ mon1 = 2 ∨ mon1 = 3 ∨ mon1 = 4 ∨ mon1 = 5 ∨ mon1 = 6 ∨ mon1 = 7 ∨ mon1 = 8 ∨ mon1 = 9 ∨ mon1 = 10 ∨ mon1 = 11 := by omega
      rcases this with h|h|h|h|h|h|h|h|h|h|h|h <;> subst h <;> cases leapCheck y1 <;> decide
    simp only []
    omega
  · simp only []
    rw [a1]
    obtain ⟨y2, mon2, m2, a2, b2, c2, d2, e2⟩ := cal_triple hf (t / 86400 - (cum (leapCheck y1) mon1 + m1'))
    obtain ⟨v1, v2, v3⟩ := triple_unique (y' := y1) (mon' := 0) (m' := 0) b2 (by omega) c2 d2 (by omega)
      (by have := dim_pos (l := leapCheck y1) (mon := 0) (by omega); omega) (by rw [cum_zero]; omega)
    rw [a2, v1, v2, v3]
    rfl

/-- The hypotheses are met, and the theorem says something: 29 February 2000, a Tuesday. -/
example : (gmtime64 951782400).map (fun b => (b.date, b.wday, b.yday)) = some (⟨2000, 2, 29⟩, 2, 59) := by
  decide +kernel
/-- A time before 1970. -/
example : (gmtime64 (-1)).map (fun b => (b.date, b.hour, b.min, b.sec, b.wday)) = some (⟨1969, 12, 31⟩, 23, 59, 59, 3) := by
  decide +kernel

/-- C71.  `timegm64` of any fields with a month from January on is the second counted from the first
of that month: months beyond December carry into the year, days, hours, minutes and seconds outside
their usual range (also negative) are carried over. -/
theorem timegm_gregorian {f : Int → Spec.Date} (hf : Spec.IsCalendar f) (d : Tm) (h : 0 ≤ d.mon) {n : Int}
    (hn : f n = ⟨d.year + 1900 + d.mon / 12, d.mon % 12 + 1, 1⟩) :
    timegm64 d = some ((n + (d.mday - 1)) * 86400 + d.hour * 3600 + d.min * 60 + d.sec) := by
  obtain ⟨y1, mon1, m1, a1, b1, c1, d1, e1⟩ := cal_triple hf n
  rw [hn] at a1
  injection a1 with i1 i2 i3
  rw [timegm64_spec d h]
  have hy : y1 = d.year + d.mon / 12 := by omega
  have hm : (d.mon % 12).toNat = mon1 := by omega
  have h0 : m1 = 0 := by omega
  rw [hm, ← hy]
  congr 1
  omega

/-- Every month has a first day, so the hypothesis of `timegm_gregorian` can always be met. -/
theorem first_of_month {f : Int → Spec.Date} (hf : Spec.IsCalendar f) (y : Int) {mon : Int} (h : 1 ≤ mon) (h2 : mon ≤ 12) :
    ∃ n, f n = ⟨y, mon, 1⟩ := by
  refine ⟨dby (y - 1900) + cum (leapCheck (y - 1900)) (mon - 1).toNat, ?_⟩
  obtain ⟨y1, mon1, m1, a1, b1, c1, d1, e1⟩ := cal_triple hf (dby (y - 1900) + cum (leapCheck (y - 1900)) (mon - 1).toNat)
  obtain ⟨v1, v2, v3⟩ := triple_unique (y' := y - 1900) (mon' := (mon - 1).toNat) (m' := 0) b1 (by omega) c1 d1 (by omega)
      (by have := dim_pos (l := leapCheck (y - 1900)) (mon := (mon - 1).toNat) (by omega); omega) (by omega)
  rw [a1]
  subst v1 v3
  congr 1 <;> omega

/-- C71.  Breaking a time down and putting it together again gives the time back, before and after
1970. -/
theorem timegm_gmtime {t : Int} (h1 : -10000000000000000 ≤ t) (h2 : t ≤ 10000000000000000) :
    ∃ b, gmtime64 t = some b ∧ timegm64 b = some t := by
  obtain ⟨s, mi, hh, d, hs, s0, s1, m0, m1, h0, h3, ht⟩ := splitTime_spec t
  obtain ⟨y, mon, m, a, b, c, dd, e⟩ := dateOf_spec (n := d) (by omega) (by omega)
  refine ⟨_, by simp only [gmtime64, hs, a]; rfl, ?_⟩
  rw [timegm64_spec _ (by simp only []; omega)]
  simp only []
  have hm : ((mon : Int) % 12).toNat = mon := by omega
  have hy : y + (mon : Int) / 12 = y := by omega
  rw [hm, hy]
  congr 1
  omega

/-- C71.  And the other way round: the fields of an existing date and time of day come back. -/
theorem gmtime_timegm {b : Tm} (hv : b.date.Valid) (hy1 : -20000000 ≤ b.year) (hy2 : b.year ≤ 20000000)
    (s0 : 0 ≤ b.sec) (s1 : b.sec < 60) (m0 : 0 ≤ b.min) (m1 : b.min < 60) (h0 : 0 ≤ b.hour) (h3 : b.hour < 24) :
    ∃ t b', timegm64 b = some t ∧ gmtime64 t = some b' ∧ b'.date = b.date ∧
      b'.sec = b.sec ∧ b'.min = b.min ∧ b'.hour = b.hour := by
  obtain ⟨v1, v2, v3, v4⟩ := hv
  simp only [Tm.date] at v1 v2 v3 v4
  have hm : (b.mon % 12).toNat = b.mon.toNat := by omega
  have hy : b.year + b.mon / 12 = b.year := by omega
  rw [timegm64_spec b (by omega), hm, hy]
  obtain ⟨mon, hmon⟩ : ∃ mon : Nat, b.mon = mon := ⟨b.mon.toNat, by omega⟩
  have ht : b.mon.toNat = mon := by omega
  rw [ht]
  have hmd := dim_eq b.year (mon := mon) (by omega)
  rw [hmon, ← hmd] at v4
  have hcb : 0 ≤ cum (leapCheck b.year) mon ∧ cum (leapCheck b.year) mon ≤ 366 := by
    have : mon = 0 ∨ mon = 1 ∨ mon = 2 ∨ mon = 3 ∨ mon = 4 ∨ mon = 5 ∨ mon = 6 ∨ mon = 7 ∨ mon = 8 ∨ mon = 9 ∨ mon = 10 ∨ mon = 11 := by omega
    clear hmd v4 ht hmon
    rcases this with h|h|h|h|h|h|h|h|h|h|h|h <;> subst h <;> cases leapCheck b.year <;> decide
  have hdb : -8000000000 ≤ dby b.year ∧ dby b.year ≤ 8000000000 := by simp only [dby]; omega
  have hdm := dim_pos (l := leapCheck b.year) (mon := mon) (by omega)
  generalize hT : (dby b.year + cum (leapCheck b.year) mon + (b.mday - 1)) * 86400 + b.hour * 3600 + b.min * 60 + b.sec = t
  obtain ⟨s, mi, hh, d, hs, s0', s1', m0', m1', h0', h3', ht'⟩ := splitTime_spec t
  obtain ⟨y', mon', m', a, bb, c, dd, e⟩ := dateOf_spec (n := d) (by omega) (by omega)
  obtain ⟨u1, u2, u3⟩ := triple_unique (y := b.year) (mon := mon) (m := b.mday - 1) (by omega) bb (by omega) (by omega) c dd (by omega)
  refine ⟨t, _, rfl, by simp only [gmtime64, hs, a]; rfl, ?_, ?_, ?_, ?_⟩
  · simp only [Tm.date]
    congr 1 <;> omega
  · simp only []; omega
  · simp only []; omega
  · simp only []; omega

/-- The hypotheses are met by a leap day. -/
example : (⟨1, 2, 3, 29, 1, 124, 0, 0⟩ : Tm).date.Valid := by decide
/-- 31 April does not exist; 31 days from 1 April are 1 May. -/
example : ¬ (⟨1, 2, 3, 31, 3, 124, 0, 0⟩ : Tm).date.Valid ∧
    timegm64 ⟨1, 2, 3, 31, 3, 124, 0, 0⟩ = timegm64 ⟨1, 2, 3, 1, 4, 124, 0, 0⟩ := by decide +kernel

/-- C71.  Time order is the chronological order of the fields: the conversion is strictly
increasing in the day, and within the day in hour, minute and second (they are the digits of
`t % 86400`, see `gmtime_gregorian`). -/
theorem calendar_increasing {f : Int → Spec.Date} (hf : Spec.IsCalendar f) {m n : Int} (h : m < n) :
    (f m).Before (f n) := by
  have step : ∀ k, (f k).Before (f (k + 1)) := by
    intro k
    rw [hf.step]
    simp only [Spec.Date.next]
    have hv := hf.valid k
    split
    · right; exact ⟨rfl, Or.inr ⟨rfl, by simp only []; omega⟩⟩
    · split
      · right; exact ⟨rfl, Or.inl (by simp only []; omega)⟩
      · left; simp only []; omega
  have trans : ∀ a b c : Spec.Date, a.Before b → b.Before c → a.Before c := by
    intro a b c h1 h2
    simp only [Spec.Date.Before] at *
    omega
  obtain ⟨k, hk⟩ : ∃ k : Nat, n = m + 1 + k := ⟨(n - m - 1).toNat, by omega⟩
  subst hk
  clear h
  induction k with
  | zero => simpa using step m
  | succ k ih =>
    have e : m + 1 + ((k + 1 : Nat) : Int) = m + 1 + (k : Int) + 1 := by omega
    rw [e]
    exact trans _ _ _ ih (step _)

/-- C71 is violated for a month before January: `tm_mon = -1` (`Month = 0`, as the text
"00.00.2020" produces) reads before the table. -/
theorem timegm_month_zero_violated : timegm64 ⟨0, 0, 0, 1, -1, 120, 0, 0⟩ = none := by decide +kernel

end Verif.Time

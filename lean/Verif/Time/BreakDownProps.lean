import Verif.Time.CalendarProps

/-! C72: `Time::BreakDown` and `Time::FromBrokenDownTime`. -/

namespace Verif.Time

theorem toS16_id {x : Int} (h1 : -32768 ≤ x) (h2 : x ≤ 32767) : toS16 x = x := by
  simp only [toS16]; omega

theorem tdiv_1000 (x : Int) : (0 ≤ x → x.tdiv 1000 = x / 1000 ∧ x.tmod 1000 = x % 1000) ∧
    (x ≤ 0 → x.tdiv 1000 = -((-x) / 1000) ∧ x.tmod 1000 = -((-x) % 1000)) := by
  refine ⟨fun h => ⟨Int.tdiv_eq_ediv_of_nonneg h, Int.tmod_eq_emod_of_nonneg h⟩, fun h => ?_⟩
  have h1 : (-x).tdiv 1000 = (-x) / 1000 := Int.tdiv_eq_ediv_of_nonneg (by omega)
  have h2 : (-x).tmod 1000 = (-x) % 1000 := Int.tmod_eq_emod_of_nonneg (by omega)
  rw [Int.neg_tdiv] at h1
  rw [Int.neg_tmod] at h2
  omega

/-- The year of a day number in the range of `s16` years. -/
theorem year_range {y : Int} {mon : Nat} {m : Int} (h1 : mon < 12) (h3 : 0 ≤ m) (h4 : m < dim (leapCheck y) mon)
    (hl : -12687794 ≤ dby y + cum (leapCheck y) mon + m) (hu : dby y + cum (leapCheck y) mon + m < 11248738) :
    -32768 ≤ y + 1900 ∧ y + 1900 ≤ 32767 := by
  have hb : 0 ≤ cum (leapCheck y) mon ∧ cum (leapCheck y) mon + dim (leapCheck y) mon ≤ yearLength (leapCheck y) := by
    have : mon = 0 ∨ mon = 1 ∨ mon = 2 ∨ mon = 3 ∨ mon = 4 ∨ mon = 5 ∨ mon = 6 ∨ mon = 7 ∨ mon = 8 ∨ mon = 9 ∨ mon = 10 ∨ mon = 11 := by omega
    clear h3 h4 hl hu
    rcases this with h|h|h|h|h|h|h|h|h|h|h|h <;> subst h <;> cases leapCheck y <;> decide
  have a : dby (-34668) = -12687794 := by decide
  have b : dby 30868 = 11248738 := by decide
  constructor
  · apply Classical.byContradiction; intro hn
    have := dby_lt (y := y) (z := -34668) (by omega)
    omega
  · apply Classical.byContradiction; intro hn
    by_cases hy : y = 30868
    · subst hy; omega
    · have := dby_lt (y := 30868) (z := y) (by omega)
      have := yearLength_pos (leapCheck 30868)
      omega

theorem mkBdt_id {r s mi h w md mo yd y : Int} (h1 : -1000 < r ∧ r < 1000) (h2 : 0 ≤ s ∧ s < 60) (h3 : 0 ≤ mi ∧ mi < 60)
    (h4 : 0 ≤ h ∧ h < 24) (h5 : 0 ≤ w ∧ w < 7) (h6 : 0 ≤ md ∧ md < 400) (h7 : 0 ≤ mo ∧ mo < 400) (h8 : 0 ≤ yd ∧ yd < 400)
    (h9 : -32768 ≤ y ∧ y ≤ 32767) : mkBdt r s mi h w md mo yd y = ⟨r, s, mi, h, w, md, mo, yd, y⟩ := by
  simp only [mkBdt]
  rw [toS16_id (x := r) (by omega) (by omega), toS16_id (x := s) (by omega) (by omega), toS16_id (x := mi) (by omega) (by omega),
    toS16_id (x := h) (by omega) (by omega), toS16_id (x := w) (by omega) (by omega), toS16_id (x := md) (by omega) (by omega),
    toS16_id (x := mo) (by omega) (by omega), toS16_id (x := yd) (by omega) (by omega),
    toS16_id (x := y) (by omega) (by omega)]

theorem cum_bound (l : Bool) {mon : Nat} (b : mon < 12) : 0 ≤ cum l mon ∧ cum l mon + dim l mon ≤ 366 := by
  have : mon = 0 ∨ mon = 1 ∨ mon = 2 ∨ mon = 3 ∨ mon = 4 ∨ mon = 5 ∨ mon = 6 ∨ mon = 7 ∨ mon = 8 ∨ mon = 9 ∨ mon = 10 ∨ mon = 11 := by omega
  rcases this with h|h|h|h|h|h|h|h|h|h|h|h <;> subst h <;> cases l <;> decide

/-- The broken down time in explicit form. -/
theorem brokenDown_spec {t : Int} (h1 : -1096225401600000 ≤ t) (h2 : t < 971890963200000) :
    ∃ (s mi h d y : Int) (mon : Nat) (m : Int),
      brokenDownFromMilliseconds t = .ok ⟨t.tmod 1000, s, mi, h, (d + 4) % 7, m + 1, mon + 1, cum (leapCheck y) mon + m, y + 1900⟩ ∧
      0 ≤ s ∧ s < 60 ∧ 0 ≤ mi ∧ mi < 60 ∧ 0 ≤ h ∧ h < 24 ∧ t.tdiv 1000 = d * 86400 + h * 3600 + mi * 60 + s ∧
      mon < 12 ∧ 0 ≤ m ∧ m < dim (leapCheck y) mon ∧ dby y + cum (leapCheck y) mon + m = d := by
  have ht := tdiv_1000 t
  generalize hq : t.tdiv 1000 = q at *
  generalize hr : t.tmod 1000 = r at *
  have hq1 : -1096225401600 ≤ q ∧ q < 971890963200 ∧ -1000 < r ∧ r < 1000 := by omega
  obtain ⟨s, mi, h, d, hs, s0, s1, m0, m1, h0, h3, hd⟩ := splitTime_spec q
  obtain ⟨y, mon, m, a, b, c, dd, e⟩ := dateOf_spec (n := d) (by omega) (by omega)
  have hy := year_range b c dd (by omega) (by omega)
  have hdm := dim_pos (l := leapCheck y) b
  have hcm := cum_bound (leapCheck y) b
  have hw : 0 ≤ (d + 4) % 7 ∧ (d + 4) % 7 < 7 := by omega
  refine ⟨s, mi, h, d, y, mon, m, ?_, s0, s1, m0, m1, h0, h3, hd, b, c, dd, e⟩
  have hg : gmtime64 q = some ⟨s, mi, h, m + 1, mon, y, weekDay d, cum (leapCheck y) mon + m⟩ := by
    simp only [gmtime64, hs, a]
  have hbd : brokenDownFromMilliseconds t
      = .ok (mkBdt r s mi h (weekDay d) (m + 1) (mon + 1) (cum (leapCheck y) mon + m) (y + 1900)) := by
    unfold brokenDownFromMilliseconds
    rw [hq, hr, hg]
  rw [hbd, weekDay_eq, mkBdt_id hq1.2.2 ⟨s0, s1⟩ ⟨m0, m1⟩ ⟨h0, h3⟩ hw ⟨by omega, by omega⟩ ⟨by omega, by omega⟩ ⟨by omega, by omega⟩ hy]

/-- C72, for times at or after 1 January 1970 local time, and for whole seconds before: the fields are those of the calendar day
and the time of day, each in its range.  `offset` is the time zone in minutes (0 for UTC), `f` the
Gregorian calendar.  The bounds are the years the `Year` field can hold, -32768 to 32767. -/
theorem breakDown_fields_partial {f : Int → Spec.Date} (hf : Spec.IsCalendar f) {offset t : Int}
    (h0 : 0 ≤ t + 60000 * offset ∨ (t + 60000 * offset) % 1000 = 0)
    (h1 : -1096225401600000 ≤ t + 60000 * offset) (h2 : t + 60000 * offset < 971890963200000) :
    ∃ b, breakDown offset t = .ok b ∧
      (⟨b.year, b.month, b.mday⟩ : Spec.Date) = f ((t + 60000 * offset) / 86400000) ∧
      0 ≤ b.ms ∧ b.ms < 1000 ∧ 0 ≤ b.sec ∧ b.sec < 60 ∧ 0 ≤ b.min ∧ b.min < 60 ∧ 0 ≤ b.hour ∧ b.hour < 24 ∧
      b.hour * 3600000 + b.min * 60000 + b.sec * 1000 + b.ms = (t + 60000 * offset) % 86400000 ∧
      b.wday = ((t + 60000 * offset) / 86400000 + 4) % 7 ∧
      f ((t + 60000 * offset) / 86400000 - b.yday) = ⟨b.year, 1, 1⟩ := by
  generalize hu : t + 60000 * offset = u at *
  obtain ⟨s, mi, h, d, y, mon, m, hb, s0, s1, m0, m1, h0', h3, hd, b, c, dd, e⟩ := brokenDown_spec (t := u) h1 h2
  have ht : u.tdiv 1000 = u / 1000 ∧ u.tmod 1000 = u % 1000 := by have := tdiv_1000 u; omega
  have hdd : u / 86400000 = d := by omega
  refine ⟨_, by simp only [breakDown, hu]; exact hb, ?_, ?_, ?_, s0, s1, m0, m1, h0', h3, ?_, ?_, ?_⟩
  · simp only [hdd]
    obtain ⟨y1, mon1, m1', a1, b1, c1, d1, e1⟩ := cal_triple hf d
    obtain ⟨u1, u2, u3⟩ := triple_unique b1 b c1 d1 c dd (by omega)
    rw [a1, u1, u2, u3]
  · simp only []; omega
  · simp only []; omega
  · simp only []; omega
  · simp only [hdd]
  · simp only [hdd]
    obtain ⟨y2, mon2, m2, a2, b2, c2, d2, e2⟩ := cal_triple hf (d - (cum (leapCheck y) mon + m))
    obtain ⟨v1, v2, v3⟩ := triple_unique (y' := y) (mon' := 0) (m' := 0) b2 (by omega) c2 d2 (by omega)
      (by have := dim_pos (l := leapCheck y) (mon := 0) (by omega); omega) (by rw [cum_zero]; omega)
    rw [a2, v1, v2, v3]
    rfl

/-- A concrete case: 2024-02-29 12:34:56.789 in UTC+3. -/
example : breakDown 180 1709199296789 = .ok ⟨789, 56, 34, 12, 4, 29, 2, 59, 2024⟩ := by decide +kernel

/-- C72.  Breaking down and putting together is the identity, in every time zone, for every time in
the years -32768 … 32767 of that zone except those that fall into the last second before
1970 (whole seconds counted towards zero): there `FromBrokenDownTime` throws. -/
theorem breakDown_roundtrip_partial {offset t : Int}
    (h1 : -1096225401600000 ≤ t + 60000 * offset) (h2 : t + 60000 * offset < 971890963200000)
    (h3 : ¬ (-2000 < t + 60000 * offset ∧ t + 60000 * offset ≤ -1000)) :
    ∃ b, breakDown offset t = .ok b ∧ fromBrokenDown offset b = .ok t := by
  generalize hu : t + 60000 * offset = u at *
  obtain ⟨s, mi, h, d, y, mon, m, hb, s0, s1, m0, m1, h0, h3', hd, b, c, dd, e⟩ := brokenDown_spec (t := u) h1 h2
  refine ⟨_, by simp only [breakDown, hu]; exact hb, ?_⟩
  have ht := tdiv_1000 u
  have hm : (((mon : Int) + 1 - 1) % 12).toNat = mon := by omega
  have hy : y + 1900 - 1900 + ((mon : Int) + 1 - 1) / 12 = y := by omega
  simp only [fromBrokenDown, millisecondsFromBrokenDown]
  rw [timegm64_spec _ (by simp only [tmOfBdt]; omega)]
  simp only [tmOfBdt]
  rw [hm, hy]
  have hr : (dby y + cum (leapCheck y) mon + (m + 1 - 1)) * 86400 + h * 3600 + mi * 60 + s = u.tdiv 1000 := by omega
  rw [hr]
  have hne : u.tdiv 1000 ≠ -1 := by omega
  simp only [checkTimegm]
  rw [if_neg hne]
  simp only [Res.bind]
  congr 1
  omega

/-- The exception is real: one second before the epoch does not come back, in any time zone. -/
theorem breakDown_roundtrip_violated (offset : Int) {t : Int} (h : -2000 < t + 60000 * offset ∧ t + 60000 * offset ≤ -1000) :
    ∃ b, breakDown offset t = .ok b ∧ fromBrokenDown offset b = .threw := by
  generalize hu : t + 60000 * offset = u at *
  obtain ⟨s, mi, hh, d, y, mon, m, hb, s0, s1, m0, m1, h0, h3', hd, b, c, dd, e⟩ := brokenDown_spec (t := u) (by omega) (by omega)
  refine ⟨_, by simp only [breakDown, hu]; exact hb, ?_⟩
  have ht := (tdiv_1000 u).2 (by omega)
  have hm : (((mon : Int) + 1 - 1) % 12).toNat = mon := by omega
  have hy : y + 1900 - 1900 + ((mon : Int) + 1 - 1) / 12 = y := by omega
  simp only [fromBrokenDown, millisecondsFromBrokenDown]
  rw [timegm64_spec _ (by simp only [tmOfBdt]; omega)]
  simp only [tmOfBdt]
  rw [hm, hy]
  have hr : (dby y + cum (leapCheck y) mon + (m + 1 - 1)) * 86400 + hh * 3600 + mi * 60 + s = -1 := by omega
  rw [hr]
  rfl

example : (-2000 : Int) < -1500 + 60000 * 0 ∧ (-1500 : Int) + 60000 * 0 ≤ -1000 := by decide

/-- C72 is violated before 1970: the milliseconds are negative and the other fields belong to the
following second, here even to the following year. -/
theorem breakDown_fields_violated : breakDown 0 (-1) = .ok ⟨-1, 0, 0, 0, 4, 1, 1, 0, 1970⟩ := by decide +kernel

/-- C72 is violated after the year 32767: the year is stored in 16 bits, 1 January 32768 comes out
as year -32768 and puts itself together to a time 65536 years earlier. -/
theorem breakDown_year_violated : ∃ b, breakDown 0 971890963200000 = .ok b ∧ b.year = -32768 ∧
    fromBrokenDown 0 b = .ok (-1096225401600000) := by
  refine ⟨⟨0, 0, 0, 0, 1, 1, 1, 0, -32768⟩, ?_, ?_, ?_⟩ <;> decide +kernel

/-- C72.  `FromBrokenDownTime` of fields with a month from January on is the time counted from the
first of that month, everything else being carried over; `-1` seconds excepted. -/
theorem fromBrokenDown_value {f : Int → Spec.Date} (hf : Spec.IsCalendar f) (offset : Int) (b : Bdt) (hm : 1 ≤ b.month)
    {n : Int} (hn : f n = ⟨b.year + (b.month - 1) / 12, (b.month - 1) % 12 + 1, 1⟩) :
    fromBrokenDown offset b =
      if (n + (b.mday - 1)) * 86400 + b.hour * 3600 + b.min * 60 + b.sec = -1 then .threw
      else .ok (((n + (b.mday - 1)) * 86400 + b.hour * 3600 + b.min * 60 + b.sec) * 1000 + b.ms - 60000 * offset) := by
  have h := timegm_gregorian hf (tmOfBdt b) (by simp only [tmOfBdt]; omega) (n := n) (by
    rw [hn]
    simp only [tmOfBdt]
    congr 1; omega)
  simp only [tmOfBdt] at h
  simp only [fromBrokenDown, millisecondsFromBrokenDown, tmOfBdt, h, checkTimegm]
  generalize (n + (b.mday - 1)) * 86400 + b.hour * 3600 + b.min * 60 + b.sec = r
  by_cases hr : r = -1
  · simp [hr, Res.bind]
  · simp [hr, Res.bind]

theorem membersCmp_self (l : List Int) : membersCmp l l = 0 := by
  induction l with
  | nil => rfl
  | cons a l ih => simp [membersCmp, ih]

theorem membersCmp_zero (l : List Int) : ∀ l' : List Int, l.length = l'.length → membersCmp l l' = 0 → l = l' := by
  induction l with
  | nil => intro l' h _; cases l' with | nil => rfl | cons => simp at h
  | cons a l ih =>
    intro l' h hc
    cases l' with
    | nil => simp at h
    | cons b l' =>
      simp only [membersCmp] at hc
      split at hc
      · omega
      · split at hc
        · omega
        · rw [ih l' (by simpa using h) hc]; congr 1; omega

theorem membersCmp_anti (l : List Int) : ∀ l' : List Int, membersCmp l' l = -membersCmp l l' := by
  induction l with
  | nil => intro l'; cases l' <;> rfl
  | cons a l ih =>
    intro l'
    cases l' with
    | nil => rfl
    | cons b l' =>
      have := ih l'
      simp only [membersCmp]
      split <;> split <;> (try split) <;> omega

theorem membersCmp_trans (l : List Int) : ∀ l' l'' : List Int, l.length = l'.length → l'.length = l''.length →
    membersCmp l l' < 0 → membersCmp l' l'' < 0 → membersCmp l l'' < 0 := by
  induction l with
  | nil => intro l' l'' h _ hc; cases l' <;> simp [membersCmp] at hc
  | cons a l ih =>
    intro l' l'' h1 h2 c1 c2
    cases l' with
    | nil => simp at h1
    | cons b l' =>
      cases l'' with
      | nil => simp at h2
      | cons c l'' =>
        have hi := ih l' l'' (by simpa using h1) (by simpa using h2)
        simp only [membersCmp] at c1 c2 ⊢
        by_cases e1 : a < b <;> by_cases e2 : b < a <;> by_cases e3 : b < c <;> by_cases e4 : c < b <;>
          by_cases e5 : a < c <;> by_cases e6 : c < a <;>
          simp only [e1, e2, e3, e4, e5, e6, if_true, if_false] at c1 c2 ⊢ <;> first | omega | exact hi c1 c2

/-- C72.  The comparison of broken down times is a total order … -/
theorem bdtCompare_total_order_partial (a b c : Bdt) :
    (bdtCompare a b = 0 ↔ a = b) ∧ (bdtCompare b a = -bdtCompare a b) ∧
    (bdtCompare a b < 0 → bdtCompare b c < 0 → bdtCompare a c < 0) := by
  refine ⟨⟨fun h => ?_, fun h => ?_⟩, membersCmp_anti _ _, membersCmp_trans _ _ _ rfl rfl⟩
  · have := membersCmp_zero a.members b.members rfl h
    obtain ⟨a1, a2, a3, a4, a5, a6, a7, a8, a9⟩ := a
    simp only [Bdt.members, List.cons.injEq] at this
    obtain ⟨h1, h2, h3, h4, h5, h6, h7, h8, h9, _⟩ := this
    subst_vars
    rfl
  · subst h; exact membersCmp_self _

/-- … but it is not the order of time: 1 January 1970 with one millisecond compares greater than
1 January 2000. -/
theorem bdtCompare_chronological_violated : ∃ t u b c, t < u ∧ breakDown 0 t = .ok b ∧ breakDown 0 u = .ok c ∧
    0 < bdtCompare b c :=
  ⟨1, 946684800000, ⟨1, 0, 0, 0, 4, 1, 1, 0, 1970⟩, ⟨0, 0, 0, 0, 6, 1, 1, 0, 2000⟩, by decide, by decide +kernel,
    by decide +kernel, by decide⟩

theorem dayStart_value {offset u : Int} (h1 : -1096225401600000 ≤ u) (h2 : u < 971890963200000) {b : Bdt}
    (h : brokenDownFromMilliseconds u = .ok b) :
    fromBrokenDown offset b.dayStart = .ok (u.tdiv 1000 / 86400 * 86400000 - 60000 * offset) := by
  obtain ⟨s, mi, hh, d, y, mon, m, hb, s0, s1, m0, m1, h0, h3', hd, b', c, dd, e⟩ := brokenDown_spec (t := u) h1 h2
  have hy := year_range b' c dd (by have := tdiv_1000 u; omega) (by have := tdiv_1000 u; omega)
  rw [h] at hb
  injection hb with hb
  subst hb
  have hdm := dim_pos (l := leapCheck y) b'
  have hm : (((mon : Int) + 1 - 1) % 12).toNat = mon := by omega
  have hy' : y + 1900 - 1900 + ((mon : Int) + 1 - 1) / 12 = y := by omega
  simp only [fromBrokenDown, millisecondsFromBrokenDown, Bdt.dayStart, mkBdt, tmOfBdt]
  rw [toS16_id (x := m + 1) (by omega) (by omega), toS16_id (x := (mon : Int) + 1) (by omega) (by omega),
    toS16_id (x := y + 1900) (by omega) (by omega)]
  rw [timegm64_spec _ (by simp only []; omega)]
  simp only []
  rw [hm, hy']
  have hr : (dby y + cum (leapCheck y) mon + (m + 1 - 1)) * 86400 + toS16 0 * 3600 + toS16 0 * 60 + toS16 0 = d * 86400 := by
    have : toS16 0 = 0 := by decide
    omega
  rw [hr]
  have hne : d * 86400 ≠ -1 := by omega
  simp only [checkTimegm]
  rw [if_neg hne]
  simp only [Res.bind]
  have : u.tdiv 1000 / 86400 = d := by omega
  have : toS16 0 = 0 := by decide
  congr 1
  omega

/-- C72.  `DaysTo` is the difference of the calendar days, for times from 1970 on in the zone and for
whole seconds before. -/
theorem daysTo_partial {offset t e : Int} (ht0 : 0 ≤ t + 60000 * offset ∨ (t + 60000 * offset) % 1000 = 0)
    (he0 : 0 ≤ e + 60000 * offset ∨ (e + 60000 * offset) % 1000 = 0)
    (h1 : -1096225401600000 ≤ t + 60000 * offset) (h2 : t + 60000 * offset < 971890963200000)
    (h3 : -1096225401600000 ≤ e + 60000 * offset) (h4 : e + 60000 * offset < 971890963200000) :
    daysTo offset t e = .ok ((e + 60000 * offset) / 86400000 - (t + 60000 * offset) / 86400000) := by
  obtain ⟨s, mi, hh, d, y, mon, m, hb, _⟩ := brokenDown_spec (t := t + 60000 * offset) (by omega) h2
  obtain ⟨s', mi', hh', d', y', mon', m', hb', _⟩ := brokenDown_spec (t := e + 60000 * offset) (by omega) h4
  have a := dayStart_value (offset := offset) (by omega) h2 hb
  have b := dayStart_value (offset := offset) (by omega) h4 hb'
  simp only [daysTo, daysToBdt, breakDown, hb, hb', Res.bind, a, b]
  have ht : (t + 60000 * offset).tdiv 1000 = (t + 60000 * offset) / 1000 := by have := tdiv_1000 (t + 60000 * offset); omega
  have he : (e + 60000 * offset).tdiv 1000 = (e + 60000 * offset) / 1000 := by have := tdiv_1000 (e + 60000 * offset); omega
  rw [ht, he]
  generalize t + 60000 * offset = u at *
  generalize e + 60000 * offset = w at *
  have e1 : (w / 1000 / 86400 * 86400000 - 60000 * offset - (u / 1000 / 86400 * 86400000 - 60000 * offset)) * 1000
    = 86400000000 * (w / 86400000 - u / 86400000) := by omega
  rw [e1, Int.mul_tdiv_cancel_left _ (by decide)]

/-- Two minutes across midnight are one day, and a day and a minute within it are one day too. -/
example : daysTo 0 86340000 86460000 = .ok 1 ∧ daysTo 0 3600000 90060000 = .ok 1 := by decide +kernel

/-- C72 is violated before 1970: from one millisecond before midnight to midnight are 0 days. -/
theorem daysTo_violated : daysTo 0 (-1) 0 = .ok 0 ∧ daysTo 0 (-86400001) 0 = .ok 1 := by decide +kernel

end Verif.Time

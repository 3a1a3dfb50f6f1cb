import Verif.Time.BreakDownProps
import Verif.Time.Convert

/-! C73: other representations of a time (MJD and BCD, NTP, Windows file time, `time_t`), and
C74: durations and comparison with jitter. -/

namespace Verif.Time

/-- A time of day in binary coded decimal, `0xHHMMSS`. -/
structure BcdTime where
  hour : Nat
  min : Nat
  sec : Nat

/-- The number a `BcdTime` is written as: each decimal digit takes four bits. -/
def BcdTime.code (b : BcdTime) : Nat :=
  (b.hour / 10) * 1048576 + (b.hour % 10) * 65536 + (b.min / 10) * 4096 + (b.min % 10) * 256 + (b.sec / 10) * 16 + b.sec % 10

/-- It is a time of day. -/
def BcdTime.Valid (b : BcdTime) : Prop := b.hour < 24 ∧ b.min < 60 ∧ b.sec < 60

theorem code_bytes (h m s : Nat) : BcdTime.code ⟨h, m, s⟩
    = (h / 10 * 16 + h % 10) * 65536 + (m / 10 * 16 + m % 10) * 256 + (s / 10 * 16 + s % 10) := by
  simp only [BcdTime.code]; omega

/-- C73.  A BCD coded duration means its hours, minutes and seconds (up to 99 each). -/
theorem bcd_duration (b : BcdTime) (h1 : b.hour < 100) (h2 : b.min < 100) (h3 : b.sec < 100) :
    fromBcdDuration b.code = (b.hour * 3600 + b.min * 60 + b.sec) * 1000 := by
  obtain ⟨h, m, s⟩ := b
  simp only at h1 h2 h3
  have hc := code_bytes h m s
  have g : ∀ x : Nat, x < 100 → x / 10 * 16 + x % 10 < 256 := by intro x hx; omega
  have g1 := g h h1
  have g2 := g m h2
  have g3 := g s h3
  have e1 : BcdTime.code ⟨h, m, s⟩ / 65536 % 256 = h / 10 * 16 + h % 10 := by
    rw [hc]; generalize h / 10 * 16 + h % 10 = x at *; generalize m / 10 * 16 + m % 10 = y at *
    generalize s / 10 * 16 + s % 10 = z at *; omega
  have e2 : BcdTime.code ⟨h, m, s⟩ / 256 % 256 = m / 10 * 16 + m % 10 := by
    rw [hc]; generalize h / 10 * 16 + h % 10 = x at *; generalize m / 10 * 16 + m % 10 = y at *
    generalize s / 10 * 16 + s % 10 = z at *; omega
  have e3 : BcdTime.code ⟨h, m, s⟩ % 256 = s / 10 * 16 + s % 10 := by
    rw [hc]; generalize h / 10 * 16 + h % 10 = x at *; generalize m / 10 * 16 + m % 10 = y at *
    generalize s / 10 * 16 + s % 10 = z at *; omega
  have f : ∀ x : Nat, x < 100 → bcdValue (x / 10 * 16 + x % 10) = x := by
    intro x hx; simp only [bcdValue]; omega
  simp only [fromBcdDuration, e1, e2, e3, f h h1, f m h2, f s h3]
  omega

theorem bcd_code {h m s : Nat} (h1 : h < 100) (h2 : m < 100) (h3 : s < 100) :
    bcdEncode h * 65536 + bcdEncode m * 256 + bcdEncode s = BcdTime.code ⟨h, m, s⟩ := by
  have g : ∀ x : Nat, x < 100 → (x / 10 * 16 + x % 10) % 256 = x / 10 * 16 + x % 10 := by intro x hx; omega
  rw [code_bytes]
  simp only [bcdEncode, g h h1, g m h2, g s h3]

example : fromBcdDuration 0x123456 = (12 * 3600 + 34 * 60 + 56) * 1000 := by decide

theorem tdiv_day (t : Int) : (0 ≤ t → t.tdiv 86400000 = t / 86400000) ∧ (t ≤ 0 → t.tdiv 86400000 = -((-t) / 86400000)) := by
  refine ⟨fun h => Int.tdiv_eq_ediv_of_nonneg h, fun h => ?_⟩
  have h1 : (-t).tdiv 86400000 = (-t) / 86400000 := Int.tdiv_eq_ediv_of_nonneg (by omega)
  rw [Int.neg_tdiv] at h1
  omega

/-- C73, from 1970 on (and at midnight before): the modified Julian day is the number of the calendar
day, day 0 of the Unix era being MJD 40587. -/
theorem mjd_partial {t : Int} (h0 : 0 ≤ t ∨ t % 86400000 = 0) (h1 : -100000000000000000 ≤ t) (h2 : t ≤ 100000000000000000) :
    getMjd t = 40587 + t / 86400000 := by
  have := tdiv_day t
  simp only [getMjd, toS32]
  omega

/-- C73 is violated before 1970: one millisecond before the epoch belongs to MJD 40586. -/
theorem mjd_violated : getMjd (-1) = 40587 ∧ (-1 : Int) / 86400000 + 40587 = 40586 := by decide

/-- C73.  From 1970 on, day number and BCD time together restore the time to the second, and the
BCD time is the time of day. -/
theorem mjd_bcd_roundtrip {t : Int} (h1 : 0 ≤ t) (h2 : t < 971890963200000) :
    ∃ b : BcdTime, b.Valid ∧ getBcdTime 0 t = .ok b.code ∧
      mjdToEpoch (getMjd t) b.code = t - t % 1000 := by
  obtain ⟨s, mi, h, d, y, mon, m, hb, s0, s1, m0, m1, h0, h3, hd, b, c, dd, e⟩ := brokenDown_spec (t := t) (by omega) h2
  have ht := (tdiv_1000 t).1 h1
  refine ⟨⟨h.toNat, mi.toNat, s.toNat⟩, ⟨by simp only []; omega, by simp only []; omega, by simp only []; omega⟩, ?_, ?_⟩
  · simp only [getBcdTime, breakDown]
    have e0 : t + 60000 * 0 = t := by omega
    rw [e0, hb]
    simp only [Res.bind]
    have e1 : h % 256 = h := by omega
    have e2 : mi % 256 = mi := by omega
    have e3 : s % 256 = s := by omega
    rw [e1, e2, e3, bcd_code (by omega) (by omega) (by omega)]
  · rw [mjd_partial (Or.inl h1) (by omega) (by omega)]
    simp only [mjdToEpoch]
    rw [bcd_duration _ (by simp only []; omega) (by simp only []; omega) (by simp only []; omega)]
    simp only []
    have hD : t / 86400000 = d := by omega
    rw [hD]
    omega

/-- C73.  The other way round: a day from MJD 40587 on and a BCD time of day come back. -/
theorem bcd_mjd_roundtrip {mjd : Int} {b : BcdTime} (h1 : 40587 ≤ mjd) (h2 : mjd < 40587 + 11248738) (hv : b.Valid) :
    getMjd (mjdToEpoch mjd b.code) = mjd ∧ getBcdTime 0 (mjdToEpoch mjd b.code) = .ok b.code := by
  obtain ⟨v1, v2, v3⟩ := hv
  have hm : mjdToEpoch mjd b.code = (mjd - 40587) * 86400000 + (b.hour * 3600 + b.min * 60 + b.sec) * 1000 := by
    simp only [mjdToEpoch]
    rw [bcd_duration b (by omega) (by omega) (by omega)]
    omega
  rw [hm]
  generalize ht : (mjd - 40587) * 86400000 + ((b.hour : Int) * 3600 + b.min * 60 + b.sec) * 1000 = t
  constructor
  · rw [mjd_partial (by omega) (by omega) (by omega)]; omega
  · obtain ⟨s, mi, h, d, y, mon, m, hb, s0, s1, m0, m1, h0, h3, hd, bb, c, dd, e⟩ := brokenDown_spec (t := t) (by omega) (by omega)
    have ht' := (tdiv_1000 t).1 (by omega)
    simp only [getBcdTime, breakDown]
    have e0 : t + 60000 * 0 = t := by omega
    rw [e0, hb]
    simp only [Res.bind]
    have e1 : h = b.hour ∧ mi = b.min ∧ s = b.sec := by omega
    obtain ⟨e1, e2, e3⟩ := e1
    subst e1 e2 e3
    have f1 : ((b.hour : Int) % 256).toNat = b.hour := by omega
    have f2 : ((b.min : Int) % 256).toNat = b.min := by omega
    have f3 : ((b.sec : Int) % 256).toNat = b.sec := by omega
    rw [f1, f2, f3, bcd_code (by omega) (by omega) (by omega)]

example : (⟨23, 59, 58⟩ : BcdTime).Valid ∧ (⟨23, 59, 58⟩ : BcdTime).code = 0x235958 := by
  refine ⟨⟨by decide, by decide, by decide⟩, by decide⟩

/-- C73.  NTP seconds (counted from 1900) and back: the time without its milliseconds (cut towards
1970), whatever the sign. -/
theorem ntp_seconds_roundtrip {t : Int} (h1 : -9000000000000000000 ≤ t) (h2 : t ≤ 9000000000000000000) :
    fromNtp (toNtp t) = t.tdiv 1000 * 1000 := by
  have := tdiv_1000 t
  simp only [fromNtp, toNtp, toU64, toS64]
  generalize t.tdiv 1000 = q at *
  omega

/-- C73.  For a time from 1900 on the NTP value is the number of seconds since 1900. -/
theorem ntp_seconds_value {t : Int} (h0 : 0 ≤ t ∨ t % 1000 = 0) (h1 : -2208988800000 ≤ t) (h2 : t ≤ 9000000000000000000) :
    toNtp t = t / 1000 + 2208988800 := by
  have := tdiv_1000 t
  simp only [toNtp, toU64]
  generalize t.tdiv 1000 = q at *
  omega

/-- C73.  Fixed point NTP timestamps: a whole second in the years 1900 to 2036 is converted to the
number of seconds since 1900 in the upper half, and comes back. -/
theorem ntp_fixed_partial {s : Int} (h1 : -2208988800 ≤ s) (h2 : s < 2085978496) :
    ntpFromTime (s * 1000) = (s + 2208988800) * 4294967296 ∧ ntpToTime (ntpFromTime (s * 1000)) = s * 1000 := by
  have hs : (s * 1000).tdiv 1000 = s := by have := tdiv_1000 (s * 1000); omega
  have hf : toU32 (toU64 (toU64 s * 4294967296)) = 0 := by simp only [toU32, toU64]; omega
  have h : ntpFromTime (s * 1000) = (s + 2208988800) * 4294967296 := by
    simp only [ntpFromTime, hs, hf]
    simp only [toU32]
    omega
  refine ⟨h, ?_⟩
  rw [h]
  have e1 : (s + 2208988800) * 4294967296 / 4294967296 = s + 2208988800 := by omega
  simp only [ntpToTime, e1]
  have e2 : toU32 (s + 2208988800) = s + 2208988800 := by simp only [toU32]; omega
  rw [e2]
  have e3 : toU32 ((s + 2208988800) * 4294967296 - (s + 2208988800)) / 4294967296 = 0 := by
    simp only [toU32]
    omega
  rw [e3]
  simp only [toU64, toS64]
  omega

/-- The hypotheses cover the present. -/
example : ntpFromTime 1709199296000 = 16828489731896508416 := by decide

/-- C73 is violated below the second: the fraction of an NTP timestamp (here one half, `2^31/2^32`) is
ignored in both directions. -/
theorem ntp_fraction_violated : ntpToTime (ntpFromTime 1709199296500) = 1709199296000 ∧
    ntpToTime (16828489731896508416 + 2147483648) = 1709199296000 := by decide

/-- C73 is violated from 7 February 2036 on: the seconds overflow 32 bits and the time comes back
as 1900. -/
theorem ntp_era_violated : ntpToTime (ntpFromTime 2085978496000) = -2208988800000 := by decide

/-- C73.  A Windows file time (100 ns units since 1601) of a whole second is converted exactly. -/
theorem windows_partial {s : Int} (h1 : 0 ≤ s) (h2 : s ≤ 1800000000000) :
    fromWindows (s * 10000000) = (s - 11644473600) * 1000 := by
  simp only [fromWindows, toU64, toS64]
  omega

/-- C73 is violated for every other file time: the 100 ns units are added as if they were
milliseconds.  Half a second after the epoch becomes 83 minutes after it … -/
theorem windows_violated : fromWindows (116444736000000000 + 5000000) = 5000000 := by decide

/-- … and a later file time can give an earlier time. -/
theorem windows_order_violated : ∃ a b, a < b ∧ fromWindows b < fromWindows a :=
  ⟨116444736000000000 + 5000000, 116444736000000000 + 10000000, by decide, by decide⟩

/-- C73.  `time_t` in the range of 32 bits comes back. -/
theorem timeT_roundtrip {s : Int} (h1 : 0 ≤ s) (h2 : s < 4294967296) : toTimeT (fromTimeT s) = s := by
  have := tdiv_1000 (s * 1000)
  simp only [toTimeT, fromTimeT, toU32]
  generalize (s * 1000).tdiv 1000 = q at *
  omega

/-- C73 is violated before 1970 and after 2106: `ToTimeT` returns 32 unsigned bits. -/
theorem timeT_violated : toTimeT (fromTimeT (-1)) = 4294967295 ∧ toTimeT (fromTimeT 4294967296) = 0 := by decide

/-! ### C74 -/

theorem tdiv_nest {a b c : Int} (hb : 0 ≤ b) : (a.tdiv b).tdiv c = a.tdiv (b * c) := by
  rcases Int.le_total 0 a with h | h
  · have h1 : a.tdiv b = a / b := Int.tdiv_eq_ediv_of_nonneg h
    have h2 : a.tdiv (b * c) = a / (b * c) := Int.tdiv_eq_ediv_of_nonneg h
    have h3 : (a / b).tdiv c = a / b / c := Int.tdiv_eq_ediv_of_nonneg (Int.ediv_nonneg h hb)
    rw [h1, h2, h3, Int.ediv_ediv_of_nonneg hb]
  · have e : a = -(-a) := by omega
    have h' : 0 ≤ -a := by omega
    generalize -a = x at *
    subst e
    have h1 : x.tdiv b = x / b := Int.tdiv_eq_ediv_of_nonneg h'
    have h2 : x.tdiv (b * c) = x / (b * c) := Int.tdiv_eq_ediv_of_nonneg h'
    have h3 : (x / b).tdiv c = x / b / c := Int.tdiv_eq_ediv_of_nonneg (Int.ediv_nonneg h' hb)
    rw [Int.neg_tdiv, Int.neg_tdiv, Int.neg_tdiv, h1, h2, h3, Int.ediv_ediv_of_nonneg hb]

/-- C74.  The getters cut the exact length towards zero (the nested divisions lose nothing). -/
theorem dur_getters (us : Int) : durMs us = us.tdiv 1000 ∧ durSeconds us = us.tdiv 1000000 ∧
    durMinutes us = us.tdiv 60000000 ∧ durHours us = us.tdiv 3600000000 ∧ durDays us = us.tdiv 86400000000 := by
  refine ⟨rfl, ?_, ?_, ?_, ?_⟩ <;>
    simp only [durDays, durHours, durMinutes, durSeconds, durMs] <;>
    simp only [tdiv_nest (show (0 : Int) ≤ 1000 by decide), tdiv_nest (show (0 : Int) ≤ 1000 * 1000 by decide),
      tdiv_nest (show (0 : Int) ≤ 1000 * 1000 * 60 by decide), tdiv_nest (show (0 : Int) ≤ 1000 * 1000 * 60 * 60 by decide)] <;> rfl

/-- C74.  `RoundToMilliseconds` gives a whole number of milliseconds that is nearest; halves go away
from zero. -/
theorem round_nearest (us : Int) : roundToMs us % 1000 = 0 ∧ -500 ≤ roundToMs us - us ∧ roundToMs us - us ≤ 500 ∧
    (us % 1000 = 500 → 0 < us → roundToMs us = us + 500) ∧ (us % 1000 = 500 → us < 0 → roundToMs us = us - 500) := by
  have h := tdiv_1000 us
  simp only [roundToMs, durMs, absI]
  generalize us.tdiv 1000 = q at *
  generalize us.tmod 1000 = r at *
  repeat' split <;> omega

/-- C74.  `Absolute` is the absolute value; the one value whose absolute value does not fit throws. -/
theorem absolute_spec {us : Int} (h1 : -9223372036854775808 ≤ us) :
    durAbsolute us = if us = -9223372036854775808 then .threw else .ok (us.natAbs : Int) := by
  simp only [durAbsolute, absI]
  by_cases h : us = -9223372036854775808
  · subst h; rfl
  · rw [if_pos (by omega), if_neg h]
    refine congrArg Res.ok ?_
    split <;> omega

/-- C74.  Adding the difference of two times to the earlier gives the later, and a difference of
times is a whole number of milliseconds. -/
theorem time_diff_add (a b : Int) : timeAdd b (timeDiff a b) = a ∧ timeSub a (timeDiff a b) = b ∧
    timeDiff a b % 1000 = 0 := by
  have h := tdiv_1000 (1000 * (a - b))
  simp only [timeAdd, timeSub, timeDiff, durMs]
  generalize (1000 * (a - b)).tdiv 1000 = q at *
  omega

/-- C74, partial: adding durations one after the other is adding their sum when they are whole
milliseconds … -/
theorem time_add_assoc_partial (t d e : Int) (hd : d % 1000 = 0) (he : e % 1000 = 0) :
    timeAdd (timeAdd t d) e = timeAdd t (d + e) ∧ timeSub (timeAdd t d) d = t := by
  have h := tdiv_1000 d
  have h' := tdiv_1000 e
  have h2 := tdiv_1000 (d + e)
  simp only [timeAdd, timeSub, durMs]
  generalize d.tdiv 1000 = q at *
  generalize e.tdiv 1000 = q' at *
  generalize (d + e).tdiv 1000 = q'' at *
  omega

/-- … but not in general: every addition drops the microseconds. -/
theorem time_add_assoc_violated : timeAdd (timeAdd 0 600) 600 = 0 ∧ timeAdd 0 (600 + 600) = 1 := by decide

/-- C74.  Comparison with an allowed jitter: the result is 0 exactly within the jitter, otherwise
it is the order of the times; swapping the arguments negates it. -/
theorem timeCmp_spec (j a b : Int) :
    (timeCmp j a b = 0 ↔ (-j ≤ 1000 * (a - b) ∧ 1000 * (a - b) ≤ j) ∨ a = b) ∧
    (timeCmp j a b = -1 ↔ j < 1000 * (b - a) ∧ a < b) ∧ timeCmp j b a = -timeCmp j a b := by
  have key : ∀ x y : Int, (x = y → timeCmp j x y = 0) ∧ (x < y → 1000 * (y - x) ≤ j → timeCmp j x y = 0 ∧ timeCmp j y x = 0) ∧
      (x < y → j < 1000 * (y - x) → timeCmp j x y = -1 ∧ timeCmp j y x = 1) := by
    intro x y
    refine ⟨fun h => ?_, fun h h' => ?_, fun h h' => ?_⟩
    · subst h; simp [timeCmp]
    · have h2 : ¬ x > y := by omega
      constructor
      · simp [timeCmp, timeDiff, h2, h']
      · have : y > x := h
        simp [timeCmp, timeDiff, this, h']
    · have h2 : ¬ x > y := by omega
      have h3 : ¬ (1000 * (y - x) ≤ j) := by omega
      constructor
      · simp [timeCmp, timeDiff, h2, h3, h]
      · have h4 : y > x := h
        have h5 : ¬ y < x := by omega
        simp [timeCmp, timeDiff, h4, h3, h5]
  have k1 := key a b
  have k2 := key b a
  rcases Int.lt_trichotomy a b with h | h | h
  · rcases Int.lt_or_le j (1000 * (b - a)) with h' | h'
    · have v := k1.2.2 h h'; rw [v.1, v.2]; omega
    · have v := k1.2.1 h h'; rw [v.1, v.2]; omega
  · subst h; rw [k1.1 rfl]; omega
  · rcases Int.lt_or_le j (1000 * (a - b)) with h' | h'
    · have v := k2.2.2 h h'; rw [v.1, v.2]; omega
    · have v := k2.2.1 h h'; rw [v.1, v.2]; omega

/-- C74.  Without jitter it is a total order. -/
theorem timeCmp_order_partial (a b c : Int) :
    (timeCmp 0 a b = 0 ↔ a = b) ∧ (timeCmp 0 a b ≤ 0 → timeCmp 0 b c ≤ 0 → timeCmp 0 a c ≤ 0) := by
  have h1 := timeCmp_spec 0 a b
  have h2 := timeCmp_spec 0 b c
  have h3 := timeCmp_spec 0 a c
  have hk : ∀ x y : Int, timeCmp 0 x y = -1 ∨ timeCmp 0 x y = 0 ∨ timeCmp 0 x y = 1 := by
    intro x y; simp only [timeCmp]; (repeat' split) <;> simp
  have k1 := hk a b
  have k2 := hk b c
  have k3 := hk a c
  generalize timeCmp 0 a b = x at *
  generalize timeCmp 0 b c = y at *
  generalize timeCmp 0 a c = z at *
  omega

/-- C74 is violated with any jitter of at least a millisecond: the equivalence it induces is not
transitive, so it is no strict weak order and cannot be used to sort or as the order of a map. -/
theorem timeCmp_transitive_violated {j : Int} (h : 1000 ≤ j) :
    ∃ a b c, timeCmp j a b = 0 ∧ timeCmp j b c = 0 ∧ timeCmp j a c ≠ 0 := by
  refine ⟨0, j / 1000, 2 * (j / 1000), ?_, ?_, ?_⟩
  · rw [(timeCmp_spec j 0 (j / 1000)).1]; left; omega
  · rw [(timeCmp_spec j (j / 1000) (2 * (j / 1000))).1]; left; omega
  · rw [ne_eq, (timeCmp_spec j 0 (2 * (j / 1000))).1]; omega

end Verif.Time

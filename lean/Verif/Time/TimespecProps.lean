import Verif.Time.Timespec

/-
C149.  Sums of times are exact; a sleep is never too short.
-/
namespace Verif.Time.Timespec

/-- In the range POSIX wants. -/
def Normal (t : Timespec) : Prop := 0 ≤ t.nsec ∧ t.nsec < 1000000000
/-- The time in nanoseconds. -/
def ns (t : Timespec) : Int := t.sec * 1000000000 + t.nsec

theorem checked_some {a b : Int} (ha : -9223372036854775808 ≤ a ∧ a ≤ 9223372036854775807) (hb : -9223372036854775808 ≤ b ∧ b ≤ 9223372036854775807) :
    checked a b = some ⟨a, b⟩ := by
  have : (fits a && fits b) = true := by simp [fits, ha, hb]
  simp [checked, this]

/-- A deadline is the starting time plus the interval, exactly, and a time POSIX accepts, for every interval (negative ones as well)
but the least one. -/
theorem deadline_exact (t : Timespec) (us : Int) (hn : Normal t) (hs : -4611686018427387904 ≤ t.sec ∧ t.sec ≤ 4611686018427387904)
    (hu : -9223372036854775808 < us ∧ us ≤ 9223372036854775807) :
    ∃ r, addDuration t us = some r ∧ Normal r ∧ ns r = ns t + us * 1000 := by
  obtain ⟨sec, nsec⟩ := t
  simp only [Normal] at hn
  simp only [] at hs
  have carried : ∀ s n : Int, -4611700000000000000 ≤ s ∧ s ≤ 4611700000000000000 → -1000000000 < n ∧ n < 2000000000 →
      ∃ r, carry ⟨s, n⟩ = some r ∧ Normal r ∧ ns r = s * 1000000000 + n := by
    intro s n h1 h2
    simp only [carry, ge_iff_le]
    split
    · rw [Int.tdiv_eq_ediv_of_nonneg (by omega), Int.tmod_eq_emod_of_nonneg (by omega)]
      rw [checked_some (by omega) (by omega)]
      exact ⟨_, rfl, by simp only [Normal]; omega, by simp only [ns]; omega⟩
    · split
      · have e1 : n.tdiv 1000000000 = 0 := by
          have : n = -(-n) := by omega
          rw [this, Int.neg_tdiv, Int.tdiv_eq_ediv_of_nonneg (by omega)]; omega
        have e2 : n.tmod 1000000000 = n := by
          have h' := Int.mul_tdiv_add_tmod n 1000000000
          rw [e1] at h'; omega
        rw [e1, e2, checked_some (by omega) (by omega)]
        exact ⟨_, rfl, by simp only [Normal]; omega, by simp only [ns]; omega⟩
      · exact ⟨_, rfl, by simp only [Normal]; omega, by simp only [ns]⟩
  simp only [addDuration]
  rw [if_neg (by omega)]
  split
  · rw [checked_some (by omega) (by omega)]
    obtain ⟨r, h1, h2, h3⟩ := carried sec (nsec + us * 1000) (by omega) (by omega)
    exact ⟨r, h1, h2, by rw [h3]; simp only [ns]; omega⟩
  · have key : us.tdiv 1000000 * 1000000 + us.tmod 1000000 = us := by
      have := Int.mul_tdiv_add_tmod us 1000000; omega
    have hm : -1000000 < us.tmod 1000000 ∧ us.tmod 1000000 < 1000000 := by
      rcases Int.le_total 0 us with h | h
      · rw [Int.tmod_eq_emod_of_nonneg h]; omega
      · have : us = -(-us) := by omega
        rw [this, Int.neg_tmod, Int.tmod_eq_emod_of_nonneg (by omega)]; omega
    generalize us.tdiv 1000000 = q at *
    generalize us.tmod 1000000 = m at *
    rw [checked_some (by omega) (by omega)]
    obtain ⟨r, h1, h2, h3⟩ := carried (sec + q) (nsec + m * 1000) (by omega) (by omega)
    exact ⟨r, h1, h2, by rw [h3]; simp only [ns]; omega⟩

example : addDuration ⟨5, 999999999⟩ 1 = some ⟨6, 999⟩ ∧ addDuration ⟨5, 0⟩ (-1) = some ⟨4, 999999000⟩ ∧ addDuration ⟨5, 1⟩ (-3000001) = some ⟨1, 999999001⟩ := by decide

/-- The least interval is not added at all: taking its absolute value overflows. -/
theorem least_interval_violated : ∃ t, Normal t ∧ addDuration t (-9223372036854775808) = none := ⟨⟨0, 0⟩, ⟨by decide, by decide⟩, by decide⟩

theorem reduce_exact (k : Nat) : ∀ t : Timespec, 0 ≤ t.nsec → t.nsec ≤ 9223372036854775807 → t.nsec < ((k : Int) + 1) * 1000000000 →
    -9223372036854775808 ≤ t.sec → t.sec + k ≤ 9223372036854775807 → ∃ r, reduce k t = some r ∧ Normal r ∧ ns r = ns t := by
  induction k with
  | zero => intro t h0 _ hk _ _; exact ⟨t, rfl, by simp only [Normal]; omega, rfl⟩
  | succ k ih =>
    intro t h0 h1 hk hs hs'
    simp only [reduce, ge_iff_le]
    split
    · rw [checked_some (by omega) (by omega)]
      obtain ⟨r, e, h2, h3⟩ := ih ⟨t.sec + 1, t.nsec - 1000000000⟩ (by simp only []; omega) (by simp only []; omega) (by simp only []; omega) (by simp only []; omega) (by simp only []; omega)
      exact ⟨r, e, h2, by rw [h3]; simp only [ns]; omega⟩
    · exact ⟨t, rfl, by simp only [Normal]; omega, rfl⟩

/-- The sum of two times is exact and a time POSIX accepts, even if the nanoseconds of the two were not in their range. -/
theorem sum_exact (a b : Timespec) (ha : 0 ≤ a.nsec ∧ a.nsec ≤ 4611686018427387903) (hb : 0 ≤ b.nsec ∧ b.nsec ≤ 4611686018427387903)
    (hs : -4611686018427387904 ≤ a.sec + b.sec ∧ a.sec + b.sec ≤ 4611686018427387904) :
    ∃ r, add a b = some r ∧ Normal r ∧ ns r = ns a + ns b := by
  simp only [add]
  rw [checked_some (by omega) (by omega)]
  simp only [Option.bind_some]
  obtain ⟨r, e, h2, h3⟩ := reduce_exact ((a.nsec + b.nsec).toNat / 1000000000) ⟨a.sec + b.sec, a.nsec + b.nsec⟩ (by simp only []; omega) (by simp only []; omega)
    (by simp only []; omega) (by simp only []; omega) (by simp only []; omega)
  exact ⟨r, e, h2, by rw [h3]; simp only [ns]; omega⟩

example : add ⟨1, 700000000⟩ ⟨2, 800000000⟩ = some ⟨4, 500000000⟩ ∧ add ⟨0, 3000000001⟩ ⟨0, 1⟩ = some ⟨3, 2⟩ := by decide

/-- So is the difference. -/
theorem difference_exact (a b : Timespec) (ha : Normal a) (hb : Normal b) (hs : -4611686018427387903 ≤ a.sec ∧ a.sec ≤ 4611686018427387903)
    (hs' : -4611686018427387903 ≤ b.sec ∧ b.sec ≤ 4611686018427387903) : ∃ r, sub a b = some r ∧ Normal r ∧ ns r = ns a - ns b := by
  simp only [Normal] at ha hb
  simp only [sub]
  split
  · rw [checked_some (by omega) (by omega)]
    simp only [Option.bind_some]
    rw [checked_some (by omega) (by omega)]
    exact ⟨_, rfl, by simp only [Normal]; omega, by simp only [ns]; omega⟩
  · rw [checked_some (by omega) (by omega)]
    exact ⟨_, rfl, by simp only [Normal]; omega, by simp only [ns]; omega⟩

example : sub ⟨3, 1⟩ ⟨1, 2⟩ = some ⟨1, 999999999⟩ := by decide

theorem nap_enough : ∀ (es : List Nap) (sec nsec before t : Nat), nap sec nsec before es = .returned t → before + (sec * 1000000000 + nsec) ≤ t
  | [], _, _, _, _, h => by simp [nap] at h
  | .whole more :: es, sec, nsec, before, t, h => by simp only [nap, Slept.returned.injEq] at h; omega
  | .woken slept :: es, sec, nsec, before, t, h => by
    simp only [nap, rest] at h
    have := nap_enough es _ _ _ t h
    have h2 := Nat.div_add_mod (sec * 1000000000 + nsec - slept) 1000000000
    omega
  | .error :: es, _, _, _, _, h => by simp [nap] at h

/-- However many signals come, a sleep that returns has taken at least the time asked for; it does not begin anew after a signal either. -/
theorem sleep_enough (us : Nat) (es : List Nap) (t : Nat) (h : sleepMicroseconds us es = .returned t) : us * 1000 ≤ t := by
  have := nap_enough es _ _ _ t h
  omega

theorem nap_total : ∀ (ws : List Nat) (sec nsec before more : Nat), ws.foldl (· + ·) 0 ≤ sec * 1000000000 + nsec →
    nap sec nsec before (ws.map .woken ++ [.whole more]) = .returned (before + (sec * 1000000000 + nsec) + more)
  | [], _, _, _, _, _ => rfl
  | w :: ws, sec, nsec, before, more, h => by
    have hf : ∀ (l : List Nat) (a : Nat), l.foldl (· + ·) a = a + l.foldl (· + ·) 0 := by
      intro l
      induction l with
      | nil => simp
      | cons x l ih => intro a; rw [List.foldl_cons, List.foldl_cons, ih, ih (0 + x)]; omega
    rw [List.foldl_cons, hf] at h
    simp only [List.map_cons, List.cons_append, nap, rest]
    have h2 := Nat.div_add_mod (sec * 1000000000 + nsec - w) 1000000000
    rw [nap_total ws _ _ _ more (by omega)]
    congr 1
    omega

/-- Signals do not make it longer: with any number of them the whole is the time asked for and what the last call sleeps too long. -/
theorem sleep_exact (us : Nat) (ws : List Nat) (more : Nat) (h : ws.foldl (· + ·) 0 ≤ us * 1000) :
    sleepMicroseconds us (ws.map .woken ++ [.whole more]) = .returned (us * 1000 + more) := by
  have e : us / 1000000 * 1000000000 + us % 1000000 * 1000 = us * 1000 := by omega
  have := nap_total ws (us / 1000000) (us % 1000000 * 1000) 0 more (by rw [e]; exact h)
  rw [e, Nat.zero_add] at this
  exact this

example : sleepMicroseconds 2500000 [.woken 1000000007, .woken 5, .whole 60] = .returned 2500000060 := by decide

/-- The interfaces in milliseconds and in (not negative) durations ask for that time. -/
theorem sleep_units (es : List Nap) : (∀ ms, ms < 4294967296 → sleepMilliseconds ms es = sleepMicroseconds (ms * 1000) es) ∧
    (∀ us : Int, 0 ≤ us → us ≤ 9223372036854775807 → sleep us es = sleepMicroseconds us.toNat es) := by
  refine ⟨fun ms h => ?_, fun us h h' => ?_⟩
  · have e : 1000 * ms % 18446744073709551616 = ms * 1000 := by omega
    show sleepMicroseconds (1000 * ms % 18446744073709551616) es = _
    exact congrArg (fun n => sleepMicroseconds n es) e
  · rw [sleep, Int.emod_eq_of_lt h (by omega)]

/-- A negative duration does not return at once: every sleep of a negative duration that returns took at least 292000 years (of 365 days; in nanoseconds). -/
theorem sleep_negative_violated (us : Int) (h : us < 0) (h' : -9223372036854775808 ≤ us) (es : List Nap) (t : Nat) (hr : sleep us es = .returned t) :
    9208512000000000000000 ≤ t := by
  have h1 := sleep_enough _ es t hr
  have e : us % 18446744073709551616 = us + 18446744073709551616 := by omega
  rw [e] at h1
  generalize hx : (us + 18446744073709551616).toNat = x at h1
  have hy : 9223372036854775808 ≤ x := by omega
  clear hr e hx h h'
  omega

example : sleep (-1) [.whole 0] = .returned 18446744073709551615000 := by decide

end Verif.Time.Timespec

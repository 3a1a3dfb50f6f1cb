import Verif.Thread.Sleep

/-
C194.  Sleeping.
-/
namespace Verif.Thread.Sleep

/-- Specification.  The kernel: when `nanosleep` is broken off, less was slept than was asked for. -/
def Kernel : Nat → List Event → Prop
  | _, [] => True
  | _, .over _ :: _ => True
  | left, .error _ slept :: es => slept ≤ left ∧ Kernel (left - slept) es

theorem request_nanos (us : Nat) : (request us).nanos = us * 1000 := by
  simp only [request, Timespec.nanos]
  omega

theorem remaining_nanos (r : Timespec) (n : Nat) : (remaining r n).nanos = r.nanos - n := by
  simp only [remaining, Timespec.nanos]
  omega

theorem loop_error (r : Timespec) (total e k : Nat) (es : List Event) : loop r total (.error e k :: es) = if e ≠ 4 then .threw e (total + k) else loop (remaining r k) (total + k) es := rfl

section
attribute [local irreducible] Timespec.nanos remaining

theorem loop_spec : ∀ (es : List Event) (r : Timespec) (total : Nat), Kernel r.nanos es →
    match loop r total es with
    | .ok n => total + r.nanos ≤ n ∧ ∃ late, Event.over late ∈ es ∧ n = total + r.nanos + late
    | .threw e n => e ≠ 4 ∧ (∃ k, Event.error e k ∈ es) ∧ n ≤ total + r.nanos
    | .asleep n => n ≤ total + r.nanos
  | [], r, total, _ => by simp only [loop]; omega
  | .over late :: es, r, total, _ => by simp only [loop]; exact ⟨by omega, late, by simp, rfl⟩
  | .error e k :: es, r, total, hk => by
    obtain ⟨h1, h2⟩ := hk
    rw [loop_error]
    split
    · next n hn =>
      split at hn
      · cases hn
      · have ih := loop_spec es (remaining r k) (total + k) (by rw [remaining_nanos]; exact h2)
        rw [hn, remaining_nanos] at ih
        obtain ⟨i1, late, i2, i3⟩ := ih
        exact ⟨by omega, late, by simp [i2], by omega⟩
    · next e' n hn =>
      split at hn
      · next he => cases hn; exact ⟨he, ⟨k, by simp⟩, by omega⟩
      · have ih := loop_spec es (remaining r k) (total + k) (by rw [remaining_nanos]; exact h2)
        rw [hn, remaining_nanos] at ih
        obtain ⟨i1, ⟨k', i2⟩, i3⟩ := ih
        exact ⟨i1, ⟨k', by simp [i2]⟩, by omega⟩
    · next n hn =>
      split at hn
      · cases hn
      · have ih := loop_spec es (remaining r k) (total + k) (by rw [remaining_nanos]; exact h2)
        rw [hn, remaining_nanos] at ih
        omega

end

/-- C194.  However often signals break it off, when SleepMicroseconds returns the time has passed, late by no more than the last call of the system was late. -/
theorem slept {us n : Nat} {es : List Event} (hk : Kernel (us * 1000) es) (h : sleepMicroseconds us es = .ok n) : ∃ late, Event.over late ∈ es ∧ n = us * 1000 + late := by
  have := loop_spec es (request us) 0 (by rw [request_nanos]; exact hk)
  rw [sleepMicroseconds] at h
  rw [h, request_nanos] at this
  obtain ⟨_, late, h1, h2⟩ := this
  exact ⟨late, h1, by omega⟩

/-- C194.  The same for milliseconds, of 32 bits. -/
theorem slept_ms {ms n : Nat} {es : List Event} (hms : ms < 2 ^ 32) (hk : Kernel (ms * 1000000) es) (h : sleep ms es = .ok n) : ∃ late, Event.over late ∈ es ∧ n = ms * 1000000 + late := by
  have e : 1000 * ms % 2 ^ 64 = 1000 * ms := Nat.mod_eq_of_lt (by omega)
  rw [sleep, e] at h
  have e' : 1000 * ms * 1000 = ms * 1000000 := by omega
  obtain ⟨late, h1, h2⟩ := slept (us := 1000 * ms) (by rw [e']; exact hk) h
  exact ⟨late, h1, by rw [h2, e']⟩

/-- C194.  It throws only an error of the system other than being broken off by a signal. -/
theorem throws {us e n : Nat} {es : List Event} (hk : Kernel (us * 1000) es) (h : sleepMicroseconds us es = .threw e n) : e ≠ 4 ∧ ∃ k, Event.error e k ∈ es := by
  have := loop_spec es (request us) 0 (by rw [request_nanos]; exact hk)
  rw [sleepMicroseconds] at h
  rw [h] at this
  exact ⟨this.1, this.2.1⟩

/-- C194.  Signals alone do not make it throw or return: it sleeps on, and never longer than it should. -/
theorem signals_only {us : Nat} (ks : List Nat) (hk : Kernel (us * 1000) (ks.map (.error 4))) : ∃ n, sleepMicroseconds us (ks.map (.error 4)) = .asleep n ∧ n ≤ us * 1000 := by
  have := loop_spec (ks.map (.error 4)) (request us) 0 (by rw [request_nanos]; exact hk)
  rw [request_nanos] at this
  rw [sleepMicroseconds]
  split at this
  · obtain ⟨_, late, h, _⟩ := this
    obtain ⟨k, _, h⟩ := List.mem_map.mp h
    cases h
  · obtain ⟨h1, ⟨k, h⟩, _⟩ := this
    obtain ⟨k', _, h⟩ := List.mem_map.mp h
    cases h
    exact absurd rfl h1
  · next n hn => exact ⟨n, hn, by omega⟩

/-- C194.  What is asked of the system is valid: the part below a second is below a second, the seconds fit 63 bits. -/
theorem valid {us : Nat} (h : us < 2 ^ 64) : (request us).nsec < 1000000000 ∧ (request us).sec < 2 ^ 63 ∧ ∀ r k, (remaining r k).nsec < 1000000000 := by
  refine ⟨?_, ?_, fun r k => Nat.mod_lt _ (by omega)⟩
  · simp only [request]; omega
  · simp only [request]; omega

/-- 2.5 s, broken off twice. -/
example : sleepMicroseconds 2500000 [.error 4 1700000000, .error 4 1, .over 52] = .ok 2500000052 ∧ Kernel (2500000 * 1000) [.error 4 1700000000, .error 4 1, .over 52] := by
  refine ⟨by decide +kernel, by simp [Kernel]⟩

end Verif.Thread.Sleep

/-
Specification vocabulary for the calendar properties: the proleptic Gregorian calendar given by its
rule for the next day.  Nothing here refers to the model of the code.
-/
namespace Verif.Time.Spec

/-- Gregorian rule: every fourth year is a leap year, except centuries not divisible by 400. -/
def isLeap (year : Int) : Prop := year % 400 = 0 ∨ (year % 4 = 0 ∧ year % 100 ≠ 0)

instance (y : Int) : Decidable (isLeap y) := by unfold isLeap; infer_instance

/-- A calendar date; `month` and `day` count from 1. -/
structure Date where
  year : Int
  month : Int
  day : Int
deriving DecidableEq, Repr

/-- Number of days of a month. -/
def monthLength (year month : Int) : Int :=
  if month = 2 then (if isLeap year then 29 else 28)
  else if month = 4 ∨ month = 6 ∨ month = 9 ∨ month = 11 then 30
  else 31

/-- The date exists in the calendar. -/
def Date.Valid (d : Date) : Prop :=
  1 ≤ d.month ∧ d.month ≤ 12 ∧ 1 ≤ d.day ∧ d.day ≤ monthLength d.year d.month

instance (d : Date) : Decidable d.Valid := by unfold Date.Valid; infer_instance

/-- The day after. -/
def Date.next (d : Date) : Date :=
  if d.day < monthLength d.year d.month then { d with day := d.day + 1 }
  else if d.month < 12 then { d with month := d.month + 1, day := 1 }
  else { year := d.year + 1, month := 1, day := 1 }

/-- Chronological order of dates. -/
def Date.Before (a b : Date) : Prop :=
  a.year < b.year ∨ (a.year = b.year ∧ (a.month < b.month ∨ (a.month = b.month ∧ a.day < b.day)))

/-- `f` numbers the days of the calendar, day 0 being 1 January 1970. -/
structure IsCalendar (f : Int → Date) : Prop where
  epoch : f 0 = ⟨1970, 1, 1⟩
  step : ∀ n, f (n + 1) = (f n).next
  valid : ∀ n, (f n).Valid

theorem next_injective {a b : Date} (ha : a.Valid) (hb : b.Valid) (h : a.next = b.next) : a = b := by
  obtain ⟨y, m, d⟩ := a
  obtain ⟨y', m', d'⟩ := b
  obtain ⟨a1, a2, a3, a4⟩ := ha
  obtain ⟨b1, b2, b3, b4⟩ := hb
  simp only [Date.next] at *
  by_cases c1 : d < monthLength y m <;> by_cases c2 : d' < monthLength y' m' <;>
    by_cases c3 : m < 12 <;> by_cases c4 : m' < 12 <;>
    simp only [c1, c2, c3, c4, if_true, if_false, Date.mk.injEq] at h ⊢
  all_goals first
    | (refine ⟨by omega, by omega, by omega⟩)
    | (exfalso; omega)
    | (have e1 : y = y' := by omega
       have e2 : m = m' := by omega
       subst e1 e2
       exact ⟨rfl, rfl, by omega⟩)

/-- There is at most one way to number the days: the specification determines the calendar. -/
theorem IsCalendar.unique {f g : Int → Date} (hf : IsCalendar f) (hg : IsCalendar g) (n : Int) :
    f n = g n := by
  have up : ∀ k : Nat, f k = g k := by
    intro k
    induction k with
    | zero => exact hf.epoch.trans hg.epoch.symm
    | succ k ih =>
      have : ((k + 1 : Nat) : Int) = (k : Int) + 1 := by omega
      rw [this, hf.step, hg.step, ih]
  have down : ∀ k : Nat, f (-(k : Int)) = g (-(k : Int)) := by
    intro k
    induction k with
    | zero => exact up 0
    | succ k ih =>
      have e : -((k + 1 : Nat) : Int) + 1 = -(k : Int) := by omega
      apply next_injective (hf.valid _) (hg.valid _)
      rw [← hf.step, ← hg.step, e, ih]
  rcases Int.lt_or_le n 0 with h | h
  · have := down n.natAbs
    have e : -((n.natAbs : Nat) : Int) = n := by omega
    rwa [e] at this
  · have := up n.natAbs
    have e : ((n.natAbs : Nat) : Int) = n := by omega
    rwa [e] at this

end Verif.Time.Spec

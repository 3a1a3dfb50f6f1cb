import Verif.Thread.MutexLock

/-
C195.  Locking a mutex, with reports about how long it takes.
-/
namespace Verif.Thread.MutexLock

/-- Specification.  The last answer for the mutex itself: got, or an error; before it, it was owned by others `n` times. -/
inductive Last : Answer → Nat → Option Nat → Prop
  | got : Last .got 0 none
  | error {c} : Last (.error c) 0 (some c)
  | owned {locks next n r} (h : Last next n r) : Last (.owned locks next) (n + 1) r

/-- Specification.  An error with this code is among all answers, those for reports too. -/
def Mentions (c : Nat) : Answer → Prop
  | .error d => c = d
  | .owned a b => Mentions c a ∨ Mentions c b
  | .both a b => Mentions c a ∨ Mentions c b
  | _ => False

mutual
theorem wait_quiet : ∀ (a : Answer) (k : Int) (f : Nat), 0 < k → (wait k f a).counter = k ∧ (wait k f a).reports = [] ∧ (wait k f a).nested = 0
  | .got, _, _, _ => ⟨rfl, rfl, rfl⟩
  | .error _, _, _, _ => ⟨rfl, rfl, rfl⟩
  | .none, _, _, _ => ⟨rfl, rfl, rfl⟩
  | .both _ _, _, _, _ => ⟨rfl, rfl, rfl⟩
  | .owned _ n, k, f, h => by
    have := wait_quiet n (k + 1 - 1) (f + 3) (by omega)
    simp only [wait, if_pos h]
    exact ⟨by rw [this.1]; omega, this.2⟩

theorem report_quiet : ∀ (a : Answer) (k : Int), 0 < k → (report k a).counter = k ∧ (report k a).reports = [] ∧ (report k a).nested = 0
  | .got, _, _ => ⟨rfl, rfl, rfl⟩
  | .error _, _, _ => ⟨rfl, rfl, rfl⟩
  | .none, _, _ => ⟨rfl, rfl, rfl⟩
  | .owned _ n, k, h => wait_quiet n k 0 h
  | .both a b, k, h => by
    have ha := report_quiet a k h
    have hb := report_quiet b k h
    simp only [report]
    split
    · exact ha
    · rw [ha.1, ha.2.1, ha.2.2, hb.2.1, hb.2.2]; exact ⟨hb.1, rfl, rfl⟩
end

theorem wait_owned {k : Int} {f : Nat} {l n : Answer} (h : k = 0) : wait k f (.owned l n) =
    match (report 1 l).threw with
    | some c => ⟨some c, 0, [], 0⟩
    | .none => ⟨(wait 0 (f + 3) n).threw, (wait 0 (f + 3) n).counter, (f + 3) :: (wait 0 (f + 3) n).reports, (wait 0 (f + 3) n).nested⟩ := by
  subst h
  obtain ⟨h1, h2, h3⟩ := report_quiet l 1 (by omega)
  simp only [wait]
  rw [if_neg (by omega)]
  show (match (report 1 l).threw with | some c => _ | .none => _) = _
  cases (report 1 l).threw with
  | some c =>
    show (⟨some c, (report 1 l).counter - 1, [], (report 1 l).reports.length + (report 1 l).nested⟩ : Out) = _
    rw [h1, h2, h3]
    rfl
  | none =>
    show (⟨(wait ((report 1 l).counter - 1) (f + 3) n).threw, (wait ((report 1 l).counter - 1) (f + 3) n).counter, (f + 3) :: (wait ((report 1 l).counter - 1) (f + 3) n).reports,
      (report 1 l).reports.length + (report 1 l).nested + (wait ((report 1 l).counter - 1) (f + 3) n).nested⟩ : Out) = _
    rw [h1, h2, h3]
    show (⟨(wait 0 (f + 3) n).threw, (wait 0 (f + 3) n).counter, (f + 3) :: (wait 0 (f + 3) n).reports, 0 + (wait 0 (f + 3) n).nested⟩ : Out) = _
    rw [Nat.zero_add]

theorem wait_zero {a : Answer} {n : Nat} {r : Option Nat} (h : Last a n r) : ∀ f, (wait 0 f a).counter = 0 ∧ (wait 0 f a).nested = 0 ∧
    ((wait 0 f a).threw = none → r = none ∧ (wait 0 f a).reports = (List.range n).map (fun i => f + 3 * (i + 1))) := by
  induction h with
  | got => intro f; exact ⟨rfl, rfl, fun _ => ⟨rfl, rfl⟩⟩
  | error => intro f; exact ⟨rfl, rfl, fun h => by cases h⟩
  | owned h ih =>
    rename_i locks next n r
    intro f
    rw [wait_owned rfl]
    split
    · exact ⟨rfl, rfl, fun h => by cases h⟩
    · obtain ⟨h1, h2, h3⟩ := ih (f + 3)
      refine ⟨h1, h2, fun ht => ?_⟩
      obtain ⟨h4, h5⟩ := h3 ht
      refine ⟨h4, ?_⟩
      show (f + 3) :: (wait 0 (f + 3) next).reports = _
      rw [h5, List.range_succ_eq_map, List.map_cons, List.map_map]
      congr 1
      apply List.map_congr_left
      intro i _
      simp only [Function.comp]
      omega

mutual
theorem wait_mentions : ∀ (a : Answer) (k : Int) (f c : Nat), (wait k f a).threw = some c → Mentions c a
  | .got, _, _, _, h => by cases h
  | .error _, _, _, _, h => by cases h; rfl
  | .none, _, _, _, h => by cases h
  | .both _ _, _, _, _, h => by cases h
  | .owned l n, k, f, c, h => by
    simp only [wait] at h
    split at h
    · exact .inr (wait_mentions n _ _ c h)
    · split at h
      · next hr => cases h; exact .inl (report_mentions l _ c hr)
      · exact .inr (wait_mentions n _ _ c h)

theorem report_mentions : ∀ (a : Answer) (k : Int) (c : Nat), (report k a).threw = some c → Mentions c a
  | .got, _, _, h => by cases h
  | .error _, _, _, h => by cases h; rfl
  | .none, _, _, h => by cases h
  | .owned _ n, k, c, h => .inr (wait_mentions n k 0 c h)
  | .both a b, k, c, h => by
    simp only [report] at h
    split at h
    · next hr => cases h; exact .inl (report_mentions a k c hr)
    · exact .inr (report_mentions b _ c h)
end

/-- C195.  When Lock returns, the mutex has been got, by the last answer of the system; there was a report each three seconds, naming the seconds waited so far. -/
theorem locked {locks a : Answer} {n : Nat} {r : Option Nat} (h : Last a n r) (ht : (lock 0 (.owned locks a)).threw = none) :
    r = none ∧ (lock 0 (.owned locks a)).reports = (List.range n).map (fun i => 3 * (i + 1)) := by
  obtain ⟨h1, h2⟩ := (wait_zero h 0).2.2 ht
  refine ⟨h1, ?_⟩
  show (wait 0 0 a).reports = _
  rw [h2]
  apply List.map_congr_left
  intro i _
  omega

/-- C195.  While a report is made, no further reports are made, whatever mutexes it waits for and however long; and the thread may report again afterwards. -/
theorem no_reports_within {a : Answer} {n : Nat} {r : Option Nat} (h : Last a n r) : (lock 0 a).nested = 0 ∧ (lock 0 a).counter = 0 := by
  cases h with
  | got => exact ⟨rfl, rfl⟩
  | error => exact ⟨rfl, rfl⟩
  | owned h => exact ⟨(wait_zero h 0).2.1, (wait_zero h 0).1⟩

/-- C195.  It throws only what the system answered, for this mutex or one of a report. -/
theorem throws {a : Answer} {c : Nat} (h : (lock 0 a).threw = some c) : Mentions c a := by
  cases a with
  | got => cases h
  | error => cases h; rfl
  | owned l n => exact .inr (wait_mentions n _ _ c h)
  | both => cases h
  | none => cases h

/-- C195.  However long others own the mutex, Lock does not give up: if the system never answers with an error, it returns when the mutex is got. -/
theorem returns {a : Answer} (hn : ∀ c, ¬Mentions c a) : (lock 0 a).threw = none := by
  cases h : (lock 0 a).threw with
  | none => rfl
  | some c => exact absurd (throws h) (hn c)

/-- C195.  An error for the mutex itself is never passed over: Lock throws. -/
theorem error_throws {a : Answer} {n c : Nat} (h : Last a n (some c)) : (lock 0 a).threw ≠ none := by
  intro ht
  cases h with
  | error => cases ht
  | owned h => exact absurd (locked (locks := .none) h ht).1 (by simp)

/-- C195 does not hold for errors of mutexes of a report: Lock throws while the mutex could have been got. -/
theorem report_violated : (lock 0 (.owned .none (.owned (.error 35) .got))).threw = some 35 ∧ Last (.owned .none (.owned (.error 35) .got)) 2 none := ⟨rfl, .owned (.owned .got)⟩

/-- Two reports, at 3 and 6 seconds; during the first the registry is owned by another thread for 3 seconds. -/
example : lock 0 (.owned .none (.owned (.both (.owned .none (.owned .none .got)) .got) (.owned .none .got))) = ⟨none, 0, [3, 6], 0⟩ ∧
    Last (.owned (.both (.owned .none (.owned .none .got)) .got) (.owned .none .got)) 2 none := ⟨by decide +kernel, .owned (.owned .got)⟩

end Verif.Thread.MutexLock

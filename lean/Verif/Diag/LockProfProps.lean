import Verif.Diag.LockProf
/-!
What the mutex profiler prints: exactly the holds that took too long, if locks are not nested and nobody waits on a condition variable with the mutex.
-/
namespace Verif.Diag.LockProf

/-- The thread of a step. -/
def Act.thread : Act → Nat
  | .lock t _ => t
  | .tryLock t _ => t
  | .unlock t _ => t
  | .shutUp t _ => t
  | .wait t _ => t
  | .back t _ => t

/-- Is it a call of `ShutUp`? -/
def Act.isShutUp : Act → Bool
  | .shutUp _ _ => true
  | _ => false

/-- Does the step take part in a wait? -/
def Act.isWait : Act → Bool
  | .wait _ _ => true
  | .back _ _ => true
  | _ => false

theorem step_enabled {th : Int} {s s' : St} {a : Act} {o : Out} (h : step th s a = some (o, s')) : s'.enabled = (s.enabled && !a.isShutUp) := by
  cases a <;> simp only [step] at h <;> split at h <;> try (cases h; done)
  case tryLock => split at h <;> cases h <;> simp [St.take, Act.isShutUp]
  all_goals cases h <;> simp [St.take, St.drop, Act.isShutUp]

theorem run_enabled {th : Int} : ∀ (as : List Act) {s s' : St}, run th s as = some s' → s'.enabled = (s.enabled && !as.any Act.isShutUp)
  | [], s, s', h => by cases h; simp
  | a :: as, s, s', h => by
    rw [run] at h
    cases hs : step th s a with
    | none => rw [hs] at h; cases h
    | some p =>
      obtain ⟨o, s1⟩ := p
      rw [hs] at h
      rw [run_enabled as h, step_enabled hs, List.any_cons]
      cases s.enabled <;> cases a.isShutUp <;> simp

theorem run_append {th : Int} : ∀ (as bs : List Act) (s : St), run th s (as ++ bs) = (run th s as).bind (fun s' => run th s' bs)
  | [], bs, s => rfl
  | a :: as, bs, s => by
    rw [List.cons_append, run, run]
    cases hs : step th s a with
    | none => rfl
    | some p => exact run_append as bs p.2

/-- While a thread has the mutex, the steps of others and `ShutUp` do not change its hold. -/
theorem quiet_step {th : Int} {s s' : St} {a : Act} {o : Out} {t : Nat} (ho : s.owner = some t) (hq : a.thread ≠ t ∨ a.isShutUp = true)
    (h : step th s a = some (o, s')) : s'.owner = some t ∧ s'.started = s.started ∧ s'.depth = s.depth := by
  have nf (u : Nat) (hu : u ≠ t) : s.free u = false := by
    unfold St.free
    rw [ho]
    have : ¬ t = u := fun e => hu e.symm
    simp [this]
  cases a with
  | lock u now =>
    have hu : u ≠ t := hq.resolve_right (fun e => nomatch e)
    simp only [step, nf u hu] at h
    split at h
    · rename_i hc; cases hc.2
    · cases h
  | tryLock u now =>
    have hu : u ≠ t := hq.resolve_right (fun e => nomatch e)
    simp only [step, nf u hu] at h
    split at h
    · split at h
      · rename_i hc; cases hc
      · cases h; exact ⟨ho, rfl, rfl⟩
    · cases h
  | unlock u now =>
    have hu : u ≠ t := hq.resolve_right (fun e => nomatch e)
    simp only [step, ho] at h
    split at h
    · rename_i hc; exact absurd (Option.some.inj hc.2).symm hu
    · cases h
  | shutUp u now =>
    simp only [step] at h
    split at h
    · cases h; exact ⟨ho, rfl, rfl⟩
    · cases h
  | wait u now =>
    have hu : u ≠ t := hq.resolve_right (fun e => nomatch e)
    simp only [step, ho] at h
    split at h
    · rename_i hc; exact absurd (Option.some.inj hc.2.1).symm hu
    · cases h
  | back u now =>
    simp only [step, ho] at h
    split at h
    · rename_i hc; cases hc.2
    · cases h

theorem quiet_run {th : Int} {t : Nat} : ∀ (as : List Act) {s s' : St}, s.owner = some t → (∀ a ∈ as, a.thread ≠ t ∨ a.isShutUp = true) → run th s as = some s' →
    s'.owner = some t ∧ s'.started = s.started ∧ s'.depth = s.depth
  | [], s, s', ho, _, h => by cases h; exact ⟨ho, rfl, rfl⟩
  | a :: as, s, s', ho, hq, h => by
    rw [run] at h
    cases hs : step th s a with
    | none => rw [hs] at h; cases h
    | some p =>
      obtain ⟨o, s1⟩ := p
      rw [hs] at h
      obtain ⟨h1, h2, h3⟩ := quiet_step ho (hq a List.mem_cons_self) hs
      obtain ⟨i1, i2, i3⟩ := quiet_run as h1 (fun a ha => hq a (List.mem_cons_of_mem _ ha)) h
      exact ⟨i1, i2.trans h2, i3.trans h3⟩

/-- A thread locks the mutex at time `a` and, whatever the other threads do meanwhile, unlocks it at time `b` without locking it again or waiting in between:
the line is printed exactly if nobody has called `ShutUp` so far and the hold took as long as the threshold, and it tells how long.  Missing: nested locks
and waits, see `nested_violated` and `wait_violated`. -/
theorem report_partial {th now0 : Int} {pre mid : List Act} {s1 s2 s3 s4 : St} {t : Nat} {a b : Int} {lk : Act} {o1 o : Out}
    (hlk : (lk = .lock t a ∧ o1 = .none) ∨ (lk = .tryLock t a ∧ o1 = .tried true))
    (h1 : run th (init now0) pre = some s1) (h2 : step th s1 lk = some (o1, s2)) (h3 : run th s2 mid = some s3)
    (hq : ∀ e ∈ mid, e.thread ≠ t ∨ e.isShutUp = true) (h4 : step th s3 (.unlock t b) = some (o, s4)) :
    (o = if (pre ++ mid).any Act.isShutUp = false ∧ (b - a).tdiv 1000 ≥ th then .printed ((b - a).tdiv 1000) else .none) := by
  have ht : s2 = s1.take t a := by
    rcases hlk with ⟨rfl, rfl⟩ | ⟨rfl, rfl⟩ <;> simp only [step] at h2 <;> split at h2 <;> try (cases h2; done)
    · cases h2; rfl
    · split at h2 <;> cases h2; rfl
  have hl : lk.isShutUp = false := by rcases hlk with ⟨rfl, _⟩ | ⟨rfl, _⟩ <;> rfl
  have e2 : s2.enabled = s1.enabled := by rw [step_enabled h2, hl]; simp
  have e3 := run_enabled mid h3
  have e1 := run_enabled pre h1
  obtain ⟨_, hst, _⟩ := quiet_run mid (by rw [ht]; rfl) hq h3
  have hst : s3.started = a := by rw [hst, ht]; rfl
  simp only [step] at h4
  split at h4
  · cases h4
    unfold report elapsed
    rw [hst, e3, e2, e1, List.any_append]
    simp only [init]
    cases hp : pre.any Act.isShutUp <;> cases hm : mid.any Act.isShutUp <;> simp
  · cases h4

/-- Nothing is printed any more once somebody has called `ShutUp`. -/
theorem silent {th now0 : Int} {as : List Act} {s s' : St} {t : Nat} {now : Int} {o : Out} (h : run th (init now0) as = some s)
    (hs : ∃ a ∈ as, a.isShutUp = true) (h' : step th s (.unlock t now) = some (o, s')) : o = .none := by
  have e := run_enabled as h
  have ha : as.any Act.isShutUp = true := List.any_eq_true.mpr hs
  rw [ha] at e
  simp only [step] at h'
  split at h'
  · cases h'
    unfold report
    rw [e]
    simp
  · cases h'

/-- Neither too early nor too late in a history without waits. -/
structure Inv (s : St) : Prop where
  since : s.owner ≠ none → s.acquired ≤ s.started
  clock : s.started ≤ s.clock

theorem step_inv {th : Int} {s s' : St} {a : Act} {o : Out} (i : Inv s) (hw : a.isWait = false) (h : step th s a = some (o, s')) : Inv s' := by
  have tk (t : Nat) (now : Int) (hc : s.clock ≤ now) : Inv (s.take t now) := by
    refine ⟨fun _ => ?_, Int.le_refl _⟩
    show (if s.owner = none then now else s.acquired) ≤ now
    by_cases e : s.owner = none
    · rw [if_pos e]; exact Int.le_refl _
    · rw [if_neg e]; exact Int.le_trans (i.since e) (Int.le_trans i.clock hc)
  cases a with
  | lock t now =>
    simp only [step] at h
    split at h
    · rename_i hc; cases h; exact tk t now hc.1
    · cases h
  | tryLock t now =>
    simp only [step] at h
    split at h
    · rename_i hc
      split at h
      · cases h; exact tk t now hc
      · cases h; exact ⟨i.since, Int.le_trans i.clock hc⟩
    · cases h
  | unlock t now =>
    simp only [step] at h
    split at h
    · rename_i hc; cases h; exact ⟨fun _ => i.since (by rw [hc.2]; exact fun e => nomatch e), Int.le_trans i.clock hc.1⟩
    · cases h
  | shutUp t now =>
    simp only [step] at h
    split at h
    · rename_i hc; cases h; exact ⟨i.since, Int.le_trans i.clock hc.1⟩
    · cases h
  | wait t now => cases hw
  | back t now => cases hw

theorem run_inv {th : Int} : ∀ (as : List Act) {s s' : St}, Inv s → (∀ a ∈ as, a.isWait = false) → run th s as = some s' → Inv s'
  | [], s, s', i, _, h => by cases h; exact i
  | a :: as, s, s', i, hw, h => by
    rw [run] at h
    cases hs : step th s a with
    | none => rw [hs] at h; cases h
    | some p =>
      obtain ⟨o, s1⟩ := p
      rw [hs] at h
      exact run_inv as (step_inv i (hw a List.mem_cons_self) hs) (fun a ha => hw a (List.mem_cons_of_mem _ ha)) h

/-- Also with nested locks the time printed is never more than the thread has had the mutex, if nobody waits on a condition variable with it. -/
theorem not_overstated_partial {th now0 : Int} {as : List Act} {s s' : St} {t : Nat} {now ms : Int} (h : run th (init now0) as = some s)
    (hw : ∀ a ∈ as, a.isWait = false) (h' : step th s (.unlock t now) = some (.printed ms, s')) : ms ≤ (now - s.acquired).tdiv 1000 ∧ ms ≥ th := by
  have i := run_inv as (s := init now0) ⟨fun e => absurd rfl e, Int.le_refl _⟩ hw h
  simp only [step] at h'
  split at h'
  · rename_i hc
    have ho : s.owner ≠ none := by rw [hc.2]; exact fun e => nomatch e
    unfold report at h'
    split at h'
    · split at h'
      · rename_i hge
        cases h'
        refine ⟨?_, hge⟩
        have h1 := i.since ho
        have h2 := i.clock
        have hc1 := hc.1
        unfold elapsed
        rw [Int.tdiv_eq_ediv_of_nonneg (by omega), Int.tdiv_eq_ediv_of_nonneg (by omega)]
        omega
      · cases h'
    · cases h'
  · cases h'

/-- What `acquired` is: the time of the step with which the owner got the mutex when nobody had it. -/
theorem acquired_since {th : Int} {s s' : St} {a : Act} {o : Out} (h : step th s a = some (o, s')) :
    (s.owner = none → s'.owner ≠ none → s'.acquired = s'.clock ∧ s'.owner = some a.thread) ∧ (s.owner ≠ none → s'.owner ≠ none → s'.acquired = s.acquired) := by
  cases a with
  | tryLock t now =>
    simp only [step] at h
    split at h
    · split at h
      · cases h
        exact ⟨fun e _ => ⟨if_pos e, rfl⟩, fun e _ => if_neg e⟩
      · cases h; exact ⟨fun e e' => absurd e e', fun _ _ => rfl⟩
    · cases h
  | lock t now =>
    simp only [step] at h
    split at h
    · cases h
      exact ⟨fun e _ => ⟨if_pos e, rfl⟩, fun e _ => if_neg e⟩
    · cases h
  | unlock t now =>
    simp only [step] at h
    split at h
    · rename_i hc; cases h
      exact ⟨fun e => (by rw [hc.2] at e; cases e), fun _ _ => rfl⟩
    · cases h
  | shutUp t now =>
    simp only [step] at h
    split at h
    · cases h; exact ⟨fun e e' => absurd e e', fun _ _ => rfl⟩
    · cases h
  | wait t now =>
    simp only [step] at h
    split at h
    · cases h; exact ⟨fun _ e => absurd rfl e, fun _ e => absurd rfl e⟩
    · cases h
  | back t now =>
    simp only [step] at h
    split at h
    · rename_i hc; cases h; exact ⟨fun _ _ => ⟨rfl, rfl⟩, fun e => absurd hc.2 e⟩
    · cases h

/-- Nested locks: the thread has the mutex for 170 ms, the threshold is 100 ms, and neither `Unlock` prints anything. -/
theorem nested_violated : ∃ s1 s2 s3, run 100 (init 0) [.lock 1 0, .lock 1 150000] = some s1 ∧ step 100 s1 (.unlock 1 160000) = some (.none, s2) ∧
    step 100 s2 (.unlock 1 170000) = some (.none, s3) ∧ s2.acquired = 0 ∧ s3.owner = none := ⟨_, _, _, rfl, rfl, rfl, rfl, rfl⟩

/-- A wait on a condition variable: the thread has the mutex for 1 ms and again for 1 ms, 10 s are reported. -/
theorem wait_violated : ∃ s1 s2, run 100 (init 0) [.lock 1 0, .wait 1 1000, .back 1 9999000] = some s1 ∧
    step 100 s1 (.unlock 1 10000000) = some (.printed 10000, s2) ∧ s1.acquired = 9999000 := ⟨_, _, rfl, rfl, rfl⟩

/-! Not vacuous. -/
example : ∃ s, run 100 (init 0) [.lock 1 0, .tryLock 2 50000] = some s ∧ (step 100 s (.unlock 1 100000)).map Prod.fst = some (.printed 100) ∧
    (step 100 s (.unlock 1 99999)).map Prod.fst = some .none := ⟨_, rfl, rfl, rfl⟩
example : (run 100 (init 0) [.lock 1 0, .tryLock 2 50000, .shutUp 1 60000, .unlock 1 200000, .tryLock 2 300000]).map (fun s => (s.owner, s.enabled)) = some (some 2, false) := rfl

end Verif.Diag.LockProf

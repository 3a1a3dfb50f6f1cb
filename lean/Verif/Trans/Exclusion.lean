/-
Opening and closing transactions (TransactionalSet.h:219-250; the same code in TransactionalDictionary.h and TransactionalList.h:174-203): the flag
`HasTransaction`, waiting on `TransactionCompleted` and the destructor. Any number of threads; each step is one critical section of the mutex.
-/
namespace Verif.Trans.Excl

/-- Where a thread is. `asleep`: in `TransactionCompleted.Wait`; `notified`: woken (or spuriously woken), before re-acquiring the mutex.  For TransactionalSet.h 219-250. -/
inductive Thr where
  | idle | asleep | notified | open
  deriving DecidableEq, Repr

/-- The variables and the threads of TransactionalSet.h 219-250. -/
structure Sys where
  /-- `HasTransaction`. -/
  flag : Bool
  thr : Nat → Thr

/-- Change of a function at one point; a helper of the model of TransactionalSet.h 219-250. -/
def put (f : Nat → Thr) (t : Nat) (v : Thr) : Nat → Thr := fun x => if x = t then v else f x

/-- The condition of the loop at TransactionalSet.h:228 and what follows: 242. -/
def tryEnter (s : Sys) (t : Nat) : Sys := if s.flag then ⟨s.flag, put s.thr t .asleep⟩ else ⟨true, put s.thr t .open⟩

/-- What can be observed of TransactionalSet.h 219-250. -/
inductive Ev where
  /-- `StartTransaction` called. -/
  | start (t : Nat)
  /-- A spurious wake-up. -/
  | spurious (t : Nat)
  /-- A woken thread re-acquires the mutex and evaluates the loop condition again. -/
  | recheck (t : Nat)
  /-- `Wait` returns `Cancelled` or `TimedOut`: the constructor throws (no destructor runs). -/
  | giveUp (t : Nat)
  /-- The transaction is destroyed: TransactionalSet.h:245-250. -/
  | finish (t : Nat)

/-- One critical section; events that a thread cannot perform in its position have no effect.  For TransactionalSet.h 219-250. -/
def step (s : Sys) : Ev → Sys
  | .start t => match s.thr t with
    | .idle => tryEnter s t
    | _ => s
  | .spurious t => match s.thr t with
    | .asleep => ⟨s.flag, put s.thr t .notified⟩
    | _ => s
  | .recheck t => match s.thr t with
    | .notified => tryEnter s t
    | _ => s
  | .giveUp t => match s.thr t with
    | .asleep => ⟨s.flag, put s.thr t .idle⟩
    | .notified => ⟨s.flag, put s.thr t .idle⟩
    | _ => s
  | .finish t => match s.thr t with
    | .open => ⟨false, fun x => if x = t then .idle else if s.thr x = .asleep then .notified else s.thr x⟩
    | _ => s

/-- One step after another, for histories of TransactionalSet.h 219-250. -/
def run : Sys → List Ev → Sys
  | s, [] => s
  | s, e :: es => run (step s e) es

/-- No transaction has been started.  For TransactionalSet.h 219-250. -/
def init : Sys := ⟨false, fun _ => .idle⟩

/-- Invariant used in the proofs about TransactionalSet.h 219-250. -/
structure Inv (s : Sys) : Prop where
  one : ∀ t u, s.thr t = .open → s.thr u = .open → t = u
  flagged : s.flag = true ↔ ∃ t, s.thr t = .open
  sleep : ∀ t, s.thr t = .asleep → s.flag = true

theorem inv_put {s : Sys} (hi : Inv s) (t : Nat) (v : Thr) (ht : s.thr t ≠ .open) (hv : v ≠ .open) (hs : v = .asleep → s.flag = true) :
    Inv ⟨s.flag, put s.thr t v⟩ := by
  refine ⟨?_, ?_, ?_⟩
  · intro a b ha hb
    simp only [put] at ha hb
    split at ha
    · exact absurd ha hv
    · split at hb
      · exact absurd hb hv
      · exact hi.one a b ha hb
  · simp only
    rw [hi.flagged]
    constructor
    · rintro ⟨a, ha⟩
      refine ⟨a, ?_⟩
      simp only [put]
      rw [if_neg (fun e => ht (by rw [← e]; exact ha))]; exact ha
    · rintro ⟨a, ha⟩
      simp only [put] at ha
      split at ha
      · exact absurd ha hv
      · exact ⟨a, ha⟩
  · intro a ha
    simp only [put] at ha
    split at ha
    · exact hs ha
    · exact hi.sleep a ha

theorem inv_tryEnter {s : Sys} (hi : Inv s) (t : Nat) (ht : s.thr t ≠ .open) : Inv (tryEnter s t) := by
  unfold tryEnter
  split
  · rename_i hf; exact inv_put hi t .asleep ht (by simp) (fun _ => hf)
  · rename_i hf
    have hno : ∀ u, s.thr u ≠ .open := fun u hu => hf (hi.flagged.mpr ⟨u, hu⟩)
    refine ⟨?_, ?_, ?_⟩
    · intro a b ha hb
      simp only [put] at ha hb
      split at ha
      · split at hb
        · rename_i h1 h2; rw [h1, h2]
        · exact absurd hb (hno b)
      · exact absurd ha (hno a)
    · simp only [true_iff]
      exact ⟨t, by simp [put]⟩
    · intro _ _; rfl

theorem inv_step {s : Sys} (hi : Inv s) (e : Ev) : Inv (step s e) := by
  cases e with
  | start t =>
    unfold step
    cases h : s.thr t <;> simp only [h]
    · exact inv_tryEnter hi t (by rw [h]; simp)
    all_goals exact hi
  | spurious t =>
    unfold step
    cases h : s.thr t <;> simp only [h]
    case asleep => exact inv_put hi t .notified (by rw [h]; simp) (by simp) (by simp)
    all_goals exact hi
  | recheck t =>
    unfold step
    cases h : s.thr t <;> simp only [h]
    case notified => exact inv_tryEnter hi t (by rw [h]; simp)
    all_goals exact hi
  | giveUp t =>
    unfold step
    cases h : s.thr t <;> simp only [h]
    case asleep => exact inv_put hi t .idle (by rw [h]; simp) (by simp) (by simp)
    case notified => exact inv_put hi t .idle (by rw [h]; simp) (by simp) (by simp)
    all_goals exact hi
  | finish t =>
    unfold step
    cases h : s.thr t <;> simp only [h]
    case «open» =>
      have hno : ∀ u, (if u = t then Thr.idle else if s.thr u = .asleep then .notified else s.thr u) ≠ .open := by
        intro u
        by_cases hu : u = t
        · simp [hu]
        · rw [if_neg hu]
          split
          · simp
          · intro ho; exact hu (hi.one u t ho h)
      refine ⟨fun a b ha _ => absurd ha (hno a), ?_, ?_⟩
      · simp only [Bool.false_eq_true, false_iff]
        rintro ⟨u, hu⟩; exact hno u hu
      · intro u hu
        simp only at hu
        split at hu
        · cases hu
        · split at hu
          · cases hu
          · rename_i h1 h2; exact absurd hu h2
    all_goals exact hi

theorem inv_run : ∀ (es : List Ev) {s : Sys}, Inv s → Inv (run s es)
  | [], _, hi => hi
  | e :: es, _, hi => inv_run es (inv_step hi e)

theorem inv_init : Inv init := ⟨fun a b ha => (by cases ha), by simp [init], fun t ht => (by cases ht)⟩

/-- C29 (exclusion). In every schedule at most one transaction is open. -/
theorem transactions_exclude (es : List Ev) (t u : Nat) (ht : (run init es).thr t = .open) (hu : (run init es).thr u = .open) : t = u :=
  (inv_run es inv_init).one t u ht hu

/-- C29. No lost wake-up: whenever a thread sleeps waiting for its turn, a transaction is open (so its end will wake the thread); and if none is open,
the next thread that asks or re-checks gets one at once. -/
theorem transactions_no_lost_wakeup (es : List Ev) :
    (∀ t, (run init es).thr t = .asleep → ∃ u, (run init es).thr u = .open) ∧
    ((∀ u, (run init es).thr u ≠ .open) → ∀ t, ((run init es).thr t = .notified → (run init (es ++ [.recheck t])).thr t = .open) ∧
      ((run init es).thr t = .idle → (run init (es ++ [.start t])).thr t = .open)) := by
  have hi := inv_run es inv_init
  have happ : ∀ (es fs : List Ev) (s : Sys), run s (es ++ fs) = run (run s es) fs := by
    intro es fs
    induction es with
    | nil => intro s; rfl
    | cons e es ih => intro s; exact ih (step s e)
  refine ⟨fun t ht => hi.flagged.mp (hi.sleep t ht), ?_⟩
  intro hno t
  have hf : (run init es).flag = false := by
    cases h : (run init es).flag with
    | false => rfl
    | true => obtain ⟨u, hu⟩ := hi.flagged.mp h; exact absurd hu (hno u)
  constructor <;> intro ht <;> rw [happ] <;> simp [run, step, ht, tryEnter, hf, put]

/-- C29. After the end of a transaction every thread that slept is awake. -/
theorem finish_wakes_all (es : List Ev) (t : Nat) (ht : (run init es).thr t = .open) :
    ∀ u, (step (run init es) (.finish t)).thr u ≠ .asleep ∧ ((run init es).thr u = .asleep → (step (run init es) (.finish t)).thr u = .notified) := by
  intro u
  simp only [step, ht]
  by_cases hu : u = t
  · subst hu; simp [ht]
  · simp only [if_neg hu]
    by_cases h : (run init es).thr u = .asleep
    · simp [h]
    · rw [if_neg h]; exact ⟨h, fun h' => absurd h' h⟩

/-! Non-vacuity: three threads, one gives up. -/
example : (run init [.start 0, .start 1, .start 2, .giveUp 2, .finish 0, .recheck 1]).thr 1 = .open ∧ (run init [.start 0, .start 1]).thr 1 = .asleep := by
  with_unfolding_all decide

end Verif.Trans.Excl

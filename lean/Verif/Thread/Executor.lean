/-
Model of `ThreadTaskExecutor` (stingraykit/thread/ThreadTaskExecutor.cpp) as a transition system: any number of threads calling `AddTask`, the worker thread, and the cancellation of
the worker when the executor is destroyed. Property C42. Tasks are numbers. The mutex is held by the worker exactly at the program points `top`, `body` and `wait`; `AddTask` is one
step, possible when the mutex is free. The wait with the token is the one of `CondWait` (C59), abstracted: a cancelled token refuses or wakes it. Not modelled: the profiler.
-/
namespace Verif.Thread.Executor

/-- How the execution of a task ends: ThreadTaskExecutor.cpp:81-99. -/
inductive Outcome where
  | ran          -- the task returned
  | suppressed   -- its tester did not allow the execution (85-87)
  | handled      -- it threw a `std::exception`, given to the handler (97-98)
  | escaped      -- it threw something else, or the handler threw
  deriving DecidableEq, Repr

/-- Where a thread is in ThreadTaskExecutor.cpp 39-99. -/
inductive Pc where
  | start                   -- before line 60
  | top                     -- at the loop condition, line 62
  | body                    -- in the loop, line 64
  | wait                    -- calling `Wait`, line 66
  | blocked (woken : Bool)  -- in `Wait`
  | running (task : Nat)    -- executing, lines 73-76
  | finished                -- `ThreadFunc` has returned
  | crashed                 -- an exception has left `ThreadFunc`
  deriving DecidableEq, Repr

/-- The variables and the threads of ThreadTaskExecutor.cpp 39-99. -/
structure State where
  queue : List Nat
  cancelled : Bool
  pc : Pc
  added : List Nat               -- the tasks in the order in which `AddTask` took them
  done : List (Nat × Outcome)    -- the executions that are over, in order
  deriving DecidableEq, Repr

/-- The state after construction, ThreadTaskExecutor.cpp 39-99. -/
def init : State := ⟨[], false, .start, [], []⟩

/-- The worker holds `_syncRoot`.  For ThreadTaskExecutor.cpp 39-99. -/
def locked (s : State) : Bool := s.pc == .top || s.pc == .body || s.pc == .wait

/-- `Broadcast`, or the cancellation handler of the wait.  For ThreadTaskExecutor.cpp 39-99. -/
def Pc.wake : Pc → Pc
  | .blocked _ => .blocked true
  | p => p

/-- `AddTask`: ThreadTaskExecutor.cpp:39-47. -/
def addTask (s : State) (k : Nat) : Option State :=
  if locked s then none else some { s with queue := s.queue ++ [k], added := s.added ++ [k], pc := s.pc.wake }

/-- The destructor of `_worker` cancels the token.  For ThreadTaskExecutor.cpp 39-99. -/
def cancel (s : State) : Option State := some { s with cancelled := true, pc := s.pc.wake }

/-- A spurious wake-up in ThreadTaskExecutor.cpp 39-99. -/
def spurious (s : State) : Option State := match s.pc with
  | .blocked _ => some { s with pc := .blocked true }
  | _ => none

/-- The worker, ThreadTaskExecutor.cpp:58-78; the outcome matters when a task is running. -/
def worker (s : State) (o : Outcome) : Option State := match s.pc with
  | .start => some { s with pc := .top }
  | .top => if s.cancelled = false ∨ s.queue ≠ [] then some { s with pc := .body } else some { s with pc := .finished }
  | .body => match s.queue with
    | [] => some { s with pc := .wait }
    | k :: q => some { s with queue := q, pc := .running k }
  | .wait => if s.cancelled then some { s with pc := .top } else some { s with pc := .blocked false }
  | .blocked true => some { s with pc := .top }
  | .blocked false => none
  | .running k => some { s with pc := if o = .escaped then .crashed else .top, done := s.done ++ [(k, o)] }
  | .finished => none
  | .crashed => none

/-- The steps a schedule of ThreadTaskExecutor.cpp 39-99 is made of. -/
inductive Act where
  | add (k : Nat) | cancel | worker (o : Outcome) | spurious
  deriving DecidableEq, Repr

/-- One step, ThreadTaskExecutor.cpp 39-99. -/
def step (s : State) : Act → Option State
  | .add k => addTask s k
  | .cancel => cancel s
  | .worker o => worker s o
  | .spurious => spurious s

/-- One step after another, for histories of ThreadTaskExecutor.cpp 39-99. -/
def run (s : State) : List Act → Option State
  | [] => some s
  | a :: as => match step s a with
    | none => none
    | some s' => run s' as

/-! ### What the property is about -/

/-- The task being executed, if any. -/
def Spec.current (s : State) : List Nat := match s.pc with
  | .running k => [k]
  | _ => []

/-- Invariant used in the proofs about ThreadTaskExecutor.cpp 39-99. -/
structure Inv (s : State) : Prop where
  log : s.added = s.done.map Prod.fst ++ Spec.current s ++ s.queue
  esc : s.pc = .crashed ↔ ∃ d ∈ s.done, d.2 = .escaped
  sleep : s.pc = .blocked false → s.queue = [] ∧ s.cancelled = false
  wait : s.pc = .wait → s.queue = []

theorem init_inv : Inv init := ⟨rfl, ⟨fun h => (nomatch h), fun ⟨_, h, _⟩ => (nomatch h)⟩, (fun h => nomatch h), (fun h => nomatch h)⟩

theorem wake_current (s : State) (q : List Nat) (a : List Nat) (c : Bool) : Spec.current { s with queue := q, added := a, cancelled := c, pc := s.pc.wake } = Spec.current s := by
  unfold Spec.current
  cases h : s.pc <;> rfl

theorem wake_eq (p : Pc) : (p.wake = .crashed ↔ p = .crashed) ∧ (p.wake ≠ .blocked false) ∧ (p.wake = .wait ↔ p = .wait) := by
  cases p <;> simp [Pc.wake]

/-- A step of the worker that does not touch the logs. -/
theorem inv_pc {s : State} (h : Inv s) (p : Pc) (hp : ∀ k, p ≠ .running k) (hs : ∀ k, s.pc ≠ .running k) (hc : p ≠ .crashed) (hs' : s.pc ≠ .crashed)
    (h1 : p = .blocked false → s.queue = [] ∧ s.cancelled = false) (h2 : p = .wait → s.queue = []) : Inv { s with pc := p } := by
  have e1 : Spec.current { s with pc := p } = [] := by
    unfold Spec.current
    cases hq : p <;> first | rfl | (exact absurd hq (hp _))
  have e2 : Spec.current s = [] := by
    unfold Spec.current
    cases hq : s.pc <;> first | rfl | (exact absurd hq (hs _))
  refine ⟨?_, ⟨fun h => absurd h hc, fun h' => absurd (h.esc.2 h') hs'⟩, h1, h2⟩
  have := h.log
  rw [e2] at this
  rw [e1]; exact this

theorem step_inv {s s' : State} {a : Act} (h : Inv s) (hs : step s a = some s') : Inv s' := by
  cases a with
  | add k =>
    simp only [step, addTask] at hs
    by_cases hl : locked s = true
    · rw [if_pos hl] at hs; cases hs
    · rw [if_neg hl] at hs
      injection hs with hs; subst hs
      have hw := wake_eq s.pc
      refine ⟨?_, ⟨fun e => h.esc.1 (hw.1.1 e), fun e => hw.1.2 (h.esc.2 e)⟩, fun e => absurd e hw.2.1, fun e => ?_⟩
      · have := wake_current s (s.queue ++ [k]) (s.added ++ [k]) s.cancelled
        rw [this]
        show s.added ++ [k] = _
        rw [h.log]; simp
      · have := hw.2.2.1 e
        exact absurd (by unfold locked; rw [this]; rfl) hl
  | cancel =>
    simp only [step, cancel] at hs
    injection hs with hs; subst hs
    have hw := wake_eq s.pc
    refine ⟨?_, ⟨fun e => h.esc.1 (hw.1.1 e), fun e => hw.1.2 (h.esc.2 e)⟩, fun e => absurd e hw.2.1, fun e => h.wait (hw.2.2.1 e)⟩
    have := wake_current s s.queue s.added true
    rw [this]; exact h.log
  | spurious =>
    simp only [step, spurious] at hs
    cases hp : s.pc with
    | blocked w =>
      rw [hp] at hs
      injection hs with hs; subst hs
      exact inv_pc h _ (by simp) (by simp [hp]) (by simp) (by simp [hp]) (by simp) (by simp)
    | _ => rw [hp] at hs; cases hs
  | worker o =>
    simp only [step, worker] at hs
    cases hp : s.pc with
    | start =>
      rw [hp] at hs; injection hs with hs; subst hs
      exact inv_pc h _ (by simp) (by simp [hp]) (by simp) (by simp [hp]) (by simp) (by simp)
    | top =>
      rw [hp] at hs; simp only [] at hs
      by_cases hc : s.cancelled = false ∨ s.queue ≠ []
      · rw [if_pos hc] at hs; injection hs with hs; subst hs
        exact inv_pc h _ (by simp) (by simp [hp]) (by simp) (by simp [hp]) (by simp) (by simp)
      · rw [if_neg hc] at hs; injection hs with hs; subst hs
        exact inv_pc h _ (by simp) (by simp [hp]) (by simp) (by simp [hp]) (by simp) (by simp)
    | body =>
      rw [hp] at hs; simp only [] at hs
      cases hq : s.queue with
      | nil =>
        rw [hq] at hs; injection hs with hs; subst hs
        have := inv_pc h .wait (by simp) (by simp [hp]) (by simp) (by simp [hp]) (by simp) (fun _ => hq)
        rw [hq] at this; exact this
      | cons k q =>
        rw [hq] at hs; injection hs with hs; subst hs
        refine ⟨?_, ⟨fun e => (nomatch e), fun e => ?_⟩, (fun e => nomatch e), (fun e => nomatch e)⟩
        · have := h.log
          rw [hq] at this
          simp only [Spec.current, hp] at this ⊢
          rw [this]; simp
        · have := h.esc.2 e
          rw [hp] at this; cases this
    | wait =>
      rw [hp] at hs; simp only [] at hs
      by_cases hc : s.cancelled = true
      · rw [if_pos hc] at hs; injection hs with hs; subst hs
        exact inv_pc h _ (by simp) (by simp [hp]) (by simp) (by simp [hp]) (by simp) (by simp)
      · rw [if_neg hc] at hs; injection hs with hs; subst hs
        exact inv_pc h _ (by simp) (by simp [hp]) (by simp) (by simp [hp]) (fun _ => ⟨h.wait hp, by simpa using hc⟩) (by simp)
    | blocked w =>
      cases w with
      | true =>
        rw [hp] at hs; injection hs with hs; subst hs
        exact inv_pc h _ (by simp) (by simp [hp]) (by simp) (by simp [hp]) (by simp) (by simp)
      | false => rw [hp] at hs; cases hs
    | running k =>
      rw [hp] at hs; injection hs with hs; subst hs
      have hl := h.log
      have hn : ¬ ∃ d ∈ s.done, d.2 = .escaped := fun e => by have := h.esc.2 e; rw [hp] at this; cases this
      simp only [Spec.current, hp] at hl
      by_cases ho : o = .escaped
      · subst ho
        refine ⟨?_, ⟨fun _ => ⟨(k, .escaped), by simp, rfl⟩, fun _ => rfl⟩, (fun e => nomatch e), (fun e => nomatch e)⟩
        simp only [Spec.current, if_pos]
        rw [hl]; simp
      · simp only [if_neg ho]
        refine ⟨?_, ⟨fun e => (nomatch e), fun ⟨d, hd, he⟩ => ?_⟩, (fun e => nomatch e), (fun e => nomatch e)⟩
        · simp only [Spec.current]
          rw [hl]; simp
        · rw [List.mem_append, List.mem_singleton] at hd
          rcases hd with hd | hd
          · exact absurd ⟨d, hd, he⟩ hn
          · subst hd; exact absurd he ho
    | finished => rw [hp] at hs; cases hs
    | crashed => rw [hp] at hs; cases hs

theorem run_inv : ∀ {as : List Act} {s s' : State}, Inv s → run s as = some s' → Inv s'
  | [], s, s', hi, h => by injection h with h; exact h ▸ hi
  | a :: as, s, s', hi, h => by
    rw [run] at h
    cases hs : step s a with
    | none => rw [hs] at h; cases h
    | some t => rw [hs] at h; exact run_inv (step_inv hi hs) h

/-- C42, order and at most once: at any time the tasks executed so far, then the one being executed, then those waiting are the tasks taken by `AddTask`, in that order. -/
theorem tasks_in_order {as : List Act} {s : State} (h : run init as = some s) : s.added = s.done.map Prod.fst ++ Spec.current s ++ s.queue := (run_inv init_inv h).log

/-- C42, draining: when the worker finishes every task taken by `AddTask` has been executed. -/
theorem drained {as : List Act} {s s' : State} {a : Act} (h : run init as = some s) (hs : step s a = some s') (hp : s.pc ≠ .finished) (hf : s'.pc = .finished) :
    s'.done.map Prod.fst = s'.added ∧ s'.cancelled = true := by
  have hi := step_inv (run_inv init_inv h) hs
  have hq : s'.queue = [] ∧ s'.cancelled = true := by
    cases a with
    | add k =>
      simp only [step, addTask] at hs
      by_cases hl : locked s = true
      · rw [if_pos hl] at hs; cases hs
      · rw [if_neg hl] at hs
        injection hs with hs; subst hs
        exact absurd (by have : s.pc.wake = .finished := hf; revert this; cases s.pc <;> simp [Pc.wake]) hp
    | cancel =>
      injection hs with hs; subst hs
      exact absurd (by have : s.pc.wake = .finished := hf; revert this; cases s.pc <;> simp [Pc.wake]) hp
    | spurious =>
      simp only [step, spurious] at hs
      cases hp : s.pc <;> rw [hp] at hs <;> first | (cases hs; done) | (injection hs with hs; subst hs; cases hf)
    | worker o =>
      simp only [step, worker] at hs
      cases hp : s.pc with
      | top =>
        rw [hp] at hs; simp only [] at hs
        by_cases hc : s.cancelled = false ∨ s.queue ≠ []
        · rw [if_pos hc] at hs; injection hs with hs; subst hs; cases hf
        · rw [if_neg hc] at hs; injection hs with hs; subst hs
          rw [not_or] at hc
          exact ⟨Decidable.byContradiction hc.2, by simpa using hc.1⟩
      | body =>
        rw [hp] at hs; simp only [] at hs
        cases hq : s.queue <;> rw [hq] at hs <;> injection hs with hs <;> subst hs <;> cases hf
      | wait =>
        rw [hp] at hs; simp only [] at hs
        by_cases hc : s.cancelled = true
        · rw [if_pos hc] at hs; injection hs with hs; subst hs; cases hf
        · rw [if_neg hc] at hs; injection hs with hs; subst hs; cases hf
      | blocked w => cases w <;> rw [hp] at hs <;> first | (cases hs; done) | (injection hs with hs; subst hs; cases hf)
      | running k =>
        rw [hp] at hs; injection hs with hs; subst hs
        by_cases ho : o = .escaped
        · simp [ho] at hf
        · simp [ho] at hf
      | start => rw [hp] at hs; injection hs with hs; subst hs; cases hf
      | finished => rw [hp] at hs; cases hs
      | crashed => rw [hp] at hs; cases hs
  refine ⟨?_, hq.2⟩
  have := hi.log
  rw [hq.1] at this
  simp only [Spec.current, hf, List.append_nil] at this
  exact this.symm

/-- How many steps of the worker until it executes a task or finishes.  For ThreadTaskExecutor.cpp 39-99. -/
def todo (s : State) : Nat := match s.pc with
  | .start | .blocked _ | .wait => 3
  | .top => 2
  | .body => if s.queue = [] then 4 else 1
  | .running _ | .finished | .crashed => 0

/-- C42, progress: while there are tasks, or the executor is being destroyed, the worker - unless it is executing, has finished, or an exception escaped - can go on, and at most four
of its steps, with anything in between, lead to an execution or to the end. -/
theorem progress {as : List Act} {s : State} (h : run init as = some s) (hw : s.queue ≠ [] ∨ s.cancelled = true) :
    todo s ≤ 4 ∧ (todo s = 0 ↔ Spec.current s ≠ [] ∨ s.pc = .finished ∨ s.pc = .crashed) ∧
    (0 < todo s → (∃ o s', step s (.worker o) = some s') ∧
      (∀ o s', step s (.worker o) = some s' → todo s' < todo s) ∧
      (∀ a s', (∀ o, a ≠ .worker o) → step s a = some s' → todo s' ≤ todo s ∧ (s'.queue ≠ [] ∨ s'.cancelled = true))) := by
  have hi := run_inv init_inv h
  refine ⟨?_, ?_, fun ht => ⟨?_, ?_, ?_⟩⟩
  · unfold todo
    cases s.pc <;> simp only [] <;> (try split) <;> omega
  · unfold todo Spec.current
    cases hp : s.pc <;> simp
    cases s.queue <;> simp
  · unfold todo at ht
    refine ⟨.ran, ?_⟩
    simp only [step, worker]
    cases hp : s.pc with
    | start => exact ⟨_, rfl⟩
    | top => simp only []; by_cases hc : s.cancelled = false ∨ s.queue ≠ [] <;> simp [hc]
    | body => cases hq : s.queue <;> exact ⟨_, rfl⟩
    | wait => simp only []; cases s.cancelled <;> exact ⟨_, rfl⟩
    | blocked w =>
      cases w with
      | true => exact ⟨_, rfl⟩
      | false =>
        obtain ⟨a1, a2⟩ := hi.sleep hp
        rw [a1, a2] at hw
        rcases hw with hw | hw
        · exact absurd rfl hw
        · cases hw
    | running k => exact ⟨_, rfl⟩
    | finished => rw [hp] at ht; cases ht
    | crashed => rw [hp] at ht; cases ht
  · intro o s' hs
    simp only [step, worker] at hs
    unfold todo at ht ⊢
    cases hp : s.pc with
    | start => rw [hp] at hs; injection hs with hs; subst hs; simp
    | top =>
      rw [hp] at hs; simp only [] at hs
      by_cases hc : s.cancelled = false ∨ s.queue ≠ []
      · rw [if_pos hc] at hs; injection hs with hs; subst hs
        have hq : s.queue ≠ [] := by
          rcases hw with hw | hw
          · exact hw
          · rcases hc with hc | hc
            · rw [hw] at hc; cases hc
            · exact hc
        simp [hq]
      · rw [if_neg hc] at hs; injection hs with hs; subst hs; simp
    | body =>
      rw [hp] at hs; simp only [] at hs
      cases hq : s.queue with
      | nil => rw [hq] at hs; injection hs with hs; subst hs; simp
      | cons k q => rw [hq] at hs; injection hs with hs; subst hs; simp
    | wait =>
      rw [hp] at hs; simp only [] at hs
      by_cases hc : s.cancelled = true
      · rw [if_pos hc] at hs; injection hs with hs; subst hs; simp
      · rcases hw with hw | hw
        · exact absurd (hi.wait hp) hw
        · exact absurd hw hc
    | blocked w =>
      cases w with
      | true => rw [hp] at hs; injection hs with hs; subst hs; simp
      | false => rw [hp] at hs; cases hs
    | running k => rw [hp] at ht; cases ht
    | finished => rw [hp] at hs; cases hs
    | crashed => rw [hp] at hs; cases hs
  · intro a s' ha hs
    cases a with
    | add k =>
      simp only [step, addTask] at hs
      by_cases hl : locked s = true
      · rw [if_pos hl] at hs; cases hs
      · rw [if_neg hl] at hs
        injection hs with hs; subst hs
        refine ⟨?_, Or.inl (by simp)⟩
        unfold todo
        cases hp : s.pc <;> simp [Pc.wake]
        unfold locked at hl; rw [hp] at hl; exact absurd rfl hl
    | cancel =>
      injection hs with hs; subst hs
      refine ⟨?_, Or.inr rfl⟩
      unfold todo
      cases hp : s.pc <;> simp [Pc.wake]
    | spurious =>
      simp only [step, spurious] at hs
      cases hp : s.pc <;> rw [hp] at hs <;> first | (cases hs; done) | skip
      injection hs with hs; subst hs
      refine ⟨?_, hw⟩
      unfold todo; rw [hp]; simp
    | worker o => exact absurd rfl (ha o)

/-- An exception that is not a `std::exception`, or one thrown by the exception handler, ends the worker: the tasks behind are lost. -/
theorem escaping_exception_loses_tasks : ∃ s, run init [.add 1, .add 2, .worker .ran, .worker .ran, .worker .ran, .worker .escaped] = some s ∧
    s.queue = [2] ∧ s.pc = .crashed ∧ ∀ as s', run s as = some s' → ∀ o, (2, o) ∉ s'.done := by
  refine ⟨_, rfl, rfl, rfl, ?_⟩
  have key : ∀ (as : List Act) (s s' : State), s.pc = .crashed → (∀ o, (2, o) ∉ s.done) → run s as = some s' → ∀ o, (2, o) ∉ s'.done := by
    intro as
    induction as with
    | nil => intro s s' _ hd h; injection h with h; exact h ▸ hd
    | cons a as ih =>
      intro s s' hp hd h
      rw [run] at h
      cases hs : step s a with
      | none => rw [hs] at h; cases h
      | some t =>
        rw [hs] at h
        refine ih t s' ?_ ?_ h <;> cases a <;> simp [step, addTask, cancel, worker, spurious, hp, locked] at hs <;> subst hs <;> first | rfl | exact hd
  intro as s' h
  exact key as _ s' rfl (fun o => show (2, o) ∉ [(1, Outcome.escaped)] by simp) h

/-! Non-vacuity: tasks added before the start, during an execution and while the worker is blocked; then the executor is destroyed with one task left. -/
example : (run init [.add 1, .worker .ran, .worker .ran, .worker .ran, .add 2, .worker .handled, .worker .ran, .worker .ran, .worker .suppressed, .worker .ran, .worker .ran,
    .worker .ran, .spurious, .worker .ran, .worker .ran, .worker .ran, .worker .ran, .add 3, .cancel, .worker .ran, .worker .ran, .worker .ran, .worker .ran, .worker .ran]).map
    (fun s => (s.pc, s.queue, s.added, s.done)) = some (.finished, [], [1, 2, 3], [(1, .handled), (2, .suppressed), (3, .ran)]) := rfl
example : ∃ s, run init [.worker .ran, .worker .ran, .worker .ran, .worker .ran, .cancel] = some s ∧ s.pc = .blocked true ∧ s.cancelled = true ∧ todo s = 3 := ⟨_, rfl, rfl, rfl, rfl⟩

end Verif.Thread.Executor

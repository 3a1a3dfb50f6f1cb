/-
Model of `ThreadlessTaskExecutor` (stingraykit/thread/ThreadlessTaskExecutor.cpp) as a transition system: any number of threads calling `AddTask`, `ExecuteTasks` and `ClearTasks`,
also from inside the tasks. Property C62. The mutex is held, between the steps, by the thread that is at the loop condition of `ExecuteTasks`. Not modelled: the profiler.
-/
namespace Verif.Thread.Threadless

/-- Where a thread is in ThreadlessTaskExecutor.cpp 31-74. -/
inductive Pc where
  | out
  | loop                  -- at the loop condition (51), holding the mutex
  | running (task : Nat)  -- executing a task (56-61), not holding the mutex
  deriving DecidableEq, Repr

/-- What became of a task that left the queue.  For ThreadlessTaskExecutor.cpp 31-74. -/
inductive Fate where
  | executed (thread : Nat) | cleared
  deriving DecidableEq, Repr

/-- The variables and the threads of ThreadlessTaskExecutor.cpp 31-74. -/
structure State where
  queue : List Nat
  active : Option Nat            -- `_activeExecutor`
  owner : Option Nat             -- of `_syncRoot`
  threads : Nat → Pc
  added : List Nat
  taken : List (Nat × Fate)

/-- The state after construction, ThreadlessTaskExecutor.cpp 31-74. -/
def init : State := ⟨[], none, none, fun _ => .out, [], []⟩

/-- Change of a function at one point; a helper of the model of ThreadlessTaskExecutor.cpp 31-74. -/
def set {α : Type} (f : Nat → α) (i : Nat) (x : α) : Nat → α := fun j => if j = i then x else f j

/-- What the caller gets.  For ThreadlessTaskExecutor.cpp 31-74. -/
inductive Out where
  | none | refused | returned | threw
  deriving DecidableEq, Repr

/-- `AddTask`: ThreadlessTaskExecutor.cpp:31-35. -/
def addTask (s : State) (k : Nat) : Option (Out × State) :=
  if s.owner = none then some (.none, { s with queue := s.queue ++ [k], added := s.added ++ [k] }) else none

/-- `ClearTasks`: ThreadlessTaskExecutor.cpp:66-74. -/
def clearTasks (s : State) : Option (Out × State) :=
  if s.owner = none then some (.none, { s with queue := [], taken := s.taken ++ s.queue.map (·, .cleared) }) else none

/-- `ExecuteTasks` up to the loop, by thread `t`: ThreadlessTaskExecutor.cpp:38-49. A call from inside a task is refused as well. -/
def enter (s : State) (t : Nat) : Option (Out × State) :=
  if s.owner = none then
    if s.active ≠ none then some (.refused, s)
    else if s.threads t = .out then some (.none, { s with active := some t, owner := some t, threads := set s.threads t .loop })
    else none
  else none

/-- One evaluation of the loop condition, with the value of the token: ThreadlessTaskExecutor.cpp:51-56, and 48 when the loop ends. -/
def iterate (s : State) (t : Nat) (token : Bool) : Option (Out × State) :=
  if s.threads t = .loop then
    match s.queue, token with
    | k :: q, true => some (.none, { s with queue := q, owner := none, threads := set s.threads t (.running k), taken := s.taken ++ [(k, .executed t)] })
    | _, _ => some (.returned, { s with active := none, owner := none, threads := set s.threads t .out })
  else none

/-- The task is over, or suppressed by its tester, or its `std::exception` was handled: the mutex is locked again, ThreadlessTaskExecutor.cpp:58-62. `escaped`: an exception leaves
`ExecuteTasks` (also an interruption); the mutex is locked, `_activeExecutor` reset and the mutex unlocked. -/
def finish (s : State) (t : Nat) (escaped : Bool) : Option (Out × State) :=
  match s.threads t with
  | .running _ =>
    if s.owner = none then
      if escaped then some (.threw, { s with active := none, threads := set s.threads t .out })
      else some (.none, { s with owner := some t, threads := set s.threads t .loop })
    else none
  | _ => none

/-- The steps a schedule of ThreadlessTaskExecutor.cpp 31-74 is made of. -/
inductive Act where
  | add (k : Nat) | clear | enter (t : Nat) | iterate (t : Nat) (token : Bool) | finish (t : Nat) (escaped : Bool)
  deriving DecidableEq, Repr

/-- One step, ThreadlessTaskExecutor.cpp 31-74. -/
def step (s : State) : Act → Option (Out × State)
  | .add k => addTask s k
  | .clear => clearTasks s
  | .enter t => enter s t
  | .iterate t b => iterate s t b
  | .finish t b => finish s t b

/-- One step after another, for histories of ThreadlessTaskExecutor.cpp 31-74. -/
def run (s : State) : List Act → Option State
  | [] => some s
  | a :: as => match step s a with
    | none => none
    | some (_, s') => run s' as

/-- Invariant used in the proofs about ThreadlessTaskExecutor.cpp 31-74. -/
structure Inv (s : State) : Prop where
  log : s.added = s.taken.map Prod.fst ++ s.queue
  act : ∀ t, s.threads t ≠ .out ↔ s.active = some t
  own : ∀ t, s.threads t = .loop ↔ s.owner = some t

theorem init_inv : Inv init := ⟨rfl, fun t => ⟨fun h => absurd rfl h, fun h => (nomatch h)⟩, fun t => ⟨fun h => (nomatch h), fun h => (nomatch h)⟩⟩

theorem set_self {α : Type} (f : Nat → α) (i : Nat) (x : α) : set f i x i = x := by unfold set; rw [if_pos rfl]
theorem set_ne {α : Type} (f : Nat → α) {i j : Nat} (x : α) (h : j ≠ i) : set f i x j = f j := by unfold set; rw [if_neg h]

/-- The change of one thread, of `_activeExecutor` and of the mutex. -/
theorem inv_thread {s : State} (h : Inv s) (t : Nat) (p : Pc) (hs : s.active = none ∨ s.active = some t) (ho : s.owner = none ∨ s.owner = some t) (q : List Nat) (tk : List (Nat × Fate))
    (hl : s.added = tk.map Prod.fst ++ q) :
    Inv { s with queue := q, taken := tk, active := if p = .out then none else some t, owner := if p = .loop then some t else none, threads := set s.threads t p } := by
  refine ⟨hl, fun u => ?_, fun u => ?_⟩
  · simp only []
    by_cases hu : u = t
    · subst hu; rw [set_self]
      by_cases hp : p = .out
      · simp [hp]
      · simp [hp]
    · rw [set_ne _ _ hu, h.act u]
      rcases hs with hs | hs <;> rw [hs] <;> by_cases hp : p = .out <;> simp [hp, Ne.symm hu]
  · simp only []
    by_cases hu : u = t
    · subst hu; rw [set_self]
      by_cases hp : p = .loop
      · simp [hp]
      · simp [hp]
    · rw [set_ne _ _ hu, h.own u]
      rcases ho with ho | ho <;> rw [ho] <;> by_cases hp : p = .loop <;> simp [hp, Ne.symm hu]

theorem step_inv {s s' : State} {a : Act} {o : Out} (h : Inv s) (hs : step s a = some (o, s')) : Inv s' := by
  cases a with
  | add k =>
    simp only [step, addTask] at hs
    by_cases ho : s.owner = none
    · rw [if_pos ho] at hs; injection hs with hs; injection hs with _ hs; subst hs
      exact ⟨by show s.added ++ [k] = _; rw [h.log]; simp, h.act, h.own⟩
    · rw [if_neg ho] at hs; cases hs
  | clear =>
    simp only [step, clearTasks] at hs
    by_cases ho : s.owner = none
    · rw [if_pos ho] at hs; injection hs with hs; injection hs with _ hs; subst hs
      exact ⟨by show s.added = _; rw [h.log]; simp [Function.comp_def], h.act, h.own⟩
    · rw [if_neg ho] at hs; cases hs
  | enter t =>
    simp only [step, enter] at hs
    by_cases ho : s.owner = none
    · rw [if_pos ho] at hs
      by_cases ha : s.active ≠ none
      · rw [if_pos ha] at hs; injection hs with hs; injection hs with _ hs; exact hs ▸ h
      · rw [if_neg ha] at hs
        by_cases ht : s.threads t = .out
        · rw [if_pos ht] at hs; injection hs with hs; injection hs with _ hs; subst hs
          exact inv_thread h t .loop (Or.inl (Decidable.byContradiction ha)) (Or.inl ho) s.queue s.taken h.log
        · rw [if_neg ht] at hs; cases hs
    · rw [if_neg ho] at hs; cases hs
  | iterate t b =>
    simp only [step, iterate] at hs
    by_cases ht : s.threads t = .loop
    · rw [if_pos ht] at hs
      have ha : s.active = some t := (h.act t).1 (by rw [ht]; exact (fun h => nomatch h))
      have ho : s.owner = some t := (h.own t).1 ht
      have hret : Inv { s with active := none, owner := none, threads := set s.threads t .out } := inv_thread h t .out (Or.inr ha) (Or.inr ho) s.queue s.taken h.log
      cases hq : s.queue with
      | nil => rw [hq] at hs hret; injection hs with hs; injection hs with _ hs; subst hs; exact hret
      | cons k q =>
        cases b with
        | false => rw [hq] at hs hret; injection hs with hs; injection hs with _ hs; subst hs; exact hret
        | true =>
          rw [hq] at hs; injection hs with hs; injection hs with _ hs; subst hs
          have := inv_thread h t (.running k) (Or.inr ha) (Or.inr ho) q (s.taken ++ [(k, .executed t)]) (by rw [h.log, hq]; simp)
          have e : some t = s.active := ha.symm
          exact ⟨this.log, fun u => by rw [this.act u, if_neg (fun h => nomatch h), e], this.own⟩
    · rw [if_neg ht] at hs; cases hs
  | finish t b =>
    simp only [step, finish] at hs
    cases hp : s.threads t with
    | running k =>
      rw [hp] at hs; simp only [] at hs
      have ha : s.active = some t := (h.act t).1 (by rw [hp]; exact (fun h => nomatch h))
      by_cases ho : s.owner = none
      · rw [if_pos ho] at hs
        cases b with
        | true =>
          injection hs with hs; injection hs with _ hs; subst hs
          have := inv_thread h t .out (Or.inr ha) (Or.inl ho) s.queue s.taken h.log
          exact ⟨this.log, this.act, fun u => by rw [this.own u, ho]; simp⟩
        | false =>
          injection hs with hs; injection hs with _ hs; subst hs
          have := inv_thread h t .loop (Or.inr ha) (Or.inl ho) s.queue s.taken h.log
          exact ⟨this.log, fun u => by rw [this.act u, ha]; simp, this.own⟩
      · rw [if_neg ho] at hs; cases hs
    | _ => rw [hp] at hs; cases hs

theorem run_inv : ∀ {as : List Act} {s s' : State}, Inv s → run s as = some s' → Inv s'
  | [], s, s', hi, h => by injection h with h; exact h ▸ hi
  | a :: as, s, s', hi, h => by
    rw [run] at h
    cases hs : step s a with
    | none => rw [hs] at h; cases h
    | some t => obtain ⟨o, t⟩ := t; rw [hs] at h; exact run_inv (step_inv hi hs) h

/-- C62, order and at most once: the tasks taken out of the queue so far - executed or cleared -, then those waiting, are the tasks added, in the order of `AddTask`. -/
theorem tasks_in_order {as : List Act} {s : State} (h : run init as = some s) : s.added = s.taken.map Prod.fst ++ s.queue := (run_inv init_inv h).log

/-- C62: two threads never execute tasks at the same time. -/
theorem one_executor {as : List Act} {s : State} (h : run init as = some s) (t u : Nat) (ht : s.threads t ≠ .out) (hu : s.threads u ≠ .out) : t = u := by
  have hi := run_inv init_inv h
  have := ((hi.act t).1 ht).symm.trans ((hi.act u).1 hu)
  injection this

/-- C62: a call of `ExecuteTasks` that returns has executed everything, unless its token was cancelled. -/
theorem executes_all {s s' : State} {t : Nat} {token : Bool} (hs : step s (.iterate t token) = some (.returned, s')) : s'.queue = [] ∨ token = false := by
  simp only [step, iterate] at hs
  by_cases ht : s.threads t = .loop
  · rw [if_pos ht] at hs
    cases hq : s.queue with
    | nil => rw [hq] at hs; injection hs with hs; injection hs with _ hs; subst hs; exact Or.inl rfl
    | cons k q =>
      cases token with
      | false => exact Or.inr rfl
      | true => rw [hq] at hs; injection hs with hs; injection hs with hs _; cases hs
  · rw [if_neg ht] at hs; cases hs

/-- C62: `ExecuteTasks` is refused exactly when a call of it is in progress - in another thread, or around the task that makes the call -, and in particular not after one has
returned or thrown. -/
theorem refused_iff {as : List Act} {s s' : State} {t : Nat} {o : Out} (h : run init as = some s) (hs : step s (.enter t) = some (o, s')) : o = .refused ↔ ∃ u, s.threads u ≠ .out := by
  have hi := run_inv init_inv h
  simp only [step, enter] at hs
  by_cases ho : s.owner = none
  · rw [if_pos ho] at hs
    by_cases ha : s.active ≠ none
    · rw [if_pos ha] at hs; injection hs with hs; injection hs with h1 _
      refine ⟨fun _ => ?_, fun _ => h1.symm⟩
      cases hx : s.active with
      | none => exact absurd hx ha
      | some u => exact ⟨u, (hi.act u).2 hx⟩
    · rw [if_neg ha] at hs
      have ha := Decidable.byContradiction ha
      by_cases ht : s.threads t = .out
      · rw [if_pos ht] at hs; injection hs with hs; injection hs with h1 _
        refine ⟨fun e => ?_, fun ⟨u, hu⟩ => ?_⟩
        · rw [e] at h1; cases h1
        · have := (hi.act u).1 hu; rw [ha] at this; cases this
      · rw [if_neg ht] at hs; cases hs
  · rw [if_neg ho] at hs; cases hs

/-- C62: nobody is stuck: a thread at the loop condition can go on, and a thread whose task is over, or that calls one of the methods, can go on when no other thread is at the loop
condition. -/
theorem progress {as : List Act} {s : State} (h : run init as = some s) (t : Nat) :
    (s.threads t = .loop → ∀ b, ∃ r, step s (.iterate t b) = some r) ∧
    ((∀ u, s.threads u ≠ .loop) → (∀ k, s.threads t = .running k → ∀ b, ∃ r, step s (.finish t b) = some r) ∧ (s.threads t = .out → ∃ r, step s (.enter t) = some r) ∧
      (∀ k, ∃ r, step s (.add k) = some r) ∧ ∃ r, step s .clear = some r) := by
  have hi := run_inv init_inv h
  refine ⟨fun ht b => ?_, fun hn => ?_⟩
  · simp only [step, iterate, if_pos ht]
    cases s.queue <;> cases b <;> exact ⟨_, rfl⟩
  · have ho : s.owner = none := by
      cases hx : s.owner with
      | none => rfl
      | some u => exact absurd ((hi.own u).2 hx) (hn u)
    refine ⟨fun k hk b => ?_, fun ht => ?_, fun k => ?_, ?_⟩
    · simp only [step, finish, hk, if_pos ho]
      cases b <;> exact ⟨_, rfl⟩
    · simp only [step, enter, if_pos ho, if_pos ht]
      by_cases ha : s.active ≠ none
      · rw [if_pos ha]; exact ⟨_, rfl⟩
      · rw [if_neg ha]; exact ⟨_, rfl⟩
    · simp only [step, addTask, if_pos ho]; exact ⟨_, rfl⟩
    · simp only [step, clearTasks, if_pos ho]; exact ⟨_, rfl⟩

/-! Non-vacuity: a task added by a task, a refused call, a clear during an execution, an exception, and the next call. -/
example : (run init [.add 1, .add 2, .enter 7, .iterate 7 true, .enter 8, .add 3, .clear, .add 4, .finish 7 false, .iterate 7 true, .finish 7 true, .add 5, .enter 8, .iterate 8 true,
    .finish 8 false, .iterate 8 true]).map (fun s => (s.added, s.taken, s.queue, s.active)) =
    some ([1, 2, 3, 4, 5], [(1, .executed 7), (2, .cleared), (3, .cleared), (4, .executed 7), (5, .executed 8)], [], none) := rfl
example : ∃ s r, run init [.add 1, .enter 7, .iterate 7 true] = some s ∧ s.threads 7 = .running 1 ∧ step s (.enter 7) = some (.refused, r) := ⟨_, _, rfl, rfl, rfl⟩

end Verif.Thread.Threadless

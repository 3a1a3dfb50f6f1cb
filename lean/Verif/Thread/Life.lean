/-
Model of `TaskLifeToken`, `FutureExecutionTester` and `LocalExecutionGuard` (stingraykit/thread/TaskLifeToken.h, TaskLifeToken.cpp) as a transition system, and property C41.
Threads are numbers. A token that is reset drops its `TaskLifeTokenImpl` for a new one while testers made before keep the old one, so there is one state per generation of the token;
a tester of generation `g` is used with `start`. Locking a free or already owned mutex is one step together with the few lines run under it (TryStartExecution keeps the mutex).
Not modelled: destruction of the token (it only logs, TaskLifeToken.cpp:18-22, 78-82), dead and dummy tokens except that a dummy tester is `none`.
-/
namespace Verif.Thread.Life

/-- `TaskLifeTokenImpl`: TaskLifeToken.h:25-30; the recursive mutex `_sync` is its owner and its depth, `running` counts the guards of each thread that allowed the execution and are
not destroyed, `errors` the messages of TaskLifeToken.cpp:52. -/
structure Impl where
  owner : Option Nat
  depth : Nat
  alive : Bool
  threadId : Option Nat
  running : Nat → Nat
  errors : Nat

/-- TaskLifeToken.h:33-35. -/
def Impl.new : Impl := ⟨none, 0, true, none, fun _ => 0, 0⟩

/-- Change of a function at one point; a helper of the model of TaskLifeToken.cpp 18-89 and TaskLifeToken.h 25-111. -/
def set {α : Type} (f : Nat → α) (i : Nat) (x : α) : Nat → α := fun j => if j = i then x else f j

/-- `Mutex::Lock` by thread `t` of a recursive mutex is possible.  For TaskLifeToken.cpp 18-89 and TaskLifeToken.h 25-111. -/
def Impl.lockable (m : Impl) (t : Nat) : Bool := m.owner == none || m.owner == some t

/-- `Mutex::Unlock`.  For TaskLifeToken.cpp 18-89 and TaskLifeToken.h 25-111. -/
def Impl.unlock (m : Impl) : Impl := if m.depth - 1 = 0 then { m with depth := m.depth - 1, owner := none } else { m with depth := m.depth - 1 }

/-- `TryStartExecution` and `LocalExecutionGuard::LocalExecutionGuard`: TaskLifeToken.cpp:25-37, 60-68; whether the execution is allowed. -/
def Impl.tryStart (m : Impl) (t : Nat) : Option (Bool × Impl) :=
  if m.lockable t then
    if m.alive then some (true, { m with owner := some t, depth := m.depth + 1, threadId := some t, running := set m.running t (m.running t + 1) })
    else some (false, m)
  else none

/-- `FinishExecution`, called by `~LocalExecutionGuard` in the thread that made the guard: TaskLifeToken.cpp:40-44, 71-75. -/
def Impl.finish (m : Impl) (t : Nat) : Option Impl :=
  if 0 < m.running t then some { m with threadId := none, running := set m.running t (m.running t - 1) }.unlock else none

/-- `Kill`: TaskLifeToken.cpp:47-55. -/
def Impl.kill (m : Impl) (t : Nat) : Option Impl :=
  if m.lockable t then some { m with alive := false, errors := if m.threadId = some t then m.errors + 1 else m.errors } else none

/-- The token: its generations (TaskLifeToken.h:98) and the one in use. -/
structure State where
  impls : Nat → Impl
  cur : Nat

/-- The state after construction, TaskLifeToken.cpp 18-89 and TaskLifeToken.h 25-111. -/
def init : State := ⟨fun _ => Impl.new, 0⟩

/-- The steps a schedule of TaskLifeToken.cpp 18-89 and TaskLifeToken.h 25-111 is made of. -/
inductive Act where
  | start (t : Nat) (tester : Option Nat)   -- thread `t` makes a guard of a tester and runs the task if allowed; `none` is the dummy tester
  | finish (t : Nat) (tester : Option Nat)  -- the task is over, the guard is destroyed
  | release (t : Nat)                       -- thread `t` calls `Release`
  | reset (t : Nat)                         -- thread `t` calls `Reset`
  deriving DecidableEq, Repr

/-- What the caller of the step gets: whether the task may run.  For TaskLifeToken.cpp 18-89 and TaskLifeToken.h 25-111. -/
inductive Out where
  | allowed | refused | done
  deriving DecidableEq, Repr

/-- The steps. `Release`: TaskLifeToken.cpp:85-89; `Reset`: 92-96 (99-108 for `TaskLifeHolder`); a tester is made by `GetExecutionTester` (TaskLifeToken.h:110-111) of a generation up to now. -/
def step (s : State) : Act → Option (Out × State)
  | .start _ none => some (.allowed, s)
  | .start t (some g) => if g ≤ s.cur then
      match (s.impls g).tryStart t with
      | none => none
      | some (true, m) => some (.allowed, { s with impls := set s.impls g m })
      | some (false, m) => some (.refused, { s with impls := set s.impls g m })
    else none
  | .finish _ none => some (.done, s)
  | .finish t (some g) => match (s.impls g).finish t with
    | none => none
    | some m => some (.done, { s with impls := set s.impls g m })
  | .release t => match (s.impls s.cur).kill t with
    | none => none
    | some m => some (.done, { s with impls := set s.impls s.cur m })
  | .reset t => match (s.impls s.cur).kill t with
    | none => none
    | some m => some (.done, ⟨set s.impls s.cur m, s.cur + 1⟩)

/-- All the steps of a schedule; `none` when one of them is not possible.  For TaskLifeToken.cpp 18-89 and TaskLifeToken.h 25-111. -/
def run (s : State) : List Act → Option State
  | [] => some s
  | a :: as => match step s a with
    | none => none
    | some (_, s') => run s' as

/-! ### What the property is about -/

/-- Thread `t` is inside a task guarded by a tester of generation `g`. -/
def Spec.Inside (s : State) (g t : Nat) : Prop := 0 < (s.impls g).running t

/-- Invariant used in the proofs about TaskLifeToken.cpp 18-89 and TaskLifeToken.h 25-111. -/
structure IInv (m : Impl) : Prop where
  owner : ∀ t, m.owner = some t → 0 < m.depth ∧ m.running t = m.depth
  free : m.owner = none → m.depth = 0
  others : ∀ t, m.owner ≠ some t → m.running t = 0
  tid : ∀ t, m.threadId = some t → m.owner = some t

theorem new_inv : IInv Impl.new := ⟨fun _ h => (nomatch h), fun _ => rfl, fun _ _ => rfl, fun _ h => (nomatch h)⟩

theorem lockable_iff (m : Impl) (t : Nat) : m.lockable t = true ↔ m.owner = none ∨ m.owner = some t := by simp [Impl.lockable]

theorem tryStart_inv {m m' : Impl} {t : Nat} {b : Bool} (h : IInv m) (hs : m.tryStart t = some (b, m')) : IInv m' := by
  unfold Impl.tryStart at hs
  by_cases hl : m.lockable t = true
  · rw [if_pos hl] at hs
    rw [lockable_iff] at hl
    by_cases ha : m.alive = true
    · rw [if_pos ha] at hs
      injection hs with hs; injection hs with _ hs; subst hs
      have hr : m.running t = m.depth := by
        rcases hl with hl | hl
        · rw [h.others t (by rw [hl]; exact (fun h => nomatch h)), h.free hl]
        · exact (h.owner t hl).2
      have hn : ∀ u, u ≠ t → m.owner ≠ some u := by
        intro u hu hc
        rcases hl with hl | hl
        · rw [hl] at hc; cases hc
        · rw [hl] at hc; injection hc with hc; exact hu hc.symm
      refine ⟨fun u hu => ?_, fun hu => (by cases hu), fun u hu => ?_, fun u hu => hu⟩
      · injection hu with hu; subst hu
        simp [set, hr]
      · have : u ≠ t := fun e => hu (by rw [e])
        simp only [set, if_neg this]
        exact h.others u (hn u this)
    · rw [if_neg ha] at hs
      injection hs with hs; injection hs with _ hs; exact hs ▸ h
  · rw [if_neg hl] at hs; cases hs

theorem finish_inv {m m' : Impl} {t : Nat} (h : IInv m) (hs : m.finish t = some m') : IInv m' := by
  unfold Impl.finish at hs
  by_cases hr : 0 < m.running t
  · rw [if_pos hr] at hs
    injection hs with hs; subst hs
    have ho : m.owner = some t := Decidable.byContradiction fun hc => by rw [h.others t hc] at hr; cases hr
    obtain ⟨hd, he⟩ := h.owner t ho
    unfold Impl.unlock
    simp only []
    by_cases hz : m.depth - 1 = 0
    · rw [if_pos hz]
      refine ⟨fun _ hu => (by cases hu), fun _ => hz, fun u _ => ?_, fun _ hu => (by cases hu)⟩
      by_cases hu : u = t
      · subst hu; simp only [set, if_pos]; omega
      · simp only [set, if_neg hu]
        exact h.others u (by rw [ho]; intro e; injection e with e; exact hu e.symm)
    · rw [if_neg hz]
      refine ⟨fun u hu => ?_, fun hu => ?_, fun u hu => ?_, fun _ hu => (by cases hu)⟩
      · have hu : m.owner = some u := hu
        rw [ho] at hu
        injection hu with hu; subst hu
        simp only [set, if_pos]; omega
      · have hu : m.owner = none := hu
        rw [ho] at hu; cases hu
      · have : u ≠ t := fun e => hu (by rw [e]; exact ho)
        simp only [set, if_neg this]
        exact h.others u hu
  · rw [if_neg hr] at hs; cases hs

theorem kill_inv {m m' : Impl} {t : Nat} (h : IInv m) (hs : m.kill t = some m') : IInv m' ∧ m'.alive = false ∧ m'.running = m.running := by
  unfold Impl.kill at hs
  by_cases hl : m.lockable t = true
  · rw [if_pos hl] at hs
    injection hs with hs; subst hs
    exact ⟨⟨h.owner, h.free, h.others, h.tid⟩, rfl, rfl⟩
  · rw [if_neg hl] at hs; cases hs

theorem set_prop {f : Nat → Impl} {i : Nat} {x : Impl} {P : Impl → Prop} (hf : ∀ j, P (f j)) (hx : P x) : ∀ j, P (set f i x j) := by
  intro j; unfold set; by_cases h : j = i
  · rw [if_pos h]; exact hx
  · rw [if_neg h]; exact hf j

theorem set_self {α : Type} (f : Nat → α) (i : Nat) (x : α) : set f i x i = x := by unfold set; rw [if_pos rfl]
theorem set_ne {α : Type} (f : Nat → α) {i j : Nat} (x : α) (h : j ≠ i) : set f i x j = f j := by unfold set; rw [if_neg h]

/-- Invariant used in the proofs about TaskLifeToken.cpp 18-89 and TaskLifeToken.h 25-111. -/
structure Inv (s : State) : Prop where
  impls : ∀ g, IInv (s.impls g)
  old : ∀ g, g < s.cur → (s.impls g).alive = false
  fresh : ∀ g, s.cur < g → s.impls g = Impl.new

theorem init_inv : Inv init := ⟨fun _ => new_inv, fun _ h => (nomatch h), fun _ _ => rfl⟩

/-- What a step can do to a generation: nothing that revives it or starts a task in it once it is dead.  For TaskLifeToken.cpp 18-89 and TaskLifeToken.h 25-111. -/
structure Mono (m m' : Impl) : Prop where
  dead : m.alive = false → m'.alive = false
  less : m.alive = false → ∀ t, m'.running t ≤ m.running t

theorem mono_refl (m : Impl) : Mono m m := ⟨fun h => h, fun _ _ => Nat.le_refl _⟩

theorem tryStart_mono {m m' : Impl} {t : Nat} {b : Bool} (hs : m.tryStart t = some (b, m')) : Mono m m' ∧ (m.alive = false → b = false) := by
  unfold Impl.tryStart at hs
  by_cases hl : m.lockable t = true
  · rw [if_pos hl] at hs
    by_cases ha : m.alive = true
    · exact ⟨⟨fun h => (by rw [ha] at h; cases h), fun h => (by rw [ha] at h; cases h)⟩, fun h => (by rw [ha] at h; cases h)⟩
    · rw [if_neg ha] at hs
      injection hs with hs; injection hs with hb hs; subst hs; subst hb
      exact ⟨mono_refl _, fun _ => rfl⟩
  · rw [if_neg hl] at hs; cases hs

theorem finish_mono {m m' : Impl} {t : Nat} (hs : m.finish t = some m') : Mono m m' ∧ ∀ u, m'.running u ≤ m.running u := by
  unfold Impl.finish at hs
  by_cases hr : 0 < m.running t
  · rw [if_pos hr] at hs
    injection hs with hs; subst hs
    have hle : ∀ u, set m.running t (m.running t - 1) u ≤ m.running u := by
      intro u
      unfold set; by_cases h : u = t
      · rw [if_pos h, h]; omega
      · rw [if_neg h]; omega
    unfold Impl.unlock
    simp only []
    by_cases hz : m.depth - 1 = 0
    · rw [if_pos hz]; exact ⟨⟨fun h => h, fun _ => hle⟩, hle⟩
    · rw [if_neg hz]; exact ⟨⟨fun h => h, fun _ => hle⟩, hle⟩
  · rw [if_neg hr] at hs; cases hs

theorem set_mono {f : Nat → Impl} {i : Nat} {x : Impl} (hx : Mono (f i) x) : ∀ j, Mono (f j) (set f i x j) := by
  intro j; unfold set; by_cases h : j = i
  · rw [if_pos h, h]; exact hx
  · rw [if_neg h]; exact mono_refl _

theorem step_inv {s s' : State} {a : Act} {o : Out} (h : Inv s) (hs : step s a = some (o, s')) :
    Inv s' ∧ (∀ g, Mono (s.impls g) (s'.impls g)) ∧ (∀ t g, a = .start t (some g) → (s.impls g).alive = false → o = .refused) := by
  cases a with
  | start t g =>
    cases g with
    | none => injection hs with hs; injection hs with _ hs; subst hs; exact ⟨h, fun _ => mono_refl _, fun _ _ e => nomatch e⟩
    | some g =>
      simp only [step] at hs
      by_cases hg : g ≤ s.cur
      · rw [if_pos hg] at hs
        cases ht : (s.impls g).tryStart t with
        | none => rw [ht] at hs; cases hs
        | some r =>
          obtain ⟨b, m⟩ := r
          rw [ht] at hs
          have hm := tryStart_mono ht
          have hi := tryStart_inv (h.impls g) ht
          have key : Inv { s with impls := set s.impls g m } := by
            refine ⟨set_prop h.impls hi, fun k hk => ?_, fun k hk => ?_⟩
            · simp only []
              by_cases hkg : k = g
              · subst hkg; rw [set_self]; exact hm.1.dead (h.old k hk)
              · rw [set_ne _ _ hkg]; exact h.old k hk
            · simp only []
              rw [set_ne _ _ (show k ≠ g from by have : s.cur < k := hk; omega)]; exact h.fresh k hk
          cases b with
          | true =>
            injection hs with hs; injection hs with _ hs; subst hs
            refine ⟨key, set_mono hm.1, fun t' g' e hd => ?_⟩
            injection e with e1 e2; injection e2 with e2; subst e2
            exact nomatch hm.2 hd
          | false =>
            injection hs with hs; injection hs with ho hs; subst hs; subst ho
            exact ⟨key, set_mono hm.1, fun _ _ _ _ => rfl⟩
      · rw [if_neg hg] at hs; cases hs
  | finish t g =>
    cases g with
    | none => injection hs with hs; injection hs with _ hs; subst hs; exact ⟨h, fun _ => mono_refl _, fun _ _ e => nomatch e⟩
    | some g =>
      simp only [step] at hs
      cases ht : (s.impls g).finish t with
      | none => rw [ht] at hs; cases hs
      | some m =>
        rw [ht] at hs
        injection hs with hs; injection hs with _ hs; subst hs
        have hm := finish_mono ht
        refine ⟨⟨set_prop h.impls (finish_inv (h.impls g) ht), fun k hk => ?_, fun k hk => ?_⟩, set_mono hm.1, fun _ _ e => nomatch e⟩
        · simp only []
          by_cases hkg : k = g
          · subst hkg; rw [set_self]; exact hm.1.dead (h.old k hk)
          · rw [set_ne _ _ hkg]; exact h.old k hk
        · simp only []
          by_cases hkg : k = g
          · subst hkg; rw [h.fresh k hk] at ht; cases ht
          · rw [set_ne _ _ hkg]; exact h.fresh k hk
  | release t =>
    simp only [step] at hs
    cases ht : (s.impls s.cur).kill t with
    | none => rw [ht] at hs; cases hs
    | some m =>
      rw [ht] at hs
      injection hs with hs; injection hs with _ hs; subst hs
      obtain ⟨k1, k2, k3⟩ := kill_inv (h.impls s.cur) ht
      refine ⟨⟨set_prop h.impls k1, fun k hk => ?_, fun k hk => ?_⟩, set_mono ⟨fun _ => k2, fun _ u => by rw [k3]; exact Nat.le_refl _⟩, fun _ _ e => nomatch e⟩
      · simp only []
        rw [set_ne _ _ (show k ≠ s.cur from by have : k < s.cur := hk; omega)]; exact h.old k hk
      · simp only []
        rw [set_ne _ _ (show k ≠ s.cur from by have : s.cur < k := hk; omega)]; exact h.fresh k hk
  | reset t =>
    simp only [step] at hs
    cases ht : (s.impls s.cur).kill t with
    | none => rw [ht] at hs; cases hs
    | some m =>
      rw [ht] at hs
      injection hs with hs; injection hs with _ hs; subst hs
      obtain ⟨k1, k2, k3⟩ := kill_inv (h.impls s.cur) ht
      refine ⟨⟨set_prop h.impls k1, fun k hk => ?_, fun k hk => ?_⟩, set_mono ⟨fun _ => k2, fun _ u => by rw [k3]; exact Nat.le_refl _⟩, fun _ _ e => nomatch e⟩
      · by_cases hkg : k = s.cur
        · subst hkg; show (set s.impls s.cur m s.cur).alive = false; rw [set_self]; exact k2
        · show (set s.impls s.cur m k).alive = false
          rw [set_ne _ _ hkg]; exact h.old k (by have : k < s.cur + 1 := hk; omega)
      · show set s.impls s.cur m k = Impl.new
        have hk : s.cur + 1 < k := hk
        rw [set_ne _ _ (show k ≠ s.cur by omega)]; exact h.fresh k (by omega)

theorem run_inv : ∀ {as : List Act} {s s' : State}, Inv s → run s as = some s' → Inv s' ∧ ∀ g, Mono (s.impls g) (s'.impls g)
  | [], s, s', hi, h => by injection h with h; exact ⟨h ▸ hi, fun g => by rw [h]; exact mono_refl _⟩
  | a :: as, s, s', hi, h => by
    rw [run] at h
    cases hs : step s a with
    | none => rw [hs] at h; cases h
    | some t =>
      obtain ⟨o, t⟩ := t
      rw [hs] at h
      obtain ⟨h1, h2, _⟩ := step_inv hi hs
      obtain ⟨r1, r2⟩ := run_inv h1 h
      exact ⟨r1, fun g => ⟨fun hd => (r2 g).dead ((h2 g).dead hd), fun hd u => Nat.le_trans ((r2 g).less ((h2 g).dead hd) u) ((h2 g).less hd u)⟩⟩

/-- C41, mutual exclusion: tasks guarded by the same token never run in two threads at the same time. -/
theorem one_thread {as : List Act} {s : State} (h : run init as = some s) (g t u : Nat) (ht : Spec.Inside s g t) (hu : Spec.Inside s g u) : t = u := by
  have hi := (run_inv init_inv h).1.impls g
  have e : ∀ t, Spec.Inside s g t → (s.impls g).owner = some t := fun t ht =>
    Decidable.byContradiction fun hc => by unfold Spec.Inside at ht; rw [hi.others t hc] at ht; cases ht
  have := (e t ht).symm.trans (e u hu)
  injection this

/-- `Release` (or `Reset`) by thread `r` in a schedule: `s` before, `s1` when it has returned. -/
theorem killed {as : List Act} {s s1 : State} {r : Nat} {o : Out} (h : run init as = some s) (hr : step s (.release r) = some (o, s1) ∨ step s (.reset r) = some (o, s1)) :
    Inv s1 ∧ (s1.impls s.cur).alive = false ∧ (s1.impls s.cur).running = (s.impls s.cur).running ∧ ∀ t, t ≠ r → (s.impls s.cur).running t = 0 := by
  have hi := (run_inv init_inv h).1
  have ho : ∀ m, (s.impls s.cur).kill r = some m → ∀ t, t ≠ r → (s.impls s.cur).running t = 0 := by
    intro m hm t ht
    unfold Impl.kill at hm
    by_cases hl : (s.impls s.cur).lockable r = true
    · rw [lockable_iff] at hl
      refine (hi.impls s.cur).others t ?_
      rcases hl with hl | hl
      · rw [hl]; exact fun h => nomatch h
      · rw [hl]; intro e; injection e with e; exact ht e.symm
    · rw [if_neg hl] at hm; cases hm
  rcases hr with hr | hr
  · refine ⟨(step_inv hi hr).1, ?_⟩
    simp only [step] at hr
    cases hk : (s.impls s.cur).kill r with
    | none => rw [hk] at hr; cases hr
    | some m =>
      rw [hk] at hr
      injection hr with hr; injection hr with _ hr; subst hr
      obtain ⟨_, k2, k3⟩ := kill_inv (hi.impls s.cur) hk
      simp only [set_self]
      exact ⟨k2, k3, ho m hk⟩
  · refine ⟨(step_inv hi hr).1, ?_⟩
    simp only [step] at hr
    cases hk : (s.impls s.cur).kill r with
    | none => rw [hk] at hr; cases hr
    | some m =>
      rw [hk] at hr
      injection hr with hr; injection hr with _ hr; subst hr
      obtain ⟨_, k2, k3⟩ := kill_inv (hi.impls s.cur) hk
      simp only [set_self]
      exact ⟨k2, k3, ho m hk⟩

/-- C41: once `Release` or `Reset`, called by a thread that is not inside a task guarded by the token, has returned, no task guarded by a tester the token gave out before is running,
none runs at any later time, and every later attempt to run one is refused. -/
theorem release_stops {as bs : List Act} {s s1 s2 : State} {r : Nat} {o : Out} (h : run init as = some s) (hin : ¬ Spec.Inside s s.cur r)
    (hr : step s (.release r) = some (o, s1) ∨ step s (.reset r) = some (o, s1)) (h2 : run s1 bs = some s2) :
    (∀ t, ¬ Spec.Inside s2 s.cur t) ∧ ∀ t o' s3, step s2 (.start t (some s.cur)) = some (o', s3) → o' = .refused := by
  obtain ⟨hi, hd, hrun, ho⟩ := killed h hr
  obtain ⟨hi2, hm⟩ := run_inv hi h2
  have hz : ∀ t, (s1.impls s.cur).running t = 0 := by
    intro t
    rw [hrun]
    by_cases e : t = r
    · subst e; unfold Spec.Inside at hin; omega
    · exact ho t e
  refine ⟨fun t hc => ?_, fun t o' s3 hs => ?_⟩
  · have := (hm s.cur).less hd t
    unfold Spec.Inside at hc
    rw [hz t] at this; omega
  · exact (step_inv hi2 hs).2.2 t s.cur rfl ((hm s.cur).dead hd)

/-- C41 for a `Release` from inside a task guarded by the token: it returns while that task is still running in the calling thread, but no other thread is in a task, and none starts. -/
theorem release_inside {as bs : List Act} {s s1 s2 : State} {r : Nat} {o : Out} (h : run init as = some s)
    (hr : step s (.release r) = some (o, s1) ∨ step s (.reset r) = some (o, s1)) (h2 : run s1 bs = some s2) :
    (∀ t, t ≠ r → ¬ Spec.Inside s2 s.cur t) ∧ (s2.impls s.cur).running r ≤ (s.impls s.cur).running r ∧
    ∀ t o' s3, step s2 (.start t (some s.cur)) = some (o', s3) → o' = .refused := by
  obtain ⟨hi, hd, hrun, ho⟩ := killed h hr
  obtain ⟨hi2, hm⟩ := run_inv hi h2
  refine ⟨fun t ht hc => ?_, by rw [← hrun]; exact (hm s.cur).less hd r, fun t o' s3 hs => (step_inv hi2 hs).2.2 t s.cur rfl ((hm s.cur).dead hd)⟩
  have := (hm s.cur).less hd t
  unfold Spec.Inside at hc
  rw [hrun, ho t ht] at this; omega

/-- `Release` blocks for running tasks only: it can return whenever no other thread is inside a task of the token; and a task of a living token may start then. -/
theorem release_possible {as : List Act} {s : State} (h : run init as = some s) (r : Nat) (hn : ∀ t, t ≠ r → ¬ Spec.Inside s s.cur t) :
    (∃ s', step s (.release r) = some (.done, s')) ∧ (∃ s', step s (.reset r) = some (.done, s')) ∧
    ((s.impls s.cur).alive = true → ∃ s', step s (.start r (some s.cur)) = some (.allowed, s') ∧ Spec.Inside s' s.cur r) := by
  have hi := (run_inv init_inv h).1.impls s.cur
  have hl : (s.impls s.cur).lockable r = true := by
    rw [lockable_iff]
    cases ho : (s.impls s.cur).owner with
    | none => exact Or.inl rfl
    | some t =>
      by_cases e : t = r
      · exact Or.inr (by rw [e])
      · exact absurd (show 0 < (s.impls s.cur).running t by rw [(hi.owner t ho).2]; exact (hi.owner t ho).1) (hn t e)
  refine ⟨?_, ?_, fun ha => ?_⟩
  · simp only [step, Impl.kill, if_pos hl]; exact ⟨_, rfl⟩
  · simp only [step, Impl.kill, if_pos hl]; exact ⟨_, rfl⟩
  · simp only [step, Impl.tryStart, if_pos hl, if_pos ha, if_pos (Nat.le_refl _)]
    refine ⟨_, rfl, ?_⟩
    simp [Spec.Inside, set]

/-- A new generation is alive until released: right after `Reset` tasks of testers made then may run. -/
theorem reset_revives {as : List Act} {s s1 : State} {r : Nat} {o : Out} (h : run init as = some s) (hr : step s (.reset r) = some (o, s1)) :
    s1.cur = s.cur + 1 ∧ (s1.impls s1.cur).alive = true := by
  simp only [step] at hr
  cases hk : (s.impls s.cur).kill r with
  | none => rw [hk] at hr; cases hr
  | some m =>
    rw [hk] at hr
    injection hr with hr; injection hr with _ hr; subst hr
    refine ⟨rfl, ?_⟩
    simp only []
    rw [set_ne _ _ (by omega), (run_inv init_inv h).1.fresh _ (Nat.lt_succ_self _)]; rfl

/-- The error message of `Kill` is only written when the caller is inside a task of the token ... -/
theorem error_means_inside {as : List Act} {s s1 : State} {r : Nat} {o : Out} (h : run init as = some s) (hr : step s (.release r) = some (o, s1))
    (he : (s1.impls s.cur).errors ≠ (s.impls s.cur).errors) : Spec.Inside s s.cur r := by
  have hi := (run_inv init_inv h).1.impls s.cur
  simp only [step, Impl.kill] at hr
  by_cases hl : (s.impls s.cur).lockable r = true
  · rw [if_pos hl] at hr
    injection hr with hr; injection hr with _ hr; subst hr
    simp only [set_self] at he
    by_cases ht : (s.impls s.cur).threadId = some r
    · have := hi.owner r (hi.tid r ht)
      unfold Spec.Inside; omega
    · rw [if_neg ht] at he; exact absurd rfl he
  · rw [if_neg hl] at hr; cases hr

/-- ... but not always: after a nested task of the same token the message is missed. -/
theorem error_missed_violated : ∃ s, run init [.start 1 (some 0), .start 1 (some 0), .finish 1 (some 0)] = some s ∧ Spec.Inside s s.cur 1 ∧
    ∃ s1, step s (.release 1) = some (.done, s1) ∧ (s1.impls s.cur).errors = (s.impls s.cur).errors :=
  ⟨_, rfl, by unfold Spec.Inside; decide, _, rfl, rfl⟩

/-! Non-vacuity: two threads, a nested task, a refused task of the old generation and a running task of the new one. -/
example : (run init [.start 1 (some 0), .start 1 (some 0), .finish 1 (some 0), .finish 1 (some 0), .start 2 (some 0), .finish 2 (some 0), .reset 3, .start 1 (some 0), .start 2 (some 1)]).map
    (fun s => (s.cur, (s.impls 0).alive, (s.impls 0).running 1, (s.impls 1).running 2, (s.impls 1).owner)) = some (1, false, 0, 1, some 2) := rfl
example : ∃ s, run init [.start 1 (some 0)] = some s ∧ Spec.Inside s s.cur 1 ∧ step s (.release 2) = none ∧ step s (.start 2 (some 0)) = none :=
  ⟨_, rfl, by unfold Spec.Inside; decide, rfl, rfl⟩
example : ∃ s s1, run init [.start 1 (some 0), .finish 1 (some 0)] = some s ∧ ¬ Spec.Inside s s.cur 2 ∧ step s (.release 2) = some (.done, s1) :=
  ⟨_, _, rfl, by unfold Spec.Inside; decide, rfl⟩

end Verif.Thread.Life

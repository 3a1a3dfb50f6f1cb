import Verif.Thread.SyncValue
/-!
Expressions on a `SyncValue` are atomic.
-/
namespace Verif.Thread.SyncValue

variable {V L : Type}

/-- The accesses of one expression of thread `t`, all at once. -/
def whole (t : Nat) (fs : List (Op V L)) (x : V × (Nat → L)) : V × (Nat → L) :=
  fs.foldl (fun x f => ((f x.1 (x.2 t)).1, fun i => if i = t then (f x.1 (x.2 t)).2 else x.2 i)) x

/-- Expressions one after another. -/
def serial (x : V × (Nat → L)) (order : List (Nat × Op V L × List (Op V L))) : V × (Nat → L) :=
  order.foldl (fun x e => whole e.1 (e.2.1 :: e.2.2) x) x

/-- The accesses left in an expression. -/
def ops : List (Instr V L) → List (Op V L)
  | [] => []
  | .op f :: c => f :: ops c
  | _ :: c => ops c

/-- The locks of what is left end with it and not before. -/
inductive Bal : Nat → List (Instr V L) → Prop
  | last : Bal 1 [.unlock]
  | op {d f c} : 0 < d → Bal d c → Bal d (.op f :: c)
  | lock {d c} : 0 < d → Bal (d + 1) c → Bal d (.lock :: c)
  | unlock {d c} : 0 < d → Bal d c → Bal (d + 1) (.unlock :: c)

theorem bal_unlocks : ∀ d : Nat, Bal (V := V) (L := L) (d + 1) (List.replicate (d + 1) .unlock)
  | 0 => .last
  | d + 1 => .unlock (Nat.succ_pos d) (bal_unlocks d)

theorem bal_tail (fs : List (Op V L)) : ∀ d : Nat, 0 < d → Bal d ((fs.flatMap fun f => [Instr.lock, .op f]) ++ List.replicate (fs.length + d) .unlock) := by
  induction fs with
  | nil =>
    intro d hd
    obtain ⟨k, rfl⟩ : ∃ k, d = k + 1 := ⟨d - 1, by omega⟩
    simpa using bal_unlocks k
  | cons f fs ih =>
    intro d hd
    have := ih (d + 1) (Nat.succ_pos d)
    rw [List.flatMap_cons, List.length_cons, show fs.length + 1 + d = fs.length + (d + 1) by omega]
    exact .lock hd (.op (Nat.succ_pos d) this)

theorem bal_begun (e : Op V L × List (Op V L)) : Bal 1 (begun e) := .op Nat.one_pos (bal_tail e.2 1 Nat.one_pos)

theorem ops_unlocks (n : Nat) : ops (List.replicate n (Instr.unlock : Instr V L)) = [] := by
  induction n with
  | zero => rfl
  | succ n ih => rw [List.replicate_succ]; exact ih

theorem ops_begun (e : Op V L × List (Op V L)) : ops (begun e) = e.1 :: e.2 := by
  obtain ⟨f, fs⟩ := e
  have : ∀ (n : Nat), ops ((fs.flatMap fun f => [Instr.lock, .op f]) ++ List.replicate n .unlock) = fs := by
    intro n
    induction fs with
    | nil => exact ops_unlocks n
    | cons g gs ih => exact congrArg (g :: ·) ih
  exact congrArg (f :: ·) (this _)

theorem Bal.of_lock {d : Nat} {c : List (Instr V L)} (h : Bal d (.lock :: c)) : Bal (d + 1) c := by cases h; assumption
theorem Bal.of_op {d : Nat} {f : Op V L} {c : List (Instr V L)} (h : Bal d (.op f :: c)) : Bal d c := by cases h; assumption
theorem Bal.of_unlock {d : Nat} {c : List (Instr V L)} (h : Bal d (.unlock :: c)) : (d - 1 = 0 ∧ c = []) ∨ (d - 1 ≠ 0 ∧ Bal (d - 1) c) := by
  cases h with
  | last => exact Or.inl ⟨rfl, rfl⟩
  | unlock h1 h2 => exact Or.inr ⟨by simpa using Nat.ne_of_gt h1, h2⟩

/-- `order` is an order of the expressions begun, in which everything done so far, and what is left of the one that is running, is serial. -/
structure Inv (x0 : V × (Nat → L)) (prog : Nat → List (Op V L × List (Op V L))) (s : State V L) (order : List (Nat × Op V L × List (Op V L))) : Prop where
  free : s.owner = none → s.depth = 0 ∧ (∀ t, (s.threads t).cur = []) ∧ (s.value, fun t => (s.threads t).locals) = serial x0 order
  held : ∀ t, s.owner = some t → Bal s.depth (s.threads t).cur ∧ (∀ i, i ≠ t → (s.threads i).cur = []) ∧
    whole t (ops (s.threads t).cur) (s.value, fun t => (s.threads t).locals) = serial x0 order
  program : ∀ t, (order.filter fun e => e.1 = t).map Prod.snd ++ (s.threads t).rest = prog t

theorem locals_put (s : State V L) (t : Nat) (x : Thr V L) (hx : x.locals = (s.threads t).locals) :
    (fun i => ((s.put t x).threads i).locals) = fun i => (s.threads i).locals := by
  funext i
  show (if i = t then x else s.threads i).locals = _
  split
  · rename_i h; rw [hx, h]
  · rfl

theorem put_same (s : State V L) (t : Nat) (x : Thr V L) : (s.put t x).threads t = x := if_pos rfl
theorem put_other (s : State V L) {t i : Nat} (x : Thr V L) (h : i ≠ t) : (s.put t x).threads i = s.threads i := if_neg h

theorem rest_put (s : State V L) (t : Nat) (x : Thr V L) (hx : x.rest = (s.threads t).rest) (i : Nat) : ((s.put t x).threads i).rest = (s.threads i).rest := by
  by_cases h : i = t
  · subst h; rw [put_same, hx]
  · rw [put_other s x h]

theorem step_inv {x0 : V × (Nat → L)} {prog : Nat → List (Op V L × List (Op V L))} {s s' : State V L} {order : List (Nat × Op V L × List (Op V L))} {t : Nat}
    (h : Inv x0 prog s order) (hs : step s t = some s') : ∃ more, Inv x0 prog s' (order ++ more) := by
  -- a thread in the middle of an expression has the mutex
  have mine : (s.threads t).cur ≠ [] → s.owner = some t := by
    intro hc
    cases ho : s.owner with
    | none => exact absurd ((h.free ho).2.1 t) hc
    | some u =>
      by_cases hu : t = u
      · rw [hu]
      · exact absurd ((h.held u ho).2.1 t hu) hc
  unfold step at hs
  cases hc : (s.threads t).cur with
  | nil =>
    rw [hc] at hs
    dsimp only at hs
    cases hr : (s.threads t).rest with
    | nil => rw [hr] at hs; cases hs
    | cons e es =>
      rw [hr] at hs
      dsimp only at hs
      split at hs
      · rename_i ho
        injection hs with hs; subst hs
        obtain ⟨_, h2, h3⟩ := h.free ho
        refine ⟨[(t, e)], ?_, ?_, ?_⟩
        · intro hn; cases hn
        · intro u hu
          injection hu with hu; subst hu
          refine ⟨?_, fun i hi => ?_, ?_⟩
          · rw [put_same]; exact bal_begun e
          · rw [put_other _ _ hi]; exact h2 i
          · rw [put_same]
            unfold serial
            rw [List.foldl_append]
            show whole t (ops (begun e)) _ = whole t (e.1 :: e.2) (serial x0 order)
            rw [ops_begun, ← h3]
            congr 2
            exact locals_put _ t _ rfl
        · intro i
          by_cases hi : i = t
          · subst hi
            rw [put_same, List.filter_append, List.map_append, List.append_assoc, ← h.program i, hr]
            simp
          · rw [put_other _ _ hi, List.filter_append, ← h.program i]
            have : ¬ t = i := fun e => hi e.symm
            simp [this]
      · cases hs
  | cons a c =>
    have ho := mine (by rw [hc]; exact List.cons_ne_nil _ _)
    obtain ⟨h1, h2, h3⟩ := h.held t ho
    rw [hc] at hs h1 h3
    refine ⟨[], ?_⟩
    rw [List.append_nil]
    cases a with
    | lock =>
      dsimp only at hs
      rw [if_pos (Or.inr ho)] at hs
      injection hs with hs; subst hs
      refine ⟨fun hn => (nomatch hn), fun u hu => ?_, fun i => ?_⟩
      · injection hu with hu; subst hu
        refine ⟨?_, fun i hi => ?_, ?_⟩
        · rw [put_same]; exact h1.of_lock
        · rw [put_other _ _ hi]; exact h2 i hi
        · rw [put_same, ← h3]
          show whole t (ops c) _ = whole t (ops c) _
          congr 2
          exact locals_put _ t _ rfl
      · rw [rest_put]
        · exact h.program i
        · rfl
    | op f =>
      dsimp only at hs
      injection hs with hs; subst hs
      refine ⟨fun hn => ?_, fun u hu => ?_, fun i => ?_⟩
      · rw [show s.owner = none from hn] at ho; cases ho
      · have : u = t := by
          have hu' : s.owner = some u := hu
          rw [ho] at hu'; injection hu' with hu'; exact hu'.symm
        subst this
        refine ⟨?_, fun i hi => ?_, ?_⟩
        · rw [put_same]; exact h1.of_op
        · rw [put_other _ _ hi]; exact h2 i hi
        · rw [put_same, ← h3]
          show whole u (ops c) (_, _) = whole u (f :: ops c) _
          unfold whole
          rw [List.foldl_cons]
          dsimp only [State.put]
          congr 2
          funext i
          by_cases hi : i = u <;> simp [hi]
      · rw [rest_put]
        · exact h.program i
        · rfl
    | unlock =>
      dsimp only at hs
      rcases h1.of_unlock with ⟨hd, rfl⟩ | ⟨hne, hb⟩
      · rw [if_pos hd] at hs
        injection hs with hs; subst hs
        refine ⟨fun _ => ⟨hd, fun i => ?_, ?_⟩, fun u hu => (nomatch hu), fun i => ?_⟩
        · by_cases hi : i = t
          · subst hi; rw [put_same]
          · rw [put_other _ _ hi]; exact h2 i hi
        · rw [← h3]
          show (s.value, _) = (s.value, _)
          congr 1
          exact locals_put _ t _ rfl
        · rw [rest_put]
          · exact h.program i
          · rfl
      · rw [if_neg hne] at hs
        injection hs with hs; subst hs
        refine ⟨fun hn => ?_, fun u hu => ?_, fun i => ?_⟩
        · rw [show s.owner = none from hn] at ho; cases ho
        · have : u = t := by
            have hu' : s.owner = some u := hu
            rw [ho] at hu'; injection hu' with hu'; exact hu'.symm
          subst this
          refine ⟨?_, fun i hi => ?_, ?_⟩
          · rw [put_same]; exact hb
          · rw [put_other _ _ hi]; exact h2 i hi
          · rw [put_same, ← h3]
            show whole u (ops c) _ = whole u (ops c) _
            congr 2
            exact locals_put _ u _ rfl
        · rw [rest_put]
          · exact h.program i
          · rfl

theorem run_inv {x0 : V × (Nat → L)} {prog : Nat → List (Op V L × List (Op V L))} : ∀ (ts : List Nat) {s s' : State V L} {order : List (Nat × Op V L × List (Op V L))},
    Inv x0 prog s order → run s ts = some s' → ∃ order', Inv x0 prog s' order' := by
  intro ts
  induction ts with
  | nil => intro s s' order h hr; injection hr with hr; subst hr; exact ⟨order, h⟩
  | cons t ts ih =>
    intro s s' order h hr
    unfold run at hr
    cases hs : step s t with
    | none => rw [hs] at hr; cases hr
    | some s1 =>
      rw [hs] at hr
      obtain ⟨more, h1⟩ := step_inv h hs
      exact ih h1 hr

/-- Threads that have begun nothing. -/
def start (value : V) (locals : Nat → L) (prog : Nat → List (Op V L × List (Op V L))) : State V L := ⟨value, none, 0, fun t => ⟨[], prog t, locals t⟩⟩

theorem start_inv (value : V) (locals : Nat → L) (prog : Nat → List (Op V L × List (Op V L))) : Inv (value, locals) prog (start value locals prog) [] :=
  ⟨fun _ => ⟨rfl, fun _ => rfl, rfl⟩, fun _ h => (nomatch h), fun _ => rfl⟩

/-- Whatever the schedule: when no thread is in the middle of an expression, the value and the variables of all threads are what the expressions begun give one
after another in some order, in which every thread's expressions stand in the order of its program. -/
theorem expressions_atomic {value : V} {locals : Nat → L} {prog : Nat → List (Op V L × List (Op V L))} {ts : List Nat} {s : State V L}
    (hr : run (start value locals prog) ts = some s) (hq : ∀ t, (s.threads t).cur = []) :
    ∃ order, (s.value, fun t => (s.threads t).locals) = serial (value, locals) order ∧
      ∀ t, (order.filter fun e => e.1 = t).map Prod.snd ++ (s.threads t).rest = prog t := by
  obtain ⟨order, h⟩ := run_inv ts (start_inv value locals prog) hr
  refine ⟨order, ?_, h.program⟩
  cases ho : s.owner with
  | none => exact (h.free ho).2.2
  | some t =>
    have := (h.held t ho).1
    rw [hq t] at this
    generalize s.depth = d at this
    cases this

/-- At every moment at most one thread is in the middle of an expression, and it has the mutex. -/
theorem one_at_a_time {value : V} {locals : Nat → L} {prog : Nat → List (Op V L × List (Op V L))} {ts : List Nat} {s : State V L}
    (hr : run (start value locals prog) ts = some s) {t u : Nat} (ht : (s.threads t).cur ≠ []) (hu : (s.threads u).cur ≠ []) : t = u ∧ s.owner = some t := by
  obtain ⟨order, h⟩ := run_inv ts (start_inv value locals prog) hr
  cases ho : s.owner with
  | none => exact absurd ((h.free ho).2.1 t) ht
  | some w =>
    have key : ∀ i, (s.threads i).cur ≠ [] → i = w := fun i hi => Classical.byContradiction fun hn => hi ((h.held w ho).2.1 i hn)
    exact ⟨(key t ht).trans (key u hu).symm, by rw [key t ht]⟩

/-- As long as someone is in the middle of an expression, that thread can go on. -/
theorem goes_on {value : V} {locals : Nat → L} {prog : Nat → List (Op V L × List (Op V L))} {ts : List Nat} {s : State V L}
    (hr : run (start value locals prog) ts = some s) {t : Nat} (ht : (s.threads t).cur ≠ []) : (step s t).isSome = true := by
  have ho := (one_at_a_time hr ht ht).2
  unfold step
  cases hc : (s.threads t).cur with
  | nil => exact absurd hc ht
  | cons a c =>
    cases a with
    | lock => dsimp only; rw [if_pos (Or.inr ho)]; rfl
    | op f => rfl
    | unlock => rfl

/-- `Get`: the value goes to the variable of the thread. -/
def get : Op Nat Nat := fun v _ => (v, v)
/-- The assignment of the variable plus one. -/
def setNext : Op Nat Nat := fun _ l => (l + 1, l)

/-- `v = v.Get() + 1` by two threads: one of the two is lost.  `*v = *v + 1` is one expression and loses nothing. -/
theorem get_then_assign_violated :
    (run (start 0 (fun _ => 0) fun t => if t < 2 then [(get, []), (setNext, [])] else []) [0, 0, 0, 1, 1, 1, 0, 0, 0, 1, 1, 1]).map State.value = some 1 ∧
    (run (start 0 (fun _ => 0) fun t => if t < 2 then [(get, [setNext])] else []) [0, 0, 0, 0, 0, 0, 1, 1, 1, 1, 1, 1]).map State.value = some 2 := ⟨rfl, rfl⟩

example : (run (start 0 (fun _ => 0) fun t => if t < 2 then [(get, [setNext])] else []) [0, 0, 0, 1]).isSome = false := rfl

end Verif.Thread.SyncValue

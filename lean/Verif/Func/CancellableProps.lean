import Verif.Func.Cancellable
/-
What a user of MakeCancellableFunction relies on: after Release the function is not called any more, before it is transparent.
-/
namespace Verif.Func.Cancellable

open Verif.Thread.Life (Impl IInv)

/-- In the history, thread `t` is in the function: it has begun more often than it has ended (specification). -/
def Running (l : List Ev) (t : Nat) : Prop := l.count (.ended t) < l.count (.began t)

structure Inv (s : State) : Prop where
  life : IInv s.life
  calls : ∀ t, s.life.running t = s.calls t
  log : ∀ t, s.log.count (.began t) = s.log.count (.ended t) + s.calls t
  alive : s.life.alive = true ↔ ∀ u, Ev.released u ∉ s.log
  after : ∀ (l1 l2 : List Ev) (u : Nat), s.log = l1 ++ .released u :: l2 → (∀ t, Ev.began t ∉ l2) ∧ ∀ t, t ≠ u → ¬ Running l1 t
  refused : ∀ (l1 l2 : List Ev) (t : Nat) (out : Out), s.log = l1 ++ .gave t out :: l2 → out = .nothing ∨ out = .cancelled → ∃ u, Ev.released u ∈ l1

theorem inv_init : Inv init :=
  ⟨Thread.Life.new_inv, fun _ => rfl, fun _ => rfl, by simp [init, Impl.new], fun l1 l2 u h => by simp [init] at h, fun l1 l2 t o h => by simp [init] at h⟩

/-- A history cut at an event that is not among the last ones. -/
theorem cut {l es l1 l2 : List Ev} {e : Ev} (h : l ++ es = l1 ++ e :: l2) (he : e ∉ es) : ∃ l2', l = l1 ++ e :: l2' ∧ l2 = l2' ++ es := by
  rcases List.append_eq_append_iff.mp h with ⟨a, rfl, h2⟩ | ⟨a, rfl, h2⟩
  · exact absurd (h2 ▸ by simp) he
  · cases a with
    | nil => simp only [List.nil_append] at h2; exact absurd (h2 ▸ by simp) he
    | cons x a =>
      simp only [List.cons_append, List.cons.injEq] at h2
      obtain ⟨rfl, rfl⟩ := h2
      exact ⟨a, rfl, rfl⟩

/-- A history cut at its last event or before. -/
theorem cut_last {l l1 l2 : List Ev} {e x : Ev} (h : l ++ [x] = l1 ++ e :: l2) : (l = l1 ∧ x = e ∧ l2 = []) ∨ ∃ l2', l = l1 ++ e :: l2' ∧ l2 = l2' ++ [x] := by
  rcases List.append_eq_append_iff.mp h with ⟨a, rfl, h2⟩ | ⟨a, rfl, h2⟩
  · cases a with
    | nil => simp only [List.nil_append, List.cons.injEq] at h2; exact .inl ⟨by simp, h2.1, h2.2.symm⟩
    | cons y a => simp at h2
  · cases a with
    | nil => simp only [List.nil_append, List.cons.injEq] at h2; exact .inl ⟨by simp, h2.1.symm, h2.2⟩
    | cons y a =>
      simp only [List.cons_append, List.cons.injEq] at h2
      obtain ⟨rfl, rfl⟩ := h2
      exact .inr ⟨a, rfl, rfl⟩

theorem tryStart_spec {m m' : Impl} {t : Nat} {b : Bool} (h : m.tryStart t = some (b, m')) :
    m'.alive = m.alive ∧ b = m.alive ∧ (∀ u, m'.running u = if u = t ∧ b = true then m.running t + 1 else m.running u) := by
  unfold Impl.tryStart at h
  split at h
  · split at h
    · next ha =>
      simp only [Option.some.injEq, Prod.mk.injEq] at h
      obtain ⟨rfl, rfl⟩ := h
      exact ⟨rfl, ha.symm, fun u => by simp [Thread.Life.set]⟩
    · next ha =>
      simp only [Option.some.injEq, Prod.mk.injEq] at h
      obtain ⟨rfl, rfl⟩ := h
      exact ⟨rfl, by simpa using ha, fun u => by simp⟩
  · cases h

theorem finish_spec {m m' : Impl} {t : Nat} (h : m.finish t = some m') : m'.alive = m.alive ∧ ∀ u, m'.running u = if u = t then m.running t - 1 else m.running u := by
  unfold Impl.finish at h
  split at h
  · cases h
    simp only [Impl.unlock]
    split <;> exact ⟨rfl, fun u => by simp [Thread.Life.set]⟩
  · cases h

theorem kill_lockable {m m' : Impl} {t : Nat} (h : m.kill t = some m') : m.owner = none ∨ m.owner = some t := by
  unfold Impl.kill at h
  split at h
  · next hl => exact (Thread.Life.lockable_iff m t).mp hl
  · cases h

theorem inv_step {s s' : State} {a : Act} (hi : Inv s) (h : step s a = .ok s') : Inv s' := by
  cases a with
  | call t isVoid =>
    simp only [step] at h
    split at h
    · cases h
    · next m hs =>
      cases h
      obtain ⟨h1, h2, h3⟩ := tryStart_spec hs
      refine ⟨Thread.Life.tryStart_inv hi.life hs, fun u => ?_, fun u => ?_, ?_, fun l1 l2 u hl => ?_, fun l1 l2 u out hl ho => ?_⟩
      · simp only [h3 u, setCalls]
        by_cases hu : u = t
        · simp [hu, hi.calls]
        · simp [hu, hi.calls]
      · have := hi.log u
        simp only [List.count_append, setCalls]
        by_cases hu : u = t
        · subst hu; simp; omega
        · have : ¬ t = u := fun k => hu k.symm
          simp [hu, List.count_cons, this, hi.log u]
      · simp only [h1, hi.alive]
        simp
      · obtain ⟨l2', hl', rfl⟩ := cut hl (by simp)
        have : Ev.released u ∈ s.log := by rw [hl']; simp
        exact absurd this (hi.alive.mp h2.symm u)
      · obtain ⟨l2', hl', rfl⟩ := cut hl (by simp)
        exact hi.refused l1 l2' u out hl' ho
    · next m hs =>
      cases h
      obtain ⟨h1, h2, h3⟩ := tryStart_spec hs
      refine ⟨Thread.Life.tryStart_inv hi.life hs, fun u => ?_, fun u => ?_, ?_, fun l1 l2 u hl => ?_, fun l1 l2 u out hl ho => ?_⟩
      · simp [h3 u, hi.calls]
      · simp [List.count_append, List.count_cons, hi.log u]
      · simp only [h1, hi.alive]
        simp
      · obtain ⟨l2', hl', rfl⟩ := cut hl (by simp)
        obtain ⟨h4, h5⟩ := hi.after l1 l2' u hl'
        exact ⟨fun v => by simp [h4 v], h5⟩
      · rcases cut_last hl with ⟨rfl, _, _⟩ | ⟨l2', hl', rfl⟩
        · apply Classical.byContradiction
          intro hn
          have := hi.alive.mpr (fun v hv => hn ⟨v, hv⟩)
          rw [← h2] at this
          cases this
        · exact hi.refused l1 l2' u out hl' ho
  | ends t result =>
    simp only [step] at h
    split at h
    · cases h
    · next hc =>
      split at h
      · cases h
      · next m hs =>
        cases h
        obtain ⟨h1, h3⟩ := finish_spec hs
        refine ⟨Thread.Life.finish_inv hi.life hs, fun u => ?_, fun u => ?_, ?_, fun l1 l2 u hl => ?_, fun l1 l2 u out hl ho => ?_⟩
        · simp only [h3 u, setCalls, hi.calls]
        · have := hi.log u
          simp only [List.count_append, setCalls]
          by_cases hu : u = t
          · subst hu
            simp [List.count_cons]
            omega
          · have : ¬ t = u := fun k => hu k.symm
            simp [hu, List.count_cons, this, hi.log u]
        · simp only [h1, hi.alive]
          simp
        · obtain ⟨l2', hl', rfl⟩ := cut hl (by simp)
          obtain ⟨h4, h5⟩ := hi.after l1 l2' u hl'
          exact ⟨fun v => by simp [h4 v], h5⟩
        · obtain ⟨l2', hl', rfl⟩ := cut hl (by rcases ho with rfl | rfl <;> cases result <;> simp)
          exact hi.refused l1 l2' u out hl' ho
  | release t =>
    simp only [step] at h
    split at h
    · cases h
    · next m hs =>
      cases h
      obtain ⟨h1, h2, h3⟩ := Thread.Life.kill_inv hi.life hs
      refine ⟨h1, fun u => by simp [h3, hi.calls], fun u => ?_, ?_, fun l1 l2 u hl => ?_, fun l1 l2 u out hl ho => ?_⟩
      · simp [List.count_append, List.count_cons, hi.log u]
      · simp only [h2]
        simp
        exact ⟨t, fun _ => rfl⟩
      · rcases cut_last hl with ⟨rfl, he, rfl⟩ | ⟨l2', hl', rfl⟩
        · cases he
          refine ⟨fun v => by simp, fun v hv => ?_⟩
          have : s.life.running v = 0 := by
            apply hi.life.others
            rcases kill_lockable hs with k | k <;> rw [k] <;> simp
            exact fun k => hv k.symm
          have hl := hi.log v
          rw [hi.calls] at this
          unfold Running
          omega
        · obtain ⟨h4, h5⟩ := hi.after l1 l2' u hl'
          exact ⟨fun v => by simp [h4 v], h5⟩
      · obtain ⟨l2', hl', rfl⟩ := cut hl (by simp)
        exact hi.refused l1 l2' u out hl' ho

theorem inv_run : ∀ {as : List Act} {s s' : State}, Inv s → run s as = .ok s' → Inv s'
  | [], s, s', hi, h => by simp only [run] at h; cases h; exact hi
  | a :: as, s, s', hi, h => by
    simp only [run] at h
    split at h
    · next s1 hs => exact inv_run (inv_step hi hs) h
    · next r h1 => exact absurd h (h1 s')

/-- C189.  In every interleaving of calls (also nested ones) and releases: after Release the function does not begin again, in any thread; and when Release is done, no other thread is in
the function. -/
theorem not_after_release {as : List Act} {s : State} (h : run init as = .ok s) {l1 l2 : List Ev} {u : Nat} (hl : s.log = l1 ++ .released u :: l2) :
    (∀ t, Ev.began t ∉ l2) ∧ ∀ t, t ≠ u → ¬ Running l1 t := (inv_run inv_init h).after l1 l2 u hl

/-- C189.  Before Release every call calls the function: none is skipped or refused. -/
theorem refused_only_after_release {as : List Act} {s : State} (h : run init as = .ok s) {l1 l2 : List Ev} {t : Nat} {out : Out} (hl : s.log = l1 ++ .gave t out :: l2)
    (ho : out = .nothing ∨ out = .cancelled) : ∃ u, Ev.released u ∈ l1 := (inv_run inv_init h).refused l1 l2 t out hl ho

/-- C189.  After Release a call of a function of type void does nothing, any other throws; without delay, unless another thread released from within the
function and is still there. -/
theorem call_after_release {as : List Act} {s : State} (h : run init as = .ok s) {u : Nat} (hr : Ev.released u ∈ s.log) (t : Nat) (isVoid : Bool)
    (hn : ∀ v, v ≠ t → ¬ Running s.log v) : ∃ s', step s (.call t isVoid) = .ok s' ∧ s'.log = s.log ++ [.gave t (if isVoid then .nothing else .cancelled)] := by
  have hi := inv_run inv_init h
  have ha : s.life.alive = false := by
    apply Bool.eq_false_iff.mpr
    intro k
    exact hi.alive.mp k u hr
  have hlk : s.life.lockable t = true := by
    rw [Thread.Life.lockable_iff]
    cases ho : s.life.owner with
    | none => exact .inl rfl
    | some v =>
      refine .inr ?_
      apply Decidable.byContradiction
      intro hv
      have h1 := hi.life.owner v ho
      have h2 := hi.log v
      have h3 := hi.calls v
      refine hn v (fun k => hv (by rw [k])) ?_
      unfold Running
      omega
  refine ⟨⟨s.life, s.calls, s.log ++ [.gave t (if isVoid then .nothing else .cancelled)]⟩, ?_, rfl⟩
  simp only [step, Impl.tryStart, hlk, ha, if_true]
  rfl

/-- C189.  A call that calls the function gives its caller what the function gives: its value or its exception; and lets the others in if it was the outermost one of its thread. -/
theorem transparent {as : List Act} {s : State} (h : run init as = .ok s) (t : Nat) (hr : Running s.log t) (result : Option Nat) :
    ∃ s', step s (.ends t result) = .ok s' ∧ s'.log = s.log ++ [.ended t, .gave t (match result with | some v => .value v | none => .raised)] := by
  have hi := inv_run inv_init h
  have h2 := hi.log t
  have h3 := hi.calls t
  have hc : s.calls t ≠ 0 := by unfold Running at hr; omega
  have hf : ∃ m, s.life.finish t = some m := by
    unfold Impl.finish
    rw [if_pos (by omega)]
    exact ⟨_, rfl⟩
  obtain ⟨m, hm⟩ := hf
  simp only [step, if_neg hc, hm]
  exact ⟨_, rfl, rfl⟩

/-- C189.  Calls and Release wait only for another thread that is in the function. -/
theorem waits_only_for_others {as : List Act} {s : State} (h : run init as = .ok s) {a : Act} {t : Nat} (ha : a = .release t ∨ ∃ b, a = .call t b) (hno : step s a = .no) :
    ∃ v, v ≠ t ∧ Running s.log v := by
  have hi := inv_run inv_init h
  have key : s.life.lockable t = false → ∃ v, v ≠ t ∧ Running s.log v := by
    intro hl
    cases ho : s.life.owner with
    | none => simp [Impl.lockable, ho] at hl
    | some v =>
      simp [Impl.lockable, ho] at hl
      have h1 := hi.life.owner v ho
      have h2 := hi.log v
      have h3 := hi.calls v
      exact ⟨v, hl, by unfold Running; omega⟩
  rcases ha with rfl | ⟨b, rfl⟩
  · simp only [step] at hno
    split at hno
    · next hk =>
      unfold Impl.kill at hk
      split at hk
      · cases hk
      · next hn => exact key (by simpa using hn)
    · cases hno
  · simp only [step] at hno
    split at hno
    · next hk =>
      unfold Impl.tryStart at hk
      split at hk
      · split at hk <;> cases hk
      · next hn => exact key (by simpa using hn)
    · cases hno
    · cases hno

/-- C189.  Two threads are never in the function (of copies with one token) at the same time. -/
theorem one_thread {as : List Act} {s : State} (h : run init as = .ok s) {t u : Nat} (ht : Running s.log t) (hu : Running s.log u) : t = u := by
  have hi := inv_run inv_init h
  have key : ∀ v, Running s.log v → s.life.owner = some v := by
    intro v hv
    apply Decidable.byContradiction
    intro hn
    have := hi.life.others v hn
    have h2 := hi.log v
    have h3 := hi.calls v
    unfold Running at hv
    omega
  have h1 := key t ht
  rw [key u hu] at h1
  exact (Option.some.inj h1).symm

/-- C189.  A guard is never destroyed without the mutex. -/
theorem never_undef : ∀ (as : List Act), run init as ≠ .undef := by
  suffices H : ∀ (as : List Act) (s : State), Inv s → run s as ≠ .undef from fun as => H as init inv_init
  intro as
  induction as with
  | nil => intro s _ h; simp [run] at h
  | cons a as ih =>
    intro s hi h
    simp only [run] at h
    split at h
    · next s1 hs => exact ih s1 (inv_step hi hs) h
    · next r h1 =>
      cases a with
      | call t b => simp only [step] at h; split at h <;> cases h
      | release t => simp only [step] at h; split at h <;> cases h
      | ends t r =>
        simp only [step] at h
        split at h
        · cases h
        · next hc =>
          split at h
          · next hf =>
            unfold Impl.finish at hf
            have := hi.calls t
            rw [if_pos (by omega)] at hf
            cases hf
          · cases h

/-- Threads 1 and 2 call; 1 calls itself once more and raises; 2 gets its value, releases, calls again from outside. -/
example : ∃ s, run init [.call 1 true, .call 1 false, .ends 1 none, .ends 1 (some 0), .call 2 false, .release 2, .call 2 false, .ends 2 (some 7), .call 1 true] = .ok s ∧
    s.log = [.began 1, .began 1, .ended 1, .gave 1 .raised, .ended 1, .gave 1 (.value 0), .began 2, .released 2, .gave 2 .cancelled, .ended 2, .gave 2 (.value 7), .gave 1 .nothing] :=
  ⟨_, rfl, rfl⟩

end Verif.Func.Cancellable

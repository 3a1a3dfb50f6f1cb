import Verif.Thread.Priority

/-
C151.  Scheduling parameters.
-/
namespace Verif.Thread.Priority

/-- A state a kernel can be in. -/
def Valid (k : Kernel) : Prop :=
  (-20 ≤ k.nice ∧ k.nice ≤ 19) ∧ (k.policy = .roundRobin ∨ k.policy = .fifo → 1 ≤ k.sched ∧ k.sched ≤ 99)

/-- Real-time policies. -/
def Realtime (p : Policy) : Prop := p = .roundRobin ∨ p = .fifo

theorem nice_iff (p : Policy) : p.nice = true ↔ ¬Realtime p := by cases p <;> simp [Policy.nice, Realtime]

/-- What a successful call does: the old parameters are returned; the policy is the one asked for; the priority is the one asked for, cut to the
range of the policy. -/
theorem set_ok (k : Kernel) (p : Params) (a : Answers) (old : Params) (h : (set k p a).2 = some old) :
    old = get k ∧ (get (set k p a).1).policy = p.policy ∧
    (Realtime p.policy → (get (set k p a).1).priority = min (max p.priority 1) 99) ∧
    (¬Realtime p.policy → (get (set k p a).1).priority = min (max p.priority (-20)) 19) := by
  cases hn : p.policy.nice with
  | true =>
    have hr := (nice_iff _).mp hn
    simp only [set, hn, if_true] at h ⊢
    split at h
    · split at h
      · rename_i h1 h2
        simp only [Option.some.injEq] at h
        rw [if_pos h1, if_pos h2]
        refine ⟨h.symm, rfl, fun x => absurd x hr, fun _ => ?_⟩
        simp only [get, hn, if_true, cutNice]
      · simp at h
    · simp at h
  | false =>
    have hr : Realtime p.policy := by
      have := nice_iff p.policy
      rw [hn] at this
      exact Classical.not_not.mp fun hh => absurd (this.mpr hh) (by simp)
    simp only [set, hn] at h ⊢
    split at h
    · rename_i h1
      simp only [Bool.false_eq_true, if_false, Option.some.injEq] at h
      rw [if_pos h1]
      simp only [Bool.false_eq_true, if_false]
      refine ⟨h.symm, rfl, fun _ => ?_, fun x => absurd hr x⟩
      simp only [get, hn, Bool.false_eq_true, if_false, minPriority, maxPriority]
    · simp at h

theorem set_valid {k : Kernel} (hk : Valid k) (p : Params) (a : Answers) : Valid (set k p a).1 := by
  simp only [set]
  split
  · split
    · rename_i hn
      have hr := (nice_iff _).mp hn
      split
      · refine ⟨?_, fun h => absurd h hr⟩
        simp only [cutNice]
        omega
      · exact ⟨hk.1, fun h => absurd h hr⟩
    · rename_i hn
      refine ⟨hk.1, fun _ => ?_⟩
      simp only [minPriority, maxPriority, hn, Bool.false_eq_true, if_false]
      omega
  · exact hk

/-- Parameters that were in effect once can be brought back. -/
theorem set_get {k k0 : Kernel} (h0 : Valid k0) (a : Answers) (old : Params) (h : (set k (get k0) a).2 = some old) : get (set k (get k0) a).1 = get k0 := by
  obtain ⟨-, h1, h2, h3⟩ := set_ok k (get k0) a old h
  have e : (get k0).policy = k0.policy := rfl
  have hp : (get (set k (get k0) a).1).priority = (get k0).priority := by
    by_cases hr : Realtime k0.policy
    · rw [h2 (by rw [e]; exact hr)]
      have hn : k0.policy.nice = false := by
        cases hx : k0.policy.nice with
        | false => rfl
        | true => exact absurd hr ((nice_iff _).mp hx)
      have := h0.2 hr
      simp only [get, hn, Bool.false_eq_true, if_false]
      omega
    · rw [h3 (by rw [e]; exact hr)]
      have hn := (nice_iff _).mpr hr
      have := h0.1
      simp only [get, hn, if_true]
      omega
  generalize get (set k (get k0) a).1 = x at *
  generalize get k0 = y at *
  cases x; cases y
  simp_all

/-- What a permission check answers: both calls are allowed or the first is refused already. -/
def Plain (a : Answers) : Prop := a.schedule = true → a.setNice = true

/-- Every return to the former parameters is allowed, and no `Set` is stopped half-way. -/
def Allowed : List Act → Prop
  | [] => True
  | .set _ a b :: as => (a.schedule = true ∧ a.setNice = true) ∧ Plain b ∧ Allowed as
  | .reset a :: as => (a.schedule = true ∧ a.setNice = true) ∧ Allowed as

theorem set_allowed (k : Kernel) (p : Params) {a : Answers} (h : a.schedule = true ∧ a.setNice = true) : ∃ old, (set k p a).2 = some old := by
  simp only [set, h.1, h.2, if_true]
  split <;> exact ⟨_, rfl⟩

theorem set_refused (k : Kernel) (p : Params) {a : Answers} (h : Plain a) : (∃ old, (set k p a).2 = some old) ∨ set k p a = (k, none) := by
  cases hs : a.schedule with
  | true => exact .inl (set_allowed k p ⟨hs, h hs⟩)
  | false => exact .inr (by simp [set, hs])

/-- The setter remembers the first parameters. -/
structure Keeps (k0 : Kernel) (s : Setter) : Prop where
  valid : Valid s.kernel
  prev : s.prev = none → get s.kernel = get k0
  back : ∀ p, s.prev = some p → p = get k0

theorem reset_keeps {k0 : Kernel} (h0 : Valid k0) {s : Setter} (h : Keeps k0 s) {a : Answers} (ha : a.schedule = true ∧ a.setNice = true) :
    Keeps k0 (reset s a) ∧ (reset s a).prev = none := by
  cases hp : s.prev with
  | none =>
    have : reset s a = s := by simp [reset, hp]
    rw [this]; exact ⟨h, hp⟩
  | some p =>
    have hq := h.back p hp
    subst hq
    have e : reset s a = ⟨(set s.kernel (get k0) a).1, none⟩ := by simp [reset, hp]
    rw [e]
    obtain ⟨old, ho⟩ := set_allowed s.kernel (get k0) ha
    exact ⟨⟨set_valid h.valid _ _, fun _ => set_get h0 a old ho, by simp⟩, rfl⟩

theorem set_keeps {k0 : Kernel} (h0 : Valid k0) {s : Setter} (h : Keeps k0 s) {a b : Answers} (ha : a.schedule = true ∧ a.setNice = true) (hb : Plain b) (p : Params) :
    Keeps k0 (s.set p a b) := by
  obtain ⟨h1, h2⟩ := reset_keeps h0 h ha
  rcases set_refused (reset s a).kernel p hb with ⟨old, ho⟩ | hr
  · have e : s.set p a b = ⟨(set (reset s a).kernel p b).1, some old⟩ := by simp [Setter.set, ho]
    rw [e]
    refine ⟨set_valid h1.valid _ _, by simp, ?_⟩
    intro q hq
    simp only [Option.some.injEq] at hq
    rw [← hq, (set_ok _ p b old ho).1]
    exact h1.prev h2
  · have e : s.set p a b = ⟨(reset s a).kernel, (reset s a).prev⟩ := by simp [Setter.set, hr]
    rw [e]
    exact h1

theorem run_keeps {k0 : Kernel} (h0 : Valid k0) : ∀ (as : List Act) (s : Setter), Allowed as → Keeps k0 s → Keeps k0 (run s as)
  | [], _, _, h => h
  | .set p a b :: as, s, ha, h => run_keeps h0 as _ ha.2.2 (set_keeps h0 h ha.1 ha.2.1 p)
  | .reset a :: as, s, ha, h => run_keeps h0 as _ ha.2 (reset_keeps h0 h ha.1).1

/-- Whatever was set through a setter, and however often, its destruction brings back the parameters the thread had before. -/
theorem restored_partial (k0 : Kernel) (h0 : Valid k0) (as : List Act) (ha : Allowed as) (a : Answers) (hl : a.schedule = true ∧ a.setNice = true) :
    get (reset (run (Setter.new k0) as) a).kernel = get k0 := by
  have := run_keeps h0 as (Setter.new k0) ha ⟨h0, fun _ => rfl, by simp [Setter.new]⟩
  obtain ⟨h1, h2⟩ := reset_keeps h0 this hl
  exact h1.prev h2

/-- The thread is a real-time one, goes to the background, is refused, goes to idle. -/
def tour : List Act := [.set ⟨.batch, 25⟩ ⟨true, true⟩ ⟨true, true⟩, .set ⟨.roundRobin, 99⟩ ⟨true, true⟩ ⟨false, false⟩, .set ⟨.idle, 0⟩ ⟨true, true⟩ ⟨true, true⟩]

example : Valid ⟨.fifo, 7, 3⟩ ∧ Allowed tour ∧ get (run (Setter.new ⟨.fifo, 7, 3⟩) tour).kernel = ⟨.idle, 0⟩ ∧
    get (reset (run (Setter.new ⟨.fifo, 7, 3⟩) tour) ⟨true, true⟩).kernel = ⟨.fifo, 7⟩ := by
  refine ⟨⟨by decide, by decide⟩, ⟨⟨rfl, rfl⟩, fun _ => rfl, ⟨rfl, rfl⟩, fun h => ?_, ⟨rfl, rfl⟩, fun _ => rfl, trivial⟩, by decide, by decide⟩
  exact absurd h (by decide)
example : (set ⟨.nonRealtime, 0, 0⟩ ⟨.roundRobin, 200⟩ ⟨true, true⟩) = (⟨.roundRobin, 99, 0⟩, some ⟨.nonRealtime, 0⟩) := by decide

/-- Not when a `Set` is stopped half-way (the policy may be changed, the nice value may not): the setter does not know that it changed anything. -/
theorem half_set_violated : ∃ k0, Valid k0 ∧ ∃ p b, get (reset ((Setter.new k0).set p ⟨true, true⟩ b) ⟨true, true⟩).kernel ≠ get k0 ∧ b.schedule = true :=
  ⟨⟨.nonRealtime, 0, 0⟩, ⟨by decide, by decide⟩, ⟨.batch, -5⟩, ⟨true, false⟩, by decide, rfl⟩

/-- Nor when the return was refused once: it is not tried again. -/
theorem refused_return_violated : ∃ k0, Valid k0 ∧ ∃ p,
    get (reset (reset ((Setter.new k0).set p ⟨true, true⟩ ⟨true, true⟩) ⟨false, false⟩) ⟨true, true⟩).kernel ≠ get k0 :=
  ⟨⟨.nonRealtime, 0, -5⟩, ⟨by decide, by decide⟩, ⟨.nonRealtime, 10⟩, by decide⟩

end Verif.Thread.Priority

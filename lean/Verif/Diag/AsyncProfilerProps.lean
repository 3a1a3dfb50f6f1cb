import Verif.Diag.AsyncProfiler

/-
C152.  The asynchronous profiler.
-/
namespace Verif.Diag.AsyncProfiler

structure Inv (T : Nat) (s : State) : Prop where
  sorted : s.list.Pairwise (fun a b => a.due ≤ b.due)
  due : ∀ x ∈ s.list, x.due ≤ s.now + T
  start : ∀ x ∈ s.list, x.start + T ≤ x.due
  ids : s.list.Pairwise (fun a b => a.id ≠ b.id)
  fresh : ∀ x ∈ s.list, x.id < s.fresh
  late : ∀ r ∈ s.reports, r.start + T ≤ r.at' ∧ r.at' ≤ s.now ∧ r.id < s.fresh
  again : ∀ r ∈ s.reports, ∀ x ∈ s.list, r.id = x.id → r.at' + T ≤ x.due
  apart : s.reports.Pairwise (fun a b => a.id = b.id → a.at' + T ≤ b.at')
  forever : s.thread = .forever → s.list = []
  until' : ∀ t, s.thread = .until t → ∃ h rest, s.list = h :: rest ∧ h.due = t
  done : s.thread = .done → s.cancelled = true

theorem init_inv (T now : Nat) : Inv T (.init now) := by
  constructor <;> simp [State.init]

theorem wake_forever (t : Thread) : t.wake ≠ .forever := by cases t <;> simp [Thread.wake]
theorem wake_until (t : Thread) (d : Nat) : t.wake ≠ .until d := by cases t <;> simp [Thread.wake]
theorem wake_done (t : Thread) (h : t.wake = .done) : t = .done := by cases t <;> simp_all [Thread.wake]

theorem add_inv {T : Nat} {s : State} {start : Nat} (h : Inv T s) (hs : start ≤ s.now) : Inv T (add T s start) := by
  have hthread : (add T s start).thread = if s.list.isEmpty then s.thread.wake else s.thread := rfl
  refine ⟨?_, ?_, ?_, ?_, ?_, ?_, ?_, h.apart, ?_, ?_, ?_⟩
  · refine List.pairwise_append.mpr ⟨h.sorted, by simp, ?_⟩
    intro a ha b hb
    simp at hb; subst hb
    exact h.due a ha
  · intro x hx
    rcases List.mem_append.mp hx with hx | hx
    · exact h.due x hx
    · simp at hx; subst hx; exact Nat.le_refl _
  · intro x hx
    rcases List.mem_append.mp hx with hx | hx
    · exact h.start x hx
    · simp at hx; subst hx; simp only []; omega
  · refine List.pairwise_append.mpr ⟨h.ids, by simp, ?_⟩
    intro a ha b hb
    simp at hb; subst hb
    have := h.fresh a ha
    simp only []; omega
  · intro x hx
    show x.id < s.fresh + 1
    rcases List.mem_append.mp hx with hx | hx
    · have := h.fresh x hx; omega
    · simp at hx; subst hx; simp only []; omega
  · intro r hr
    have := h.late r hr
    exact ⟨this.1, this.2.1, by show r.id < s.fresh + 1; omega⟩
  · intro r hr x hx e
    rcases List.mem_append.mp hx with hx | hx
    · exact h.again r hr x hx e
    · simp at hx; subst hx
      have := h.late r hr
      simp only [] at e
      omega
  · intro ht
    rw [hthread] at ht
    split at ht
    · exact absurd ht (wake_forever _)
    · rename_i he
      rw [h.forever ht] at he; simp at he
  · intro t ht
    rw [hthread] at ht
    split at ht
    · exact absurd ht (wake_until _ _)
    · obtain ⟨x, rest, e, hd⟩ := h.until' t ht
      exact ⟨x, rest ++ [⟨s.fresh, start, s.now + T⟩], by show s.list ++ _ = _; rw [e]; rfl, hd⟩
  · intro ht
    rw [hthread] at ht
    split at ht
    · exact h.done (wake_done _ ht)
    · exact h.done ht

theorem remove_inv {T : Nat} {s : State} {id : Nat} (h : Inv T s) : Inv T (remove s id) := by
  have hsub : ∀ x, x ∈ s.list.filter (fun x => x.id != id) → x ∈ s.list := fun x hx => (List.mem_filter.mp hx).1
  have hthread : (remove s id).thread = s.thread ∨ (remove s id).thread = s.thread.wake := by
    cases hl : s.list with
    | nil => exact .inl (by simp [remove, hl])
    | cons x rest =>
      by_cases e : x.id = id
      · exact .inr (by simp [remove, hl, e])
      · exact .inl (by simp [remove, hl, e])
  refine ⟨h.sorted.filter _, fun x hx => h.due x (hsub x hx), fun x hx => h.start x (hsub x hx), h.ids.filter _, fun x hx => h.fresh x (hsub x hx),
    h.late, fun r hr x hx e => h.again r hr x (hsub x hx) e, h.apart, ?_, ?_, ?_⟩
  · intro ht
    rcases hthread with e | e
    · rw [e] at ht
      show s.list.filter _ = []
      rw [h.forever ht]; rfl
    · rw [e] at ht; exact absurd ht (wake_forever _)
  · intro t ht
    rcases hthread with e | e
    · rw [e] at ht
      obtain ⟨x, rest, el, hd⟩ := h.until' t ht
      by_cases hx : x.id = id
      · have : (remove s id).thread = s.thread.wake := by simp [remove, el, hx]
        rw [e] at this
        exact absurd (this ▸ ht) (wake_until _ _)
      · refine ⟨x, rest.filter (fun x => x.id != id), ?_, hd⟩
        show s.list.filter _ = _
        rw [el, List.filter_cons, if_pos (by simpa using hx)]
    · rw [e] at ht; exact absurd ht (wake_until _ _)
  · intro ht
    rcases hthread with e | e
    · rw [e] at ht; exact h.done ht
    · rw [e] at ht; exact h.done (wake_done _ ht)

theorem look_inv {T : Nat} {s : State} {d : Nat} (h : Inv T s) (hl : s.thread = .looking) : Inv T (look T s d) := by
  unfold look
  split
  · rename_i hc
    exact ⟨h.sorted, h.due, h.start, h.ids, h.fresh, h.late, h.again, h.apart, by simp, by simp, fun _ => hc⟩
  · split
    · rename_i e
      exact ⟨h.sorted, h.due, h.start, h.ids, h.fresh, h.late, h.again, h.apart, fun _ => e, by simp, by simp⟩
    · rename_i top rest e
      split
      · refine ⟨h.sorted, h.due, h.start, h.ids, h.fresh, h.late, h.again, h.apart, by simp, ?_, by simp⟩
        intro t ht
        simp only [Thread.until.injEq] at ht
        exact ⟨top, rest, e, ht⟩
      · rename_i hd
        have hsorted := h.sorted; rw [e] at hsorted
        have hids := h.ids; rw [e] at hids
        have htop : top ∈ s.list := by rw [e]; exact List.mem_cons_self
        have hrest : ∀ x, x ∈ rest → x ∈ s.list := fun x hx => by rw [e]; exact List.mem_cons_of_mem _ hx
        have hst := h.start top htop
        refine ⟨?_, ?_, ?_, ?_, ?_, ?_, ?_, ?_, ?_, ?_, ?_⟩
        · refine List.pairwise_append.mpr ⟨(List.pairwise_cons.mp hsorted).2, by simp, ?_⟩
          intro a ha b hb
          simp at hb; subst hb
          have := h.due a (hrest a ha)
          simp only []; omega
        · intro x hx
          rcases List.mem_append.mp hx with hx | hx
          · have := h.due x (hrest x hx)
            show x.due ≤ s.now + d + T
            omega
          · simp at hx; subst hx; exact Nat.le_refl _
        · intro x hx
          rcases List.mem_append.mp hx with hx | hx
          · exact h.start x (hrest x hx)
          · simp at hx; subst hx; simp only []; omega
        · refine List.pairwise_append.mpr ⟨(List.pairwise_cons.mp hids).2, by simp, ?_⟩
          intro a ha b hb
          simp at hb; subst hb
          exact fun h => (List.pairwise_cons.mp hids).1 a ha h.symm
        · intro x hx
          rcases List.mem_append.mp hx with hx | hx
          · exact h.fresh x (hrest x hx)
          · simp at hx; subst hx; exact h.fresh top htop
        · intro r hr
          rcases List.mem_append.mp hr with hr | hr
          · have := h.late r hr
            exact ⟨this.1, by show r.at' ≤ s.now + d; omega, this.2.2⟩
          · simp at hr; subst hr
            exact ⟨by simp only []; omega, by simp only []; omega, h.fresh top htop⟩
        · intro r hr x hx ee
          rcases List.mem_append.mp hr with hr | hr
          · rcases List.mem_append.mp hx with hx | hx
            · exact h.again r hr x (hrest x hx) ee
            · simp at hx; subst hx
              have := h.late r hr
              simp only []; omega
          · simp at hr; subst hr
            rcases List.mem_append.mp hx with hx | hx
            · exact absurd ee ((List.pairwise_cons.mp hids).1 x hx)
            · simp at hx; subst hx
              simp only []; omega
        · refine List.pairwise_append.mpr ⟨h.apart, by simp, ?_⟩
          intro a ha b hb ee
          simp at hb; subst hb
          have := h.again a ha top htop ee
          simp only []; omega
        · intro ht; simp only [hl] at ht; simp at ht
        · intro t ht; simp only [hl] at ht; simp at ht
        · intro ht; simp only [hl] at ht; simp at ht

theorem step_inv {T : Nat} {s s' : State} {a : Act} (h : Inv T s) (hs : step T s a = some s') : Inv T s' := by
  cases a with
  | tick d =>
    simp only [step, Option.some.injEq] at hs; subst hs
    refine ⟨h.sorted, fun x hx => ?_, h.start, h.ids, h.fresh, fun r hr => ?_, h.again, h.apart, h.forever, h.until', h.done⟩
    · have := h.due x hx; show x.due ≤ s.now + d + T; omega
    · have := h.late r hr; exact ⟨this.1, by show r.at' ≤ s.now + d; omega, this.2.2⟩
  | add start =>
    simp only [step] at hs
    split at hs
    · rename_i hc
      simp only [Option.some.injEq] at hs; subst hs; exact add_inv h hc
    · simp at hs
  | remove id =>
    simp only [step] at hs
    split at hs
    · simp only [Option.some.injEq] at hs; subst hs; exact remove_inv h
    · simp at hs
  | look d =>
    simp only [step] at hs
    split at hs
    · rename_i hc
      simp only [Option.some.injEq] at hs; subst hs; exact look_inv h hc
    · simp at hs
  | timeout =>
    simp only [step] at hs
    split at hs
    · split at hs
      · simp only [Option.some.injEq] at hs; subst hs
        exact ⟨h.sorted, h.due, h.start, h.ids, h.fresh, h.late, h.again, h.apart, by simp, by simp, by simp⟩
      · simp at hs
    · simp at hs
  | wake =>
    simp only [step, Option.some.injEq] at hs; subst hs
    exact ⟨h.sorted, h.due, h.start, h.ids, h.fresh, h.late, h.again, h.apart, fun ht => absurd ht (wake_forever _), fun t ht => absurd ht (wake_until _ _),
      fun ht => h.done (wake_done _ ht)⟩
  | cancel =>
    simp only [step, Option.some.injEq] at hs; subst hs
    refine ⟨h.sorted, h.due, h.start, h.ids, h.fresh, h.late, h.again, h.apart, ?_, ?_, fun _ => rfl⟩
    · intro ht
      cases hh : s.thread <;> simp [hh] at ht
    · intro t ht
      cases hh : s.thread <;> simp [hh] at ht
      subst ht
      exact h.until' _ hh

theorem run_inv {T : Nat} : ∀ {as : List Act} {s s' : State}, Inv T s → run T s as = some s' → Inv T s'
  | [], s, s', h, hr => by simp only [run, Option.some.injEq] at hr; subst hr; exact h
  | a :: as, s, s', h, hr => by
    simp only [run] at hr
    split at hr
    · simp at hr
    · rename_i s1 h1
      exact run_inv (step_inv h h1) hr

/-! ### The theorems -/

/-- No session is reported before it lasted for the time, and no session again before the time has passed once more. -/
theorem not_too_early {T now : Nat} {as : List Act} {s : State} (h : run T (.init now) as = some s) :
    (∀ r ∈ s.reports, r.start + T ≤ r.at') ∧ s.reports.Pairwise (fun a b => a.id = b.id → a.at' + T ≤ b.at') := by
  have hi := run_inv (init_inv T now) h
  exact ⟨fun r hr => (hi.late r hr).1, hi.apart⟩

/-- Only sessions that have not ended are reported, with the time of their beginning. -/
theorem only_living {T : Nat} {s s' : State} {a : Act} (h : step T s a = some s') :
    s'.reports = s.reports ∨ ∃ x ∈ s.list, x.due ≤ s.now ∧ s'.reports = s.reports ++ [⟨x.id, s.now, x.start⟩] := by
  cases a with
  | look d =>
    simp only [step] at h
    split at h
    · simp only [Option.some.injEq] at h; subst h
      unfold look
      split
      · exact .inl rfl
      · split
        · exact .inl rfl
        · rename_i top rest e
          split
          · exact .inl rfl
          · exact .inr ⟨top, by rw [e]; exact List.mem_cons_self, by omega, rfl⟩
    · simp at h
  | tick d => simp only [step, Option.some.injEq] at h; subst h; exact .inl rfl
  | add st =>
    simp only [step] at h
    split at h
    · simp only [Option.some.injEq] at h; subst h; exact .inl rfl
    · simp at h
  | remove id =>
    simp only [step] at h
    split at h
    · simp only [Option.some.injEq] at h; subst h; exact .inl rfl
    · simp at h
  | timeout =>
    simp only [step] at h
    split at h
    · split at h
      · simp only [Option.some.injEq] at h; subst h; exact .inl rfl
      · simp at h
    · simp at h
  | wake => simp only [step, Option.some.injEq] at h; subst h; exact .inl rfl
  | cancel => simp only [step, Option.some.injEq] at h; subst h; exact .inl rfl

/-- The thread never sleeps over a report: when a session is due, the thread is not waiting, or its wait is over. -/
theorem never_oversleeps {T now : Nat} {as : List Act} {s : State} (h : run T (.init now) as = some s) (x : Session) (hx : x ∈ s.list) (hd : x.due ≤ s.now) :
    s.thread = .looking ∨ (∃ t, s.thread = .until t ∧ t ≤ s.now) ∨ s.cancelled = true := by
  have hi := run_inv (init_inv T now) h
  cases ht : s.thread with
  | looking => exact .inl rfl
  | forever => have := hi.forever ht; rw [this] at hx; simp at hx
  | done => exact .inr (.inr (hi.done ht))
  | «until» t =>
    refine .inr (.inl ⟨t, rfl, ?_⟩)
    obtain ⟨hd', rest, e, he⟩ := hi.until' t ht
    rw [e] at hx
    have hs := hi.sorted
    rw [e] at hs
    rcases List.mem_cons.mp hx with rfl | hx
    · omega
    · have := (List.pairwise_cons.mp hs).1 x hx
      omega

/-- After the last session has ended the thread does not wait for a time any more, so that the destructor, which wakes the other wait only, is not held up. -/
theorem destructor_prompt {T now : Nat} {as : List Act} {s : State} (h : run T (.init now) as = some s) (he : s.list = []) :
    ∃ s', step T s .cancel = some s' ∧ (s'.thread = .looking ∨ s'.thread = .done) := by
  have hi := run_inv (init_inv T now) h
  refine ⟨_, rfl, ?_⟩
  cases ht : s.thread with
  | looking => simp
  | forever => simp
  | done => simp
  | «until» t =>
    obtain ⟨hd', rest, e, -⟩ := hi.until' t ht
    rw [e] at he; simp at he

/-- A thread that looks reports all that is due, in the order of the times, each once. -/
theorem sweep {T : Nat} : ∀ (overdue rest : List Session) (s : State), s.list = overdue ++ rest → s.thread = .looking → s.cancelled = false →
    (∀ x ∈ overdue, x.due ≤ s.now) →
    ∃ s', run T s (List.replicate overdue.length (.look 0)) = some s' ∧ s'.reports = s.reports ++ overdue.map (fun x => ⟨x.id, s.now, x.start⟩) ∧
      s'.now = s.now ∧ s'.thread = .looking ∧ s'.list = rest ++ overdue.map (fun x => { x with due := s.now + T })
  | [], rest, s, e, ht, hc, _ => ⟨s, rfl, by simp, rfl, ht, by simpa using e⟩
  | x :: overdue, rest, s, e, ht, hc, hd => by
    have h1 : step T s (.look 0) = some { s with list := overdue ++ rest ++ [{ x with due := s.now + T }], reports := s.reports ++ [⟨x.id, s.now, x.start⟩] } := by
      have hx := hd x List.mem_cons_self
      simp only [step, ht, if_true, look, hc, e]
      simp only [Bool.false_eq_true, if_false, List.cons_append]
      rw [if_neg (by omega)]
      simp [e, ht, hc]
    obtain ⟨s', k1, k2, k3, k4, k5⟩ := sweep overdue (rest ++ [{ x with due := s.now + T }])
      { s with list := overdue ++ rest ++ [{ x with due := s.now + T }], reports := s.reports ++ [⟨x.id, s.now, x.start⟩] }
      (by simp) ht hc (fun y hy => hd y (List.mem_cons_of_mem _ hy))
    refine ⟨s', ?_, ?_, k3, k4, ?_⟩
    · rw [List.length_cons, List.replicate_succ, run, h1]
      exact k1
    · rw [k2]; simp
    · rw [k5]; simp

/-- Two sessions; the first is reported at 30, the second at 35; the first has ended before it would be reported again. -/
def twoSessions : List Act :=
  [.look 0, .add 0, .look 0, .tick 5, .add 5, .tick 25, .timeout, .look 0, .look 0, .tick 5, .timeout, .look 1, .remove 0, .tick 100, .look 0]

example : (run 30 (.init 0) twoSessions).map (fun s => (s.reports, s.list, s.thread)) =
    some ([⟨0, 30, 0⟩, ⟨1, 35, 5⟩, ⟨1, 136, 5⟩], [⟨1, 5, 166⟩], .looking) := by decide
example : (run 30 (.init 0) [.look 0, .add 0, .look 0, .remove 0, .look 0]).map (fun s => (s.list, s.thread)) = some ([], .forever) := by decide

end Verif.Diag.AsyncProfiler

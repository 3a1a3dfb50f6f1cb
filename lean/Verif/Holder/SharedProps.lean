import Verif.Holder.Shared

/-! C85: `shared_ptr` and `weak_ptr`. -/

namespace Verif.Holder.Shared

/-- What holds at all times. -/
structure Inv (s : State) : Prop where
  bad : s.bad = false
  strong : s.strong = s.shared
  /-- the object is in exactly one state: owned, being deleted, deleted -/
  once : s.disposing + s.disposed + (if s.shared = 0 then 0 else 1) = 1
  own : s.releasing ≤ s.disposed
  /-- the block's own weak reference is there until released -/
  weak : s.weak = s.weaks + (if s.disposed = 0 then 1 else 0) + s.releasing
  onceFree : s.freeing + s.freed + (if s.weak = 0 then 0 else 1) = 1
  locks : s.locking ≠ [] → s.weaks ≥ 1
  seen : ∀ c ∈ s.locking, c ≠ 0

theorem inv_init : Inv State.init := by
  constructor <;> simp [State.init]

theorem not_freed {s : State} (h : Inv s) (hw : s.weak ≠ 0) : s.freed = 0 ∧ s.freeing = 0 := by
  have := h.onceFree
  rw [if_neg hw] at this
  omega

theorem touch_ok {s : State} (h : Inv s) (hw : s.weak ≠ 0) : s.touch = s := by
  unfold State.touch
  have h1 := (not_freed h hw).1
  have h2 := h.bad
  cases s
  simp only [] at h1 h2
  subst h1; subst h2
  rfl

theorem weak_of_shared {s : State} (h : Inv s) (hs : s.shared ≥ 1) : s.weak ≠ 0 ∧ s.disposed = 0 ∧ s.disposing = 0 := by
  have h1 := h.once
  have h2 := h.weak
  rw [if_neg (by omega)] at h1
  have : s.disposed = 0 := by omega
  rw [if_pos this] at h2
  omega

theorem weak_of_weaks {s : State} (h : Inv s) (hs : s.weaks ≥ 1) : s.weak ≠ 0 := by
  have := h.weak; omega

theorem mem_eraseIdx {l : List Nat} {k x : Nat} (h : x ∈ l.eraseIdx k) : x ∈ l := List.mem_of_mem_eraseIdx h

theorem inv_step {s s' : State} {a : Act} {e : Ev} (h : Inv s) (hs : step s a = some (s', e)) : Inv s' := by
  obtain ⟨h1, h2, h3, h4, h5, h6, h7, h8⟩ := h
  have h : Inv s := ⟨h1, h2, h3, h4, h5, h6, h7, h8⟩
  cases a with
  | copy =>
    simp only [step] at hs
    by_cases hc : s.shared ≥ 1
    · rw [if_pos hc] at hs
      obtain ⟨w1, w2, w3⟩ := weak_of_shared h hc
      rw [touch_ok h w1] at hs
      injection hs with hs; injection hs with hs _; subst hs
      rw [if_neg (by omega)] at h3
      exact ⟨h1, by simp only []; omega, by simp only []; rw [if_neg (by omega)]; exact h3, h4, h5, h6, h7, h8⟩
    · rw [if_neg hc] at hs; cases hs
  | addWeak =>
    simp only [step] at hs
    by_cases hc : s.shared ≥ 1 ∨ s.weaks ≥ 1
    · rw [if_pos hc] at hs
      have w1 : s.weak ≠ 0 := by
        rcases hc with hc | hc
        · exact (weak_of_shared h hc).1
        · exact weak_of_weaks h hc
      rw [touch_ok h w1] at hs
      injection hs with hs; injection hs with hs _; subst hs
      rw [if_neg w1] at h6
      exact ⟨h1, h2, h3, h4, by simp only []; omega, by simp only []; rw [if_neg (by omega)]; exact h6, fun _ => by simp only []; omega, h8⟩
    · rw [if_neg hc] at hs; cases hs
  | drop =>
    simp only [step] at hs
    by_cases hc : s.shared ≥ 1
    · rw [if_pos hc] at hs
      obtain ⟨w1, w2, w3⟩ := weak_of_shared h hc
      rw [touch_ok h w1] at hs
      rw [if_neg (by omega)] at h3
      by_cases hu : s.strong - 1 = 0
      · rw [if_pos hu] at hs
        injection hs with hs; injection hs with hs _; subst hs
        exact ⟨h1, by simp only []; omega, by simp only []; rw [if_pos (by omega)]; omega, h4, h5, h6, h7, h8⟩
      · rw [if_neg hu] at hs
        injection hs with hs; injection hs with hs _; subst hs
        exact ⟨h1, by simp only []; omega, by simp only []; rw [if_neg (by omega)]; exact h3, h4, h5, h6, h7, h8⟩
    · rw [if_neg hc] at hs; cases hs
  | dropUnique =>
    simp only [step] at hs
    by_cases hc : s.shared ≥ 1
    · rw [if_pos hc] at hs
      obtain ⟨w1, w2, w3⟩ := weak_of_shared h hc
      rw [touch_ok h w1] at hs
      by_cases hu : s.strong = 1
      · rw [if_pos hu] at hs
        rw [if_neg (by omega)] at h3
        injection hs with hs; injection hs with hs _; subst hs
        exact ⟨h1, by simp only []; omega, by simp only []; rw [if_pos (by omega)]; omega, h4, h5, h6, h7, h8⟩
      · rw [if_neg hu] at hs
        injection hs with hs; injection hs with hs _; subst hs
        exact h
    · rw [if_neg hc] at hs; cases hs
  | dropWeak =>
    simp only [step] at hs
    by_cases hc : s.weaks ≥ 1 ∧ (s.weaks ≥ 2 ∨ s.locking = [])
    · rw [if_pos hc] at hs
      have w1 := weak_of_weaks h hc.1
      rw [State.decWeak, touch_ok h w1] at hs
      rw [if_neg w1] at h6
      have hl : s.locking ≠ [] → s.weaks - 1 ≥ 1 := fun hl => by
        rcases hc.2 with hc | hc
        · omega
        · exact absurd hc hl
      by_cases hu : s.weak - 1 = 0
      · rw [if_pos hu] at hs
        injection hs with hs; injection hs with hs _; subst hs
        exact ⟨h1, h2, h3, h4, by simp only []; omega, by simp only []; rw [if_pos hu]; omega, hl, h8⟩
      · rw [if_neg hu] at hs
        injection hs with hs; injection hs with hs _; subst hs
        exact ⟨h1, h2, h3, h4, by simp only []; omega, by simp only []; rw [if_neg hu]; exact h6, hl, h8⟩
    · rw [if_neg hc] at hs; cases hs
  | dispose =>
    simp only [step] at hs
    by_cases hc : s.disposing ≥ 1
    · rw [if_pos hc] at hs
      have hd : s.disposed = 0 ∧ s.shared = 0 := by
        by_cases hz : s.shared = 0
        · rw [if_pos hz] at h3; omega
        · rw [if_neg hz] at h3; omega
      rw [if_pos hd.1] at h5
      rw [if_pos hd.2] at h3
      rw [touch_ok h (by omega)] at hs
      injection hs with hs; injection hs with hs _; subst hs
      exact ⟨h1, h2, by simp only []; rw [if_pos hd.2]; omega, by simp only []; omega, by simp only []; rw [if_neg (by omega)]; omega, h6, h7, h8⟩
    · rw [if_neg hc] at hs; cases hs
  | releaseOwn =>
    simp only [step] at hs
    by_cases hc : s.releasing ≥ 1
    · rw [if_pos hc] at hs
      have hd : s.disposed ≠ 0 := by omega
      rw [if_neg hd] at h5
      have w1 : s.weak ≠ 0 := by omega
      rw [State.decWeak, touch_ok h w1] at hs
      rw [if_neg w1] at h6
      by_cases hu : s.weak - 1 = 0
      · rw [if_pos hu] at hs
        injection hs with hs; injection hs with hs _; subst hs
        exact ⟨h1, h2, h3, by simp only []; omega, by simp only []; rw [if_neg hd]; omega, by simp only []; rw [if_pos hu]; omega, h7, h8⟩
      · rw [if_neg hu] at hs
        injection hs with hs; injection hs with hs _; subst hs
        exact ⟨h1, h2, h3, by simp only []; omega, by simp only []; rw [if_neg hd]; omega, by simp only []; rw [if_neg hu]; exact h6, h7, h8⟩
    · rw [if_neg hc] at hs; cases hs
  | free =>
    simp only [step] at hs
    by_cases hc : s.freeing ≥ 1
    · rw [if_pos hc] at hs
      injection hs with hs; injection hs with hs _; subst hs
      exact ⟨h1, h2, h3, h4, h5, by simp only []; omega, h7, h8⟩
    · rw [if_neg hc] at hs; cases hs
  | lockLoad =>
    simp only [step] at hs
    by_cases hc : s.weaks ≥ 1
    · rw [if_pos hc] at hs
      rw [touch_ok h (weak_of_weaks h hc)] at hs
      by_cases hu : s.strong = 0
      · rw [if_pos hu] at hs
        injection hs with hs; injection hs with hs _; subst hs
        exact h
      · rw [if_neg hu] at hs
        injection hs with hs; injection hs with hs _; subst hs
        refine ⟨h1, h2, h3, h4, h5, h6, fun _ => hc, fun c hm => ?_⟩
        simp only [List.mem_append, List.mem_singleton] at hm
        rcases hm with hm | hm
        · exact h8 c hm
        · rw [hm]; exact hu
    · rw [if_neg hc] at hs; cases hs
  | lockSwap k =>
    simp only [step] at hs
    cases hk : s.locking[k]? with
    | none => rw [hk] at hs; cases hs
    | some c =>
      rw [hk] at hs
      simp only [] at hs
      have hm : c ∈ s.locking := List.mem_of_getElem? hk
      have hc := h7 (by intro h0; rw [h0] at hm; cases hm)
      have hc0 := h8 c hm
      rw [touch_ok h (weak_of_weaks h hc)] at hs
      by_cases hu : s.strong = c
      · rw [if_pos hu] at hs
        injection hs with hs; injection hs with hs _; subst hs
        rw [if_neg (by omega)] at h3
        exact ⟨h1, by simp only []; omega, by simp only []; rw [if_neg (by omega)]; exact h3, h4, h5, h6, fun _ => hc, fun c hm => h8 c (mem_eraseIdx hm)⟩
      · rw [if_neg hu] at hs
        by_cases hz : s.strong = 0
        · rw [if_pos hz] at hs
          injection hs with hs; injection hs with hs _; subst hs
          exact ⟨h1, h2, h3, h4, h5, h6, fun _ => hc, fun c hm => h8 c (mem_eraseIdx hm)⟩
        · rw [if_neg hz] at hs
          injection hs with hs; injection hs with hs _; subst hs
          refine ⟨h1, h2, h3, h4, h5, h6, fun _ => hc, fun c hm => ?_⟩
          rcases List.mem_or_eq_of_mem_set hm with hm | hm
          · exact h8 c hm
          · rw [hm]; exact hz
  | deref =>
    simp only [step] at hs
    by_cases hc : s.shared ≥ 1
    · rw [if_pos hc] at hs
      obtain ⟨w1, w2, w3⟩ := weak_of_shared h hc
      injection hs with hs; injection hs with hs _; subst hs
      exact ⟨by simp [h1, w2], h2, h3, h4, h5, h6, h7, h8⟩
    · rw [if_neg hc] at hs; cases hs

theorem inv_run {as : List Act} : ∀ {s s' : State}, Inv s → run s as = some s' → Inv s' := by
  induction as with
  | nil => intro s s' h hr; cases hr; exact h
  | cons a as ih =>
    intro s s' h hr
    rw [run] at hr
    cases hst : step s a with
    | none => rw [hst] at hr; cases hr
    | some x =>
      obtain ⟨t, e⟩ := x
      rw [hst] at hr
      exact ih (inv_step h hst) hr

/-- The states that can be reached. -/
def Reachable (s : State) : Prop := ∃ as, run State.init as = some s

theorem reachable_inv {s : State} (h : Reachable s) : Inv s := by
  obtain ⟨as, h⟩ := h
  exact inv_run inv_init h

/-- C85, safety.  In every schedule: the block is never accessed after it was freed and the object never after it was deleted; the
deleter runs at most once, and not while a `shared_ptr` exists; the block is freed at most once, after the deleter and not while a
pointer of either kind exists; `use_count` is the number of `shared_ptr`s. -/
theorem shared_safe {s : State} (h : Reachable s) : s.bad = false ∧ s.disposed ≤ 1 ∧ s.freed ≤ 1 ∧ (s.shared ≥ 1 → s.disposed = 0 ∧ s.disposing = 0) ∧
    (s.freed = 1 → s.disposed = 1 ∧ s.shared = 0 ∧ s.weaks = 0 ∧ s.locking = []) ∧ s.strong = s.shared := by
  have hi := reachable_inv h
  have h3 := hi.once
  have h5 := hi.weak
  have h6 := hi.onceFree
  refine ⟨hi.bad, by omega, by omega, fun hs => ?_, fun hf => ?_, hi.strong⟩
  · exact (weak_of_shared hi hs).2
  · have hw : s.weak = 0 := by
      apply Classical.byContradiction
      intro hw
      have := (not_freed hi hw).1
      omega
    have hs : s.shared = 0 := by
      apply Classical.byContradiction
      intro hs
      exact (weak_of_shared hi (by omega)).1 hw
    have hd : s.disposed ≠ 0 := by
      intro hd; rw [if_pos hd] at h5; omega
    refine ⟨by omega, hs, by omega, ?_⟩
    apply Classical.byContradiction
    intro hl
    have := hi.locks hl
    omega

/-- C85, no leak: when all pointers are gone and no thread is inside an operation, the object is deleted and the block freed. -/
theorem shared_no_leak {s : State} (h : Reachable s) (h1 : s.shared = 0) (h2 : s.weaks = 0) (h3 : s.disposing = 0) (h4 : s.releasing = 0) (h5 : s.freeing = 0) :
    s.disposed = 1 ∧ s.freed = 1 := by
  have hi := reachable_inv h
  have a := hi.once
  have b := hi.weak
  have c := hi.onceFree
  rw [if_pos h1] at a
  have hd : s.disposed = 1 := by omega
  rw [if_neg (by omega)] at b
  rw [if_pos (by omega)] at c
  omega

/-- C85: what is begun can be ended: the steps that delete the object and the block are never held up, and each brings its thread one step further. -/
theorem shared_pending (s : State) :
    (s.disposing ≥ 1 → ∃ s', step s .dispose = some (s', .none) ∧ s'.disposed = s.disposed + 1 ∧ s'.disposing = s.disposing - 1 ∧ s'.releasing = s.releasing + 1) ∧
    (s.releasing ≥ 1 → ∃ s', step s .releaseOwn = some (s', .none) ∧ s'.releasing = s.releasing - 1) ∧
    (s.freeing ≥ 1 → ∃ s', step s .free = some (s', .none) ∧ s'.freed = s.freed + 1 ∧ s'.freeing = s.freeing - 1) := by
  refine ⟨fun h => ?_, fun h => ?_, fun h => ?_⟩
  · simp only [step, if_pos h]; exact ⟨_, rfl, rfl, rfl, rfl⟩
  · simp only [step, if_pos h]; exact ⟨_, rfl, rfl⟩
  · simp only [step, if_pos h]; exact ⟨_, rfl, rfl, rfl⟩

/-- C85, `lock`: it returns a pointer only if the object is alive, and null only if there is no `shared_ptr` left. -/
theorem lock_spec {s s' : State} {a : Act} {e : Ev} (h : Reachable s) (hs : step s a = some (s', e)) :
    (e = .lockOk → s.shared ≥ 1 ∧ s.disposed = 0 ∧ s'.shared = s.shared + 1) ∧ (e = .lockNull → s.shared = 0 ∧ s'.shared = 0) := by
  have hi := reachable_inv h
  cases a with
  | lockLoad =>
    simp only [step] at hs
    by_cases hc : s.weaks ≥ 1
    · rw [if_pos hc] at hs
      by_cases hu : s.strong = 0
      · rw [if_pos hu] at hs
        injection hs with hs; injection hs with hs he; subst hs; subst he
        have := hi.strong
        exact ⟨fun h => (by cases h), fun _ => ⟨by omega, by simp only [State.touch]; omega⟩⟩
      · rw [if_neg hu] at hs
        injection hs with hs; injection hs with hs he; subst he
        exact ⟨fun h => (by cases h), fun h => (by cases h)⟩
    · rw [if_neg hc] at hs; cases hs
  | lockSwap k =>
    simp only [step] at hs
    cases hk : s.locking[k]? with
    | none => rw [hk] at hs; cases hs
    | some c =>
      rw [hk] at hs
      simp only [] at hs
      have hc0 := hi.seen c (List.mem_of_getElem? hk)
      have hst := hi.strong
      by_cases hu : s.strong = c
      · rw [if_pos hu] at hs
        injection hs with hs; injection hs with hs he; subst hs; subst he
        have hsh : s.shared ≥ 1 := by omega
        exact ⟨fun _ => ⟨hsh, (weak_of_shared hi hsh).2.1, rfl⟩, fun h => (by cases h)⟩
      · rw [if_neg hu] at hs
        by_cases hz : s.strong = 0
        · rw [if_pos hz] at hs
          injection hs with hs; injection hs with hs he; subst hs; subst he
          exact ⟨fun h => (by cases h), fun _ => ⟨by omega, by simp only [State.touch]; omega⟩⟩
        · rw [if_neg hz] at hs
          injection hs with hs; injection hs with hs he; subst he
          exact ⟨fun h => (by cases h), fun h => (by cases h)⟩
  | drop =>
    simp only [step] at hs
    split at hs
    · split at hs
      · cases hs; exact ⟨fun h => (by cases h), fun h => (by cases h)⟩
      · cases hs; exact ⟨fun h => (by cases h), fun h => (by cases h)⟩
    · cases hs
  | dropUnique =>
    simp only [step] at hs
    split at hs
    · split at hs
      · cases hs; exact ⟨fun h => (by cases h), fun h => (by cases h)⟩
      · cases hs; exact ⟨fun h => (by cases h), fun h => (by cases h)⟩
    · cases hs
  | _ =>
    simp only [step] at hs
    split at hs
    · cases hs; exact ⟨fun h => (by cases h), fun h => (by cases h)⟩
    · cases hs

/-- C85, `release_if_unique`: true means it was the only `shared_ptr`, and it is gone; false means there was another. -/
theorem unique_spec {s s' : State} {b : Bool} (h : Reachable s) (hs : step s .dropUnique = some (s', .unique b)) :
    (b = true → s.shared = 1 ∧ s'.shared = 0 ∧ s'.disposing = 1) ∧ (b = false → s.shared ≥ 2 ∧ s' = s) := by
  have hi := reachable_inv h
  have hst := hi.strong
  simp only [step] at hs
  by_cases hc : s.shared ≥ 1
  · obtain ⟨w1, w2, w3⟩ := weak_of_shared hi hc
    rw [if_pos hc, touch_ok hi w1] at hs
    by_cases hu : s.strong = 1
    · rw [if_pos hu] at hs
      injection hs with hs; injection hs with hs he; subst hs; cases he
      exact ⟨fun _ => ⟨by omega, by simp only []; omega, by simp only []; omega⟩, fun h => (by cases h)⟩
    · rw [if_neg hu] at hs
      injection hs with hs; injection hs with hs he; subst hs; cases he
      exact ⟨fun h => (by cases h), fun _ => ⟨by omega, rfl⟩⟩
  · rw [if_neg hc] at hs; cases hs

/-- C85, `lock` ends: an attempt fails only because another thread changed the count, and then the thread has the current count, so that
its next attempt succeeds unless another thread interferes again. -/
theorem lock_progress {s s' : State} {k : Nat} {e : Ev} (h : step s (.lockSwap k) = some (s', e)) (he : e = .none) :
    s'.locking[k]? = some s'.strong ∧ (step s' (.lockSwap k)).map (·.2) = some .lockOk := by
  simp only [step] at h
  cases hk : s.locking[k]? with
  | none => rw [hk] at h; cases h
  | some c =>
    rw [hk] at h
    simp only [] at h
    by_cases hu : s.strong = c
    · rw [if_pos hu] at h; injection h with h; injection h with _ h; rw [← h] at he; cases he
    · rw [if_neg hu] at h
      by_cases hz : s.strong = 0
      · rw [if_pos hz] at h; injection h with h; injection h with _ h; rw [← h] at he; cases he
      · rw [if_neg hz] at h
        injection h with h; injection h with h _; subst h
        have hlt : k < s.locking.length := (List.getElem?_eq_some_iff.mp hk).1
        have h1 : (s.locking.set k s.strong)[k]? = some s.strong := by
          rw [List.getElem?_set_self hlt]
        refine ⟨h1, ?_⟩
        simp [step, h1, State.touch]

/-- Two threads: one drops the last `shared_ptr` while the other is in `lock`, which returns null; then everything is freed. -/
example : (run State.init [.addWeak, .lockLoad, .drop, .lockSwap 0, .dispose, .dropWeak, .releaseOwn, .free]).map
    (fun s => (s.disposed, s.freed, s.bad, s.shared, s.weaks)) = some (1, 1, false, 0, 0) := by decide

/-- The other order: `lock` wins, and the object stays alive. -/
example : (run State.init [.addWeak, .lockLoad, .lockSwap 0, .drop, .deref]).map (fun s => (s.disposed, s.shared, s.bad)) = some (0, 1, false) := by decide

end Verif.Holder.Shared

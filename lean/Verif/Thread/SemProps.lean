import Verif.Thread.Sem
/-!
No more waits succeed than there are signals and initial units, and a wait that does not succeed takes nothing.
-/
namespace Verif.Thread.Sem

/-- A wait that succeeded. -/
def isTaken : Ev → Bool
  | .got _ => true
  | .locked _ => true
  | _ => false
/-- A unit that was given. -/
def isGiven : Ev → Bool
  | .signalled => true
  | .unlocked _ => true
  | _ => false
/-- The lock of a thread was taken; it was given up. -/
def isLocked : Ev → Bool
  | .locked _ => true
  | _ => false
def isUnlocked : Ev → Bool
  | .unlocked _ => true
  | .fatal => true
  | _ => false

structure Inv (init : Nat) (s : State) : Prop where
  units : s.count + s.log.countP isTaken = init + s.log.countP isGiven
  held : s.pcs.count .holding + s.log.countP isUnlocked = s.log.countP isLocked

theorem inv_init (c n : Nat) : Inv c (init c n) :=
  ⟨rfl, by
    have : (List.replicate n Pc.idle).count .holding = 0 := List.count_eq_zero.mpr (by simp [List.mem_replicate])
    simp [init, this]⟩

theorem inv_step {c : Nat} {s s' : State} {a : Act} (h : Inv c s) (hs : step s a = some s') : Inv c s' := by
  obtain ⟨h1, h2⟩ := h
  have hc : ∀ {i : Nat} {p : Pc}, s.pcs[i]? = some p → ∀ q, (s.pcs.set i q).count .holding = s.pcs.count .holding - (if p = .holding then 1 else 0) + (if q = .holding then 1 else 0) ∧
      (p = .holding → 0 < s.pcs.count .holding) := by
    intro i p hp q
    obtain ⟨hlt, hg⟩ := List.getElem?_eq_some_iff.mp hp
    refine ⟨by rw [List.count_set hlt, hg]; simp, fun hq => ?_⟩
    subst hq
    exact List.count_pos_iff.mpr (List.mem_of_getElem? hp)
  have hnil : ∀ (p : Ev → Bool) (e : Ev), (s.log ++ [e]).countP p = s.log.countP p + if p e then 1 else 0 := by
    intro p e; rw [List.countP_append, List.countP_singleton]
  cases a with
  | wait i =>
    simp only [step] at hs
    split at hs
    · next hp => cases hs; have := hc hp .waiting; simp at this; exact ⟨h1, by simp only [this]; exact h2⟩
    · simp at hs
  | timedWait i =>
    simp only [step] at hs
    split at hs
    · next hp => cases hs; have := hc hp .timed; simp at this; exact ⟨h1, by simp only [this]; exact h2⟩
    · simp at hs
  | lock i =>
    simp only [step] at hs
    split at hs
    · next hp => cases hs; have := hc hp .locking; simp at this; exact ⟨h1, by simp only [this]; exact h2⟩
    · simp at hs
  | take i =>
    simp only [step] at hs
    split at hs
    · simp at hs
    · next h0 =>
      split at hs
      · next hp =>
        cases hs
        have := hc hp .holding
        simp at this
        constructor <;> simp only [this, hnil, isTaken, isGiven, isLocked, isUnlocked] <;> simp <;> omega
      · split at hs
        · next hp =>
          cases hs
          have : (s.pcs.set i .idle).count .holding = s.pcs.count .holding := by
            rcases hp with hp | hp <;> simpa using (hc hp .idle).1
          constructor <;> simp only [this, hnil, isTaken, isGiven, isLocked, isUnlocked] <;> simp <;> omega
        · simp at hs
  | interrupt i =>
    simp only [step] at hs
    split at hs
    · next hp =>
      cases hs
      have : (s.pcs.set i .idle).count .holding = s.pcs.count .holding := by
        rcases hp with hp | hp | hp <;> simpa using (hc hp .idle).1
      constructor <;> simp only [this, hnil, isTaken, isGiven, isLocked, isUnlocked] <;> simp <;> omega
    · simp at hs
  | timeout i =>
    simp only [step] at hs
    split at hs
    · next hp =>
      cases hs
      have : (s.pcs.set i .idle).count .holding = s.pcs.count .holding := by simpa using (hc hp .idle).1
      constructor <;> simp only [this, hnil, isTaken, isGiven, isLocked, isUnlocked] <;> simp <;> omega
    · simp at hs
  | signal =>
    simp only [step] at hs
    split at hs <;> cases hs <;> constructor <;> simp only [hnil, isTaken, isGiven, isLocked, isUnlocked] <;> simp <;> omega
  | unlock i =>
    simp only [step] at hs
    split at hs
    · next hp =>
      have h3 : (s.pcs.set i .idle).count .holding = s.pcs.count .holding - 1 := by simpa using (hc hp .idle).1
      have h4 : 0 < s.pcs.count .holding := (hc hp .idle).2 rfl
      split at hs <;> cases hs <;> constructor <;> simp only [h3, hnil, isTaken, isGiven, isLocked, isUnlocked] <;> simp <;> omega
    · simp at hs

theorem inv_run {c : Nat} : ∀ (as : List Act) (s s' : State), Inv c s → run s as = some s' → Inv c s' := by
  intro as
  induction as with
  | nil => intro s s' h hr; simp only [run, Option.some.injEq] at hr; exact hr ▸ h
  | cons a as ih =>
    intro s s' h hr
    simp only [run] at hr
    cases hs : step s a with
    | none => rw [hs] at hr; simp at hr
    | some s1 => rw [hs] at hr; exact ih s1 s' (inv_step h hs) hr

/-- In every history: the waits and locks that succeeded are at most the initial units, the signals and the locks given up. -/
theorem never_more {c n : Nat} {as : List Act} {s : State} (h : run (init c n) as = some s) : s.log.countP isTaken ≤ c + s.log.countP isGiven ∧
    s.count = c + s.log.countP isGiven - s.log.countP isTaken := by
  have := (inv_run as _ _ (inv_init c n) h).units
  omega

/-- If the semaphore is used by locks only, at most as many threads are between constructor and destructor as the initial count, and no signal of a destructor fails. -/
theorem locks_exclusive {c n : Nat} (hc : c ≤ maxValue) {as : List Act} (ha : ∀ a ∈ as, (∃ i, a = .lock i) ∨ (∃ i, a = .take i) ∨ (∃ i, a = .interrupt i) ∨ (∃ i, a = .unlock i))
    {s : State} (h : run (init c n) as = some s) : s.count + s.pcs.count .holding = c ∧ .fatal ∉ s.log := by
  have key : ∀ (as : List Act) (s s' : State), (∀ a ∈ as, (∃ i, a = .lock i) ∨ (∃ i, a = .take i) ∨ (∃ i, a = .interrupt i) ∨ (∃ i, a = .unlock i)) →
      (s.count + s.pcs.count .holding = c ∧ .fatal ∉ s.log ∧ .waiting ∉ s.pcs ∧ .timed ∉ s.pcs) → run s as = some s' →
      (s'.count + s'.pcs.count .holding = c ∧ .fatal ∉ s'.log ∧ .waiting ∉ s'.pcs ∧ .timed ∉ s'.pcs) := by
    intro as
    induction as with
    | nil => intro s s' _ h hr; simp only [run, Option.some.injEq] at hr; exact hr ▸ h
    | cons a as ih =>
      intro s s' hall hinv hr
      simp only [run] at hr
      cases hs : step s a with
      | none => rw [hs] at hr; simp at hr
      | some s1 =>
        rw [hs] at hr
        refine ih s1 s' (fun b hb => hall b (by simp [hb])) ?_ hr
        obtain ⟨h1, h2, h3, h4⟩ := hinv
        have hmem : ∀ {i : Nat} {q : Pc}, q ≠ .waiting → q ≠ .timed → .waiting ∉ s.pcs.set i q ∧ .timed ∉ s.pcs.set i q := by
          intro i q hq1 hq2
          constructor
          · intro hm; rcases List.mem_or_eq_of_mem_set hm with hm | hm
            · exact h3 hm
            · exact hq1 hm.symm
          · intro hm; rcases List.mem_or_eq_of_mem_set hm with hm | hm
            · exact h4 hm
            · exact hq2 hm.symm
        have hcs : ∀ {i : Nat} {p : Pc}, s.pcs[i]? = some p → ∀ q, (s.pcs.set i q).count .holding = s.pcs.count .holding - (if p = .holding then 1 else 0) + (if q = .holding then 1 else 0) ∧
            (p = .holding → 0 < s.pcs.count .holding) := by
          intro i p hp q
          obtain ⟨hlt, hg⟩ := List.getElem?_eq_some_iff.mp hp
          refine ⟨by rw [List.count_set hlt, hg]; simp, fun hq => ?_⟩
          subst hq
          exact List.count_pos_iff.mpr (List.mem_of_getElem? hp)
        rcases hall a (by simp) with ⟨i, rfl⟩ | ⟨i, rfl⟩ | ⟨i, rfl⟩ | ⟨i, rfl⟩
        · simp only [step] at hs
          split at hs
          · next hp =>
            cases hs
            have := hcs hp .locking
            simp at this
            exact ⟨by simp only [this]; exact h1, h2, hmem (by decide) (by decide)⟩
          · simp at hs
        · simp only [step] at hs
          split at hs
          · simp at hs
          · split at hs
            · next hp =>
              cases hs
              have := hcs hp .holding
              simp at this
              exact ⟨by simp only [this]; omega, by simp [h2], hmem (by decide) (by decide)⟩
            · split at hs
              · next hp =>
                rcases hp with hp | hp
                · exact absurd (List.mem_of_getElem? hp) h3
                · exact absurd (List.mem_of_getElem? hp) h4
              · simp at hs
        · simp only [step] at hs
          split at hs
          · next hp =>
            cases hs
            have : (s.pcs.set i .idle).count .holding = s.pcs.count .holding := by
              rcases hp with hp | hp | hp <;> simpa using (hcs hp .idle).1
            exact ⟨by simp only [this]; exact h1, by simp [h2], hmem (by decide) (by decide)⟩
          · simp at hs
        · simp only [step] at hs
          split at hs
          · next hp =>
            have h5 : (s.pcs.set i .idle).count .holding = s.pcs.count .holding - 1 := by simpa using (hcs hp .idle).1
            have h6 : 0 < s.pcs.count .holding := (hcs hp .idle).2 rfl
            rw [if_pos (by omega)] at hs
            cases hs
            exact ⟨by simp only [h5]; omega, by simp [h2], hmem (by decide) (by decide)⟩
          · simp at hs
  have h0 : (List.replicate n Pc.idle).count .holding = 0 := List.count_eq_zero.mpr (by simp [List.mem_replicate])
  have := key as _ _ ha ⟨by simp [init, h0], by simp [init], by simp [init, List.mem_replicate], by simp [init, List.mem_replicate]⟩ h
  exact ⟨this.1, this.2.1⟩

/-- A wait that times out or is interrupted takes nothing, and a thread that waits can go on as soon as there is a unit. -/
theorem failed_wait_takes_nothing {s s' : State} {i : Nat} (h : step s (.timeout i) = some s' ∨ step s (.interrupt i) = some s') : s'.count = s.count ∧ s'.pcs[i]? = some .idle := by
  have hset : ∀ p, s.pcs[i]? = some p → (s.pcs.set i .idle)[i]? = some Pc.idle := by
    intro p hp
    obtain ⟨hlt, _⟩ := List.getElem?_eq_some_iff.mp hp
    simp [hlt]
  rcases h with h | h
  · simp only [step] at h
    split at h
    · next hp => cases h; exact ⟨rfl, hset _ hp⟩
    · simp at h
  · simp only [step] at h
    split at h
    · next hp => cases h; rcases hp with hp | hp | hp <;> exact ⟨rfl, hset _ hp⟩
    · simp at h

theorem unit_wakes {s : State} {i : Nat} (h0 : s.count ≠ 0) (h : s.pcs[i]? = some .waiting ∨ s.pcs[i]? = some .timed ∨ s.pcs[i]? = some .locking) :
    ∃ s', step s (.take i) = some s' ∧ s'.count + 1 = s.count ∧ (s'.log = s.log ++ [.got i] ∨ s'.log = s.log ++ [.locked i]) := by
  rcases h with h | h | h
  · exact ⟨⟨s.count - 1, s.pcs.set i .idle, s.log ++ [.got i]⟩, by simp [step, h0, h], by simp only []; omega, .inl rfl⟩
  · exact ⟨⟨s.count - 1, s.pcs.set i .idle, s.log ++ [.got i]⟩, by simp [step, h0, h], by simp only []; omega, .inl rfl⟩
  · exact ⟨⟨s.count - 1, s.pcs.set i .holding, s.log ++ [.locked i]⟩, by simp [step, h0, h], by simp only []; omega, .inr rfl⟩

/-- And only then: without a unit no wait succeeds. -/
theorem no_unit_no_wait {s : State} (h0 : s.count = 0) (i : Nat) : step s (.take i) = none := by simp [step, h0]

example : (run (init 1 3) [.lock 0, .take 0, .timedWait 1, .timeout 1, .wait 2, .unlock 0, .take 2]).map (fun s => (s.count, s.log)) =
    some (0, [.locked 0, .timedOut 1, .unlocked 0, .got 2]) := by decide

/-- A wait without a limit may end without the semaphore all the same: a signal handler that runs in the thread makes it throw; it is not repeated. -/
theorem interrupted_violated : (run (init 5 1) [.wait 0, .interrupt 0]).map (fun s => (s.count, s.log)) = some (5, [.threw 0]) := by decide

/-- C180.  The count never goes beyond 2147483647: a signal at that count fails, and one below it does not. -/
theorem count_bounded {c n : Nat} (hc : c ≤ 2147483647) : ∀ {as : List Act} {s : State}, run (init c n) as = some s → s.count ≤ 2147483647 := by
  have key : ∀ (as : List Act) (s s' : State), s.count ≤ 2147483647 → run s as = some s' → s'.count ≤ 2147483647 := by
    intro as
    induction as with
    | nil => intro s s' h hr; simp only [run, Option.some.injEq] at hr; exact hr ▸ h
    | cons a as ih =>
      intro s s' h hr
      simp only [run] at hr
      cases hs : step s a with
      | none => rw [hs] at hr; simp at hr
      | some s1 =>
        rw [hs] at hr
        refine ih s1 s' ?_ hr
        have hm : maxValue = 2147483647 := rfl
        cases a <;> simp only [step, hm] at hs <;> (repeat' split at hs) <;> simp only [Option.some.injEq, reduceCtorEq] at hs <;> subst hs <;> simp only [] <;> omega
  intro as s h
  exact key as _ s hc h

theorem signal_fails_iff (s : State) : (∃ s', step s .signal = some s' ∧ s'.log = s.log ++ [.signalFailed] ∧ s'.count = s.count) ↔ 2147483647 ≤ s.count := by
  have hm : maxValue = 2147483647 := rfl
  simp only [step, hm]
  split
  · next h => simp; omega
  · next h => simp; omega

end Verif.Thread.Sem

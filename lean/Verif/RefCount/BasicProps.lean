import Verif.RefCount.Basic
/-!
The counters are deleted once, after the last handle, and one caller is told that it gave back the last reference.
-/
namespace Verif.RefCount.Basic

/-- Never more than 2^32 - 1 handles or references at a time. -/
def Small : State → List Act → Prop
  | s, [] => s.handles < 4294967296 ∧ s.owners < 4294967296
  | s, a :: as => (s.handles < 4294967296 ∧ s.owners < 4294967296) ∧ ∀ s', step s a = some s' → Small s' as

/-- What holds of every state. -/
structure Inv (s : State) : Prop where
  self : s.self = s.handles
  value : s.value = s.owners
  once : s.deleting + s.deletes = if s.handles = 0 then 1 else 0
  last : s.last = if s.owners = 0 then 1 else 0

theorem inv_init : Inv init := ⟨rfl, rfl, rfl, rfl⟩

theorem inv_step {s s' : State} {a : Act} (h : Inv s) (hh : s'.handles < 4294967296) (ho : s'.owners < 4294967296) (h1 : s.handles < 4294967296) (h2 : s.owners < 4294967296)
    (hs : step s a = some s') : Inv s' := by
  obtain ⟨i1, i2, i3, i4⟩ := h
  cases a with
  | copy =>
    simp only [step] at hs
    split at hs
    · simp at hs
    · next hc =>
      have hs := Option.some.inj hs
      subst hs
      simp only [] at hh ho
      refine ⟨?_, i2, ?_, i4⟩
      · show (s.self + 1) % 4294967296 = s.handles + 1
        omega
      · show s.deleting + s.deletes = if s.handles + 1 = 0 then 1 else 0
        rw [i3, if_neg (by omega), if_neg (by omega)]
  | drop =>
    simp only [step] at hs
    split at hs
    · simp at hs
    · next hc =>
      have hs := Option.some.inj hs
      subst hs
      have hp : 0 < s.handles := by omega
      have e : (s.self + size - 1) % size = s.handles - 1 := by simp only [size]; omega
      generalize (s.self + size - 1) % size = q at e
      subst e
      constructor
      · rfl
      · exact i2
      · have h0 : s.deleting + s.deletes = 0 := by rw [i3, if_neg (by omega)]
        show (if s.handles - 1 = 0 then s.deleting + 1 else s.deleting) + s.deletes = if s.handles - 1 = 0 then 1 else 0
        by_cases hz : s.handles - 1 = 0
        · rw [if_pos hz, if_pos hz]; omega
        · rw [if_neg hz, if_neg hz]; omega
      · exact i4
  | delete =>
    simp only [step] at hs
    split at hs
    · simp at hs
    · have hs := Option.some.inj hs
      subst hs
      exact ⟨i1, i2, by simp only []; omega, i4⟩
  | addRef =>
    simp only [step] at hs
    split at hs
    · simp at hs
    · next hc =>
      have hs := Option.some.inj hs
      subst hs
      simp only [] at hh ho
      refine ⟨i1, ?_, i3, ?_⟩
      · show (s.value + 1) % 4294967296 = s.owners + 1
        omega
      · show s.last = if s.owners + 1 = 0 then 1 else 0
        rw [i4, if_neg (by omega), if_neg (by omega)]
  | release =>
    simp only [step] at hs
    split at hs
    · simp at hs
    · next hc =>
      have hs := Option.some.inj hs
      subst hs
      have e : (s.value + size - 1) % size = s.owners - 1 := by simp only [size]; omega
      generalize (s.value + size - 1) % size = q at e
      subst e
      constructor
      · exact i1
      · rfl
      · exact i3
      · have h0 : s.last = 0 := by rw [i4, if_neg (by omega)]
        show (if s.owners - 1 = 0 then s.last + 1 else s.last) = if s.owners - 1 = 0 then 1 else 0
        by_cases hz : s.owners - 1 = 0
        · rw [if_pos hz, if_pos hz]; omega
        · rw [if_neg hz, if_neg hz]; omega
  | releaseIfUnique =>
    simp only [step] at hs
    split at hs
    · simp at hs
    · next hc =>
      split at hs
      · next hv =>
        have hs := Option.some.inj hs
        subst hs
        have h0 : s.last = 0 := by rw [i4, if_neg (by omega)]
        refine ⟨i1, by simp only []; omega, i3, ?_⟩
        simp only []
        rw [if_pos (by omega)]; omega
      · have hs := Option.some.inj hs
        subst hs
        exact ⟨i1, i2, i3, i4⟩

theorem inv_run : ∀ (as : List Act) (s s' : State), Inv s → Small s as → run s as = some s' → Inv s' ∧ s'.handles < 4294967296 ∧ s'.owners < 4294967296 := by
  intro as
  induction as with
  | nil => intro s s' h hsm hr; simp only [run, Option.some.injEq] at hr; exact hr ▸ ⟨h, hsm⟩
  | cons a as ih =>
    intro s s' h hsm hr
    simp only [run] at hr
    cases hs : step s a with
    | none => rw [hs] at hr; simp at hr
    | some s1 =>
      rw [hs] at hr
      have hsm1 := hsm.2 s1 hs
      have hb : s1.handles < 4294967296 ∧ s1.owners < 4294967296 := by
        cases as with
        | nil => exact hsm1
        | cons b bs => exact hsm1.1
      exact ih s1 s' (inv_step h hb.1 hb.2 hsm.1.1 hsm.1.2 hs) hsm1 hr

/-- The counters are deleted at most once, and only when no handle is left; when no handle is left and nobody is about to delete them, they have been deleted. -/
theorem deleted_once_partial {as : List Act} {s : State} (h : run init as = some s) (hs : Small init as) :
    s.deletes ≤ 1 ∧ (s.deletes = 1 → s.handles = 0) ∧ (s.handles = 0 → s.deleting = 0 → s.deletes = 1) ∧ (s.handles ≠ 0 → s.deleting = 0) := by
  obtain ⟨⟨_, _, h3, _⟩, _⟩ := inv_run as _ _ inv_init hs h
  by_cases hz : s.handles = 0
  · rw [if_pos hz] at h3; omega
  · rw [if_neg hz] at h3; omega

/-- Exactly one caller is told that it gave back the last reference, and only then. -/
theorem last_once_partial {as : List Act} {s : State} (h : run init as = some s) (hs : Small init as) : s.last = if s.owners = 0 then 1 else 0 :=
  (inv_run as _ _ inv_init hs h).1.last

/-- `get` is the number of references; `release_if_unique` succeeds exactly if there is one. -/
theorem value_exact_partial {as : List Act} {s : State} (h : run init as = some s) (hs : Small init as) (h1 : s.handles ≠ 0) (h2 : s.owners ≠ 0) :
    s.value = s.owners ∧ ∃ s', step s .releaseIfUnique = some s' ∧ (s'.last = 1 ↔ s.owners = 1) ∧ (s.owners ≠ 1 → s' = s) := by
  obtain ⟨⟨_, i2, i3, i4⟩, _⟩ := inv_run as _ _ inv_init hs h
  rw [if_neg h1] at i3
  rw [if_neg h2] at i4
  refine ⟨i2, if s.value = 1 then { s with owners := s.owners - 1, value := 0, last := s.last + 1 } else s, ?_, ?_, ?_⟩
  · simp only [step]
    rw [if_neg (by omega)]
  · by_cases hv : s.value = 1
    · rw [if_pos hv]; simp only []; omega
    · rw [if_neg hv]; omega
  · intro hne
    rw [if_neg (by omega)]

example : run init [.copy, .drop, .addRef, .release, .releaseIfUnique, .drop, .delete] = some ⟨0, 0, 0, 0, 0, 1, 1⟩ := by decide +kernel

example : Small init [.copy, .drop] := by
  refine ⟨⟨by decide, by decide⟩, fun s1 h1 => ?_⟩
  rw [← Option.some.inj ((show step init .copy = some ⟨1, 2, 2, 1, 0, 0, 0⟩ by decide +kernel).symm.trans h1)]
  refine ⟨⟨by simp, by simp⟩, fun s2 h2 => ?_⟩
  rw [← Option.some.inj ((show step ⟨1, 2, 2, 1, 0, 0, 0⟩ .drop = some ⟨1, 1, 1, 1, 0, 0, 0⟩ by decide +kernel).symm.trans h2)]
  exact ⟨by simp, by simp⟩

/-- Beyond that the counter wraps: with 2^32 + 1 handles the destructor of one deletes the counters under the others. -/
theorem many_handles_violated (n : Nat) (hn : n = 4294967296) : ∃ s, run init (List.replicate n .copy ++ [.drop, .delete]) = some s ∧ s.deletes = 1 ∧ s.handles = n := by
  have key : ∀ (n : Nat) (s : State), s.handles ≠ 0 → s.deletes = 0 → ∀ rest : List Act, run s (List.replicate n .copy ++ rest) = run { s with handles := s.handles + n, self := if n = 0 then s.self else (s.self + n) % size } rest := by
    intro n
    induction n with
    | zero => intro s _ _ rest; simp
    | succ n ih =>
      intro s h1 h2 rest
      rw [List.replicate_succ, List.cons_append]
      simp only [run, step, if_neg (show ¬(s.handles = 0 ∨ s.deletes ≠ 0) by omega)]
      rw [ih { s with handles := s.handles + 1, self := (s.self + 1) % size } (by simp) h2 rest]
      congr 1
      simp only [State.mk.injEq, true_and, and_true]
      refine ⟨?_, by omega⟩
      rw [if_neg (Nat.succ_ne_zero n)]
      simp only [size]
      split <;> omega
  have e1 : (if n = 0 then init.self else (init.self + n) % size) = 1 := by
    rw [if_neg (by omega)]
    show (1 + n) % 4294967296 = 1
    omega
  have e2 : init.handles + n = n + 1 := Nat.add_comm 1 n
  rw [key n init (by decide) rfl, e1, e2]
  have e3 : ∀ m : Nat, step ⟨1, 1, m + 1, 1, 0, 0, 0⟩ .drop = some ⟨1, 0, m, 1, 1, 0, 0⟩ := by
    intro m
    simp [step, size]
  refine ⟨⟨1, 0, n, 1, 0, 1, 0⟩, ?_, rfl, rfl⟩
  show run ⟨1, 1, n + 1, 1, 0, 0, 0⟩ [.drop, .delete] = _
  simp only [run, e3]
  simp [step]

end Verif.RefCount.Basic

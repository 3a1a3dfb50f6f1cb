import Verif.Thread.CondWait
/-
Property C59: waiting on a condition variable with a cancellation token.
-/
namespace Verif.Thread.CondWait
open Spec
open Token (set)

theorem set_self' {α : Type} (f : Nat → α) (i : Nat) (x : α) : Token.set f i x i = x := by unfold Token.set; rw [if_pos rfl]
theorem set_ne' {α : Type} (f : Nat → α) {i j : Nat} (x : α) (h : j ≠ i) : Token.set f i x j = f j := by unfold Token.set; rw [if_neg h]

/-- The thread has the mutex. -/
def holds : WPc → Bool
  | .entered | .registered | .releasing | .dtor _ | .returned _ => true
  | _ => false

/-- What is known of one thread and its token. -/
def LInv (x : Local) : Prop :=
  (x.cancelled = true ↔ x.c ≠ .idle) ∧ (x.done = true ↔ x.c = .finished) ∧
  match x.w with
  | .out => x.handler = false ∧ ¬ InCall x
  | .entered => x.handler = false ∧ ¬ InCall x
  | .registered => x.handler = true ∧ (x.c = .idle ∨ x.c = .calling)
  | .waiting b => x.handler = true ∧ (b = false → x.c = .idle ∨ x.c = .calling)
  | .releasing => x.handler = true
  | .dtor r => (x.handler = true ∨ x.cancelled = true) ∧ (r = .cancelled → x.cancelled = true)
  | .unlocked _ => x.handler = false ∧ x.cancelled = true
  | .waitT _ b => x.handler = false ∧ x.cancelled = true ∧ (b = false → x.done = false)
  | .relock _ => x.handler = false ∧ x.cancelled = true ∧ ¬ InCall x
  | .returned r => x.handler = false ∧ ¬ InCall x ∧ (r = .cancelled → x.cancelled = true)

structure Inv (s : State) : Prop where
  loc : ∀ i, LInv (s.l i)
  waiter : ∀ i, s.owner = some (.waiter i) ↔ holds (s.l i).w = true
  canceller : ∀ i, s.owner = some (.canceller i) ↔ (s.l i).c = .holding

theorem init_inv : Inv init where
  loc := by intro i; simp [init, LInv, InCall]
  waiter := by intro i; simp [init, holds]
  canceller := by intro i; simp [init]

theorem wake_linv {x : Local} (h : LInv x) : LInv x.wake := by
  unfold Local.wake
  cases hw : x.w with
  | waiting b =>
    simp only [LInv, hw] at h ⊢
    exact ⟨h.1, h.2.1, h.2.2.1, fun e => nomatch e⟩
  | _ => exact h

theorem wake_w (x : Local) : holds x.wake.w = holds x.w := by
  unfold Local.wake
  cases hw : x.w <;> simp [hw, holds]

theorem wake_c (x : Local) : x.wake.c = x.c := by
  unfold Local.wake
  cases hw : x.w <;> rfl

/-- A step that does not touch the mutex. -/
theorem inv_upd {s : State} (hi : Inv s) (i : Nat) (x : Local) (hx : LInv x) (hw : holds x.w = holds (s.l i).w) (hc : x.c = .holding ↔ (s.l i).c = .holding) : Inv { s with l := set s.l i x } where
  loc := by
    intro j
    by_cases hj : j = i
    · subst hj; simp only [set_self']; exact hx
    · simp only [set_ne' _ _ hj]; exact hi.loc j
  waiter := by
    intro j
    by_cases hj : j = i
    · subst hj; simp only [set_self', hw]; exact hi.waiter j
    · simp only [set_ne' _ _ hj]; exact hi.waiter j
  canceller := by
    intro j
    by_cases hj : j = i
    · subst hj; simp only [set_self', hc]; exact hi.canceller j
    · simp only [set_ne' _ _ hj]; exact hi.canceller j

/-- A step that locks the mutex. -/
theorem inv_acquire {s s' : State} {i : Nat} {x : Local} (hi : Inv s) (h : acquire s i x = some s') (hw : holds x.w = true) (hc : x.c = (s.l i).c) (hx : LInv x) : Inv s' := by
  unfold acquire at h
  by_cases ho : s.owner = none
  · rw [if_pos ho] at h
    injection h with h; subst h
    refine ⟨fun j => ?_, fun j => ?_, fun j => ?_⟩
    · by_cases hj : j = i
      · subst hj; simp only [set_self']; exact hx
      · simp only [set_ne' _ _ hj]; exact hi.loc j
    · by_cases hj : j = i
      · subst hj; simp only [set_self', hw]
      · simp only [set_ne' _ _ hj]
        rw [← hi.waiter j, ho]
        simp only [Option.some.injEq, Who.waiter.injEq, reduceCtorEq, iff_false]
        exact fun e => hj e.symm
    · have hn : ∀ j, (s.l j).c ≠ .holding := by
        intro j e; have := (hi.canceller j).mpr e; rw [ho] at this; cases this
      by_cases hj : j = i
      · subst hj; simp only [set_self', hc]; simp [hn j]
      · simp only [set_ne' _ _ hj]; simp [hn j]
  · rw [if_neg ho] at h; cases h

/-- A step that unlocks the mutex. -/
theorem inv_unlock {s : State} (hi : Inv s) (i : Nat) (x : Local) (hx : LInv x) (hold : holds (s.l i).w = true ∨ (s.l i).c = .holding)
    (hw : holds x.w = false) (hc : x.c ≠ .holding) : Inv ⟨none, set s.l i x⟩ := by
  have ho : s.owner = some (.waiter i) ∨ s.owner = some (.canceller i) := hold.imp (hi.waiter i).mpr (hi.canceller i).mpr
  refine ⟨fun j => ?_, fun j => ?_, fun j => ?_⟩
  · by_cases hj : j = i
    · subst hj; simp only [set_self']; exact hx
    · simp only [set_ne' _ _ hj]; exact hi.loc j
  · by_cases hj : j = i
    · subst hj; simp only [set_self', hw]; simp
    · simp only [set_ne' _ _ hj]
      rw [← hi.waiter j]
      rcases ho with ho | ho <;> rw [ho] <;> simp
      exact fun e => hj e.symm
  · by_cases hj : j = i
    · subst hj; simp only [set_self']; simp [hc]
    · simp only [set_ne' _ _ hj]
      rw [← hi.canceller j]
      rcases ho with ho | ho <;> rw [ho] <;> simp
      exact fun e => hj e.symm

/-- The thread and the one that cancels its token cannot both have the mutex. -/
theorem not_both {s : State} (hi : Inv s) (i : Nat) (h : holds (s.l i).w = true) : (s.l i).c ≠ .holding := by
  intro e
  have h1 := (hi.waiter i).mpr h
  have h2 := (hi.canceller i).mpr e
  rw [h1] at h2; cases h2

theorem step_inv {s s' : State} {a : Act} (hi : Inv s) (h : step s a = some s') : Inv s' := by
  cases a with
  | lock i =>
    simp only [step] at h
    by_cases hw : (s.l i).w = .out
    · rw [if_pos hw] at h
      refine inv_acquire hi h rfl rfl ?_
      have := hi.loc i
      simp only [LInv, hw] at this ⊢
      exact this
    · rw [if_neg hw] at h; cases h
  | unlock i =>
    simp only [step] at h
    cases hw : (s.l i).w <;> rw [hw] at h <;> first | (cases h; done) | skip
    injection h with h; subst h
    have hl := hi.loc i
    refine inv_unlock hi i _ ?_ (Or.inl (by rw [hw]; rfl)) rfl (not_both hi i (by rw [hw]; rfl))
    simp only [LInv, hw] at hl ⊢
    exact ⟨hl.1, hl.2.1, hl.2.2.1, hl.2.2.2.1⟩
  | again i =>
    simp only [step] at h
    cases hw : (s.l i).w <;> rw [hw] at h <;> first | (cases h; done) | skip
    injection h with h; subst h
    have hl := hi.loc i
    refine inv_upd hi i _ ?_ (by rw [hw]; rfl) Iff.rfl
    simp only [LInv, hw] at hl ⊢
    exact ⟨hl.1, hl.2.1, hl.2.2.1, hl.2.2.2.1⟩
  | register i =>
    simp only [step] at h
    by_cases hw : (s.l i).w = .entered
    · rw [if_pos hw] at h
      have hl := hi.loc i
      by_cases hc : (s.l i).cancelled = true
      · rw [if_pos hc] at h
        injection h with h; subst h
        refine inv_upd hi i _ ?_ (by rw [hw]; rfl) Iff.rfl
        simp only [LInv, hw] at hl ⊢
        exact ⟨hl.1, hl.2.1, hl.2.2.1, hl.2.2.2, fun _ => hc⟩
      · rw [if_neg hc] at h
        injection h with h; subst h
        refine inv_upd hi i _ ?_ (by rw [hw]; rfl) Iff.rfl
        simp only [LInv, hw] at hl ⊢
        have hidle : (s.l i).c = .idle := by
          cases hh : (s.l i).c with
          | idle => rfl
          | _ => exact absurd (hl.1.mpr (by rw [hh]; intro e; cases e)) hc
        exact ⟨hl.1, hl.2.1, trivial, Or.inl hidle⟩
    · rw [if_neg hw] at h; cases h
  | block i =>
    simp only [step] at h
    by_cases hw : (s.l i).w = .registered
    · rw [if_pos hw] at h
      injection h with h; subst h
      have hl := hi.loc i
      refine inv_unlock hi i _ ?_ (Or.inl (by rw [hw]; rfl)) rfl (not_both hi i (by rw [hw]; rfl))
      simp only [LInv, hw] at hl ⊢
      exact ⟨hl.1, hl.2.1, hl.2.2.1, fun _ => hl.2.2.2⟩
    · rw [if_neg hw] at h; cases h
  | spurious i =>
    simp only [step] at h
    cases hw : (s.l i).w <;> rw [hw] at h <;> first | (cases h; done) | skip
    injection h with h; subst h
    have hl := hi.loc i
    refine inv_upd hi i _ ?_ (by rw [hw]; rfl) Iff.rfl
    simp only [LInv, hw] at hl ⊢
    exact ⟨hl.1, hl.2.1, hl.2.2.1, fun e => nomatch e⟩
  | reacquire i =>
    simp only [step] at h
    by_cases hw : (s.l i).w = .waiting true
    · rw [if_pos hw] at h
      refine inv_acquire hi h rfl rfl ?_
      have hl := hi.loc i
      simp only [LInv, hw] at hl ⊢
      exact ⟨hl.1, hl.2.1, hl.2.2.1⟩
    · rw [if_neg hw] at h; cases h
  | timeout i =>
    simp only [step] at h
    cases hw : (s.l i).w <;> rw [hw] at h <;> first | (cases h; done) | skip
    refine inv_acquire hi h rfl rfl ?_
    have hl := hi.loc i
    simp only [LInv, hw] at hl ⊢
    exact ⟨hl.1, hl.2.1, Or.inl hl.2.2.1, fun e => nomatch e⟩
  | release i =>
    simp only [step] at h
    by_cases hw : (s.l i).w = .releasing
    · rw [if_pos hw] at h
      injection h with h; subst h
      have hl := hi.loc i
      have hnh := not_both hi i (by rw [hw]; rfl)
      by_cases hc : (s.l i).cancelled = true
      · rw [if_pos hc]
        refine inv_upd hi i _ ?_ (by rw [hw]; rfl) Iff.rfl
        simp only [LInv, hw] at hl ⊢
        exact ⟨hl.1, hl.2.1, Or.inr hc, fun _ => hc⟩
      · rw [if_neg hc]
        refine inv_upd hi i _ ?_ (by rw [hw]; rfl) Iff.rfl
        simp only [LInv, hw] at hl ⊢
        refine ⟨hl.1, hl.2.1, trivial, ?_, fun e => nomatch e⟩
        rintro (e | e)
        · exact hc (hl.1.mpr (by simp only [] at e; rw [e]; intro e; cases e))
        · exact hnh e
    · rw [if_neg hw] at h; cases h
  | dtorTry i =>
    simp only [step] at h
    cases hw : (s.l i).w <;> rw [hw] at h <;> first | (cases h; done) | skip
    have hl := hi.loc i
    have hnh := not_both hi i (by rw [hw]; rfl)
    simp only [] at h
    by_cases hc : (s.l i).cancelled = true
    · rw [if_pos hc] at h
      injection h with h; subst h
      refine inv_unlock hi i _ ?_ (Or.inl (by rw [hw]; rfl)) rfl hnh
      simp only [LInv, hw] at hl ⊢
      exact ⟨hl.1, hl.2.1, trivial, hc⟩
    · rw [if_neg hc] at h
      injection h with h; subst h
      refine inv_upd hi i _ ?_ (by rw [hw]; rfl) Iff.rfl
      simp only [LInv, hw] at hl ⊢
      have hidle : (s.l i).c = .idle := by
        cases hh : (s.l i).c with
        | idle => rfl
        | _ => exact absurd (hl.1.mpr (by rw [hh]; intro e; cases e)) hc
      refine ⟨hl.1, hl.2.1, trivial, ?_, fun e => hl.2.2.2 e⟩
      rintro (e | e) <;> simp only [hidle] at e <;> cases e
  | unregister i =>
    simp only [step] at h
    cases hw : (s.l i).w <;> rw [hw] at h <;> first | (cases h; done) | skip
    injection h with h; subst h
    have hl := hi.loc i
    by_cases hc : (s.l i).cancelled = false ∨ (s.l i).done = true
    · rw [if_pos hc]
      refine inv_upd hi i _ ?_ (by rw [hw]; rfl) Iff.rfl
      simp only [LInv, hw] at hl ⊢
      refine ⟨hl.1, hl.2.1, trivial, hl.2.2.2, ?_⟩
      have hd : (s.l i).c = .finished := by
        rcases hc with hc | hc
        · rw [hl.2.2.2] at hc; cases hc
        · exact hl.2.1.mp hc
      rintro (e | e) <;> simp only [hd] at e <;> cases e
    · rw [if_neg hc]
      refine inv_upd hi i _ ?_ (by rw [hw]; rfl) Iff.rfl
      simp only [LInv, hw] at hl ⊢
      exact ⟨hl.1, hl.2.1, trivial, hl.2.2.2, fun _ => by simpa using fun e => hc (Or.inr e)⟩
  | resumeT i =>
    simp only [step] at h
    cases hw : (s.l i).w <;> rw [hw] at h <;> first | (cases h; done) | skip
    rename_i r b
    cases b with
    | false => cases h
    | true =>
      injection h with h; subst h
      have hl := hi.loc i
      by_cases hd : (s.l i).done = true
      · rw [if_pos hd]
        refine inv_upd hi i _ ?_ (by rw [hw]; rfl) Iff.rfl
        simp only [LInv, hw] at hl ⊢
        refine ⟨hl.1, hl.2.1, hl.2.2.1, hl.2.2.2.1, ?_⟩
        have hd := hl.2.1.mp hd
        rintro (e | e) <;> simp only [hd] at e <;> cases e
      · rw [if_neg hd]
        refine inv_upd hi i _ ?_ (by rw [hw]; rfl) Iff.rfl
        simp only [LInv, hw] at hl ⊢
        exact ⟨hl.1, hl.2.1, hl.2.2.1, hl.2.2.2.1, fun _ => by simpa using hd⟩
  | spuriousT i =>
    simp only [step] at h
    cases hw : (s.l i).w <;> rw [hw] at h <;> first | (cases h; done) | skip
    injection h with h; subst h
    have hl := hi.loc i
    refine inv_upd hi i _ ?_ (by rw [hw]; rfl) Iff.rfl
    simp only [LInv, hw] at hl ⊢
    exact ⟨hl.1, hl.2.1, hl.2.2.1, hl.2.2.2.1, fun e => nomatch e⟩
  | relock i =>
    simp only [step] at h
    cases hw : (s.l i).w <;> rw [hw] at h <;> first | (cases h; done) | skip
    refine inv_acquire hi h rfl rfl ?_
    have hl := hi.loc i
    simp only [LInv, hw] at hl ⊢
    exact ⟨hl.1, hl.2.1, hl.2.2.1, hl.2.2.2.2, fun _ => hl.2.2.2.1⟩
  | cancel i =>
    simp only [step] at h
    by_cases hc : (s.l i).cancelled = false
    · rw [if_pos hc] at h
      injection h with h; subst h
      have hl := hi.loc i
      have hidle : (s.l i).c = .idle := by
        cases hh : (s.l i).c with
        | idle => rfl
        | _ => have := hl.1.mpr (by rw [hh]; intro e; cases e); rw [hc] at this; cases this
      have hnd : (s.l i).done = false := by
        cases hd : (s.l i).done with
        | false => rfl
        | true => have := hl.2.1.mp hd; rw [hidle] at this; cases this
      by_cases hh : (s.l i).handler = true
      · rw [if_pos hh]
        refine inv_upd hi i _ ?_ rfl (by simp [hidle])
        cases hw : (s.l i).w <;> simp only [LInv, hw, hh, hc, hnd] at hl ⊢ <;> simp at hl ⊢
      · rw [if_neg hh]
        refine inv_upd hi i _ ?_ rfl (by simp [hidle])
        have hh' : (s.l i).handler = false := by simpa using hh
        cases hw : (s.l i).w <;> simp only [LInv, hw, hh', hc, hnd] at hl ⊢ <;> simp [InCall] at hl ⊢
    · rw [if_neg hc] at h; cases h
  | cLock i =>
    simp only [step] at h
    by_cases hc : (s.l i).c = .calling
    · rw [if_pos hc] at h
      by_cases ho : s.owner = none
      · rw [if_pos ho] at h
        injection h with h; subst h
        have hl := hi.loc i
        have hnw : ∀ j, holds (s.l j).w = false := by
          intro j
          cases hh : holds (s.l j).w with
          | false => rfl
          | true => have := (hi.waiter j).mpr hh; rw [ho] at this; cases this
        have hnc : ∀ j, (s.l j).c ≠ .holding := by
          intro j e; have := (hi.canceller j).mpr e; rw [ho] at this; cases this
        have hw0 := hnw i
        refine ⟨fun j => ?_, fun j => ?_, fun j => ?_⟩
        · unfold wakeAll
          simp only []
          by_cases hj : j = i
          · subst hj
            rw [set_self']
            unfold Local.wake
            cases hw : (s.l j).w <;> rw [hw] at hw0 <;> simp only [LInv, hw, hc] at hl ⊢ <;> first | (cases hw0; done) | skip
            all_goals simp [InCall, hc] at hl ⊢
            all_goals first | exact hl | (simp [hl]; done)
          · rw [set_ne' _ _ hj]; exact wake_linv (hi.loc j)
        · unfold wakeAll
          simp only [wake_w]
          by_cases hj : j = i
          · subst hj; rw [set_self']; simp [hw0]
          · rw [set_ne' _ _ hj]; simp [hnw j]
        · unfold wakeAll
          simp only [wake_c]
          by_cases hj : j = i
          · subst hj; rw [set_self']; simp
          · rw [set_ne' _ _ hj]
            simp [hnc j]
            exact fun e => hj e.symm
      · rw [if_neg ho] at h; cases h
    · rw [if_neg hc] at h; cases h
  | cUnlock i =>
    simp only [step] at h
    by_cases hc : (s.l i).c = .holding
    · rw [if_pos hc] at h
      injection h with h; subst h
      have hl := hi.loc i
      have hw0 : holds (s.l i).w = false := by
        cases hh : holds (s.l i).w with
        | false => rfl
        | true => exact absurd hc (not_both hi i hh)
      refine inv_unlock hi i _ ?_ (Or.inr hc) hw0 (by intro e; cases e)
      cases hw : (s.l i).w <;> rw [hw] at hw0 <;> simp only [LInv, hw, hc] at hl ⊢ <;> first | (cases hw0; done) | skip
      all_goals simp [InCall, hc] at hl ⊢
      all_goals first | exact hl | (simp [hl]; done)
    · rw [if_neg hc] at h; cases h
  | cFinish i =>
    simp only [step] at h
    by_cases hc : (s.l i).c = .called
    · rw [if_pos hc] at h
      injection h with h; subst h
      have hl := hi.loc i
      refine inv_upd hi i _ ?_ ?_ (by simp [hc])
      · cases hw : (s.l i).w <;> simp only [LInv, hw, hc] at hl ⊢
        all_goals simp [InCall, hc] at hl ⊢
        all_goals first | exact hl | (simp [hl]; done)
      · cases hw : (s.l i).w <;> rfl
    · rw [if_neg hc] at h; cases h
  | envLock =>
    simp only [step] at h
    by_cases ho : s.owner = none
    · rw [if_pos ho] at h
      injection h with h; subst h
      refine ⟨hi.loc, fun j => ?_, fun j => ?_⟩
      · rw [← hi.waiter j, ho]; simp
      · rw [← hi.canceller j, ho]; simp
    · rw [if_neg ho] at h; cases h
  | envUnlock =>
    simp only [step] at h
    by_cases ho : s.owner = some .env
    · rw [if_pos ho] at h
      injection h with h; subst h
      refine ⟨hi.loc, fun j => ?_, fun j => ?_⟩
      · rw [← hi.waiter j, ho]; simp
      · rw [← hi.canceller j, ho]; simp
    · rw [if_neg ho] at h; cases h
  | envBroadcast =>
    simp only [step] at h
    injection h with h; subst h
    refine ⟨fun j => wake_linv (hi.loc j), fun j => ?_, fun j => ?_⟩
    · simp only [wakeAll, wake_w]; exact hi.waiter j
    · simp only [wakeAll, wake_c]; exact hi.canceller j

theorem run_inv : ∀ {as : List Act} {s s' : State}, Inv s → run s as = some s' → Inv s'
  | [], s, s', hi, h => by injection h with h; exact h ▸ hi
  | a :: as, s, s', hi, h => by
    rw [run] at h
    cases hs : step s a with
    | none => rw [hs] at h; cases h
    | some t => rw [hs] at h; exact run_inv (step_inv hi hs) h

/-- What `Wait` of a thread and `Cancel` of its token still have to do. -/
def todo (x : Local) : Nat :=
  (match x.w with
  | .out => 0
  | .entered => 10
  | .registered => 9
  | .waiting _ => 8
  | .releasing => 7
  | .dtor _ => 6
  | .unlocked _ => 5
  | .waitT _ b => if b then 4 else 3
  | .relock _ => 2
  | .returned _ => 0) +
  (match x.c with
  | .idle => 0
  | .calling => 8
  | .holding => 6
  | .called => 4
  | .finished => 0)

theorem todo_wake (x : Local) : todo x.wake = todo x := by
  unfold Local.wake
  cases hw : x.w <;> simp [todo, hw]

theorem todo_wakeAll (l : Nat → Local) (i : Nat) : todo (wakeAll l i) = todo (l i) := todo_wake _

theorem acquire_some {s s' : State} {i : Nat} {x : Local} (h : acquire s i x = some s') : s'.l = Token.set s.l i x := by
  unfold acquire at h
  by_cases ho : s.owner = none
  · rw [if_pos ho] at h; injection h with h; subst h; rfl
  · rw [if_neg ho] at h; cases h

/-- Every step of `Wait` of a thread or of `Cancel` of its token brings them closer to the end; no other step sets them back, except that a spurious wakeup may cost one more step. -/
theorem step_todo {s s' : State} {a : Act} (i : Nat) (hi : Inv s) (h : step s a = some s') :
    (Own i a → todo (s'.l i) < todo (s.l i)) ∧
    (¬ Own i a → a ≠ .lock i → a ≠ .again i → a ≠ .cancel i → todo (s'.l i) ≤ todo (s.l i) + (if a = .spuriousT i then 1 else 0)) := by
  have other : ∀ (j : Nat) (x : Local), j ≠ i → todo (Token.set s.l j x i) = todo (s.l i) := fun j x hj => by rw [set_ne' _ _ (Ne.symm hj)]
  cases a with
  | lock j =>
    refine ⟨fun ho => absurd ho (by unfold Own; simp), fun _ h1 _ _ => ?_⟩
    simp only [step] at h
    by_cases hw : (s.l j).w = .out
    · rw [if_pos hw] at h
      rw [acquire_some h, other j _ (by rintro rfl; exact h1 rfl)]; omega
    · rw [if_neg hw] at h; cases h
  | unlock j =>
    refine ⟨fun ho => absurd ho (by unfold Own; simp), fun _ h1 _ _ => ?_⟩
    simp only [step] at h
    cases hw : (s.l j).w <;> rw [hw] at h <;> first | (cases h; done) | skip
    injection h with h; subst h
    by_cases hj : j = i
    · subst hj; simp only [set_self', todo, hw]; omega
    · simp only [other j _ hj]; omega
  | again j =>
    refine ⟨fun ho => absurd ho (by unfold Own; simp), fun _ h1 h2 _ => ?_⟩
    simp only [step] at h
    cases hw : (s.l j).w <;> rw [hw] at h <;> first | (cases h; done) | skip
    injection h with h; subst h
    simp only [other j _ (by rintro rfl; exact h2 rfl)]; omega
  | register j =>
    simp only [step] at h
    by_cases hw : (s.l j).w = .entered
    · rw [if_pos hw] at h
      by_cases hj : j = i
      · subst hj
        refine ⟨fun _ => ?_, fun hn => absurd (by unfold Own; simp) hn⟩
        by_cases hc : (s.l j).cancelled = true
        · rw [if_pos hc] at h; injection h with h; subst h; simp only [set_self', todo, hw]; omega
        · rw [if_neg hc] at h; injection h with h; subst h; simp only [set_self', todo, hw]; omega
      · refine ⟨fun ho => absurd ho (by unfold Own; simp [hj]), fun _ _ _ _ => ?_⟩
        by_cases hc : (s.l j).cancelled = true
        · rw [if_pos hc] at h; injection h with h; subst h; simp only [other j _ hj]; omega
        · rw [if_neg hc] at h; injection h with h; subst h; simp only [other j _ hj]; omega
    · rw [if_neg hw] at h; cases h
  | block j =>
    simp only [step] at h
    by_cases hw : (s.l j).w = .registered
    · rw [if_pos hw] at h
      injection h with h; subst h
      by_cases hj : j = i
      · subst hj
        exact ⟨fun _ => by simp only [set_self', todo, hw]; omega, fun hn => absurd (by unfold Own; simp) hn⟩
      · exact ⟨fun ho => absurd ho (by unfold Own; simp [hj]), fun _ _ _ _ => by simp only [other j _ hj]; omega⟩
    · rw [if_neg hw] at h; cases h
  | spurious j =>
    refine ⟨fun ho => absurd ho (by unfold Own; simp), fun _ h1 _ _ => ?_⟩
    simp only [step] at h
    cases hw : (s.l j).w <;> rw [hw] at h <;> first | (cases h; done) | skip
    injection h with h; subst h
    by_cases hj : j = i
    · subst hj; simp only [set_self', todo, hw]; omega
    · simp only [other j _ hj]; omega
  | reacquire j =>
    simp only [step] at h
    by_cases hw : (s.l j).w = .waiting true
    · rw [if_pos hw] at h
      rw [acquire_some h]
      by_cases hj : j = i
      · subst hj
        exact ⟨fun _ => by simp only [set_self', todo, hw]; omega, fun hn => absurd (by unfold Own; simp) hn⟩
      · exact ⟨fun ho => absurd ho (by unfold Own; simp [hj]), fun _ _ _ _ => by simp only [other j _ hj]; omega⟩
    · rw [if_neg hw] at h; cases h
  | timeout j =>
    simp only [step] at h
    cases hw : (s.l j).w <;> rw [hw] at h <;> first | (cases h; done) | skip
    rw [acquire_some h]
    by_cases hj : j = i
    · subst hj
      exact ⟨fun _ => by simp only [set_self', todo, hw]; omega, fun hn => absurd (by unfold Own; simp) hn⟩
    · exact ⟨fun ho => absurd ho (by unfold Own; simp [hj]), fun _ _ _ _ => by simp only [other j _ hj]; omega⟩
  | release j =>
    simp only [step] at h
    by_cases hw : (s.l j).w = .releasing
    · rw [if_pos hw] at h
      injection h with h; subst h
      by_cases hj : j = i
      · subst hj
        refine ⟨fun _ => ?_, fun hn => absurd (by unfold Own; simp) hn⟩
        by_cases hc : (s.l j).cancelled = true
        · simp only [set_self', todo, hw, if_pos hc]; omega
        · simp only [set_self', todo, hw, if_neg hc]; omega
      · exact ⟨fun ho => absurd ho (by unfold Own; simp [hj]), fun _ _ _ _ => by simp only [other j _ hj]; omega⟩
    · rw [if_neg hw] at h; cases h
  | dtorTry j =>
    simp only [step] at h
    cases hw : (s.l j).w <;> rw [hw] at h <;> first | (cases h; done) | skip
    simp only [] at h
    by_cases hj : j = i
    · subst hj
      refine ⟨fun _ => ?_, fun hn => absurd (by unfold Own; simp) hn⟩
      by_cases hc : (s.l j).cancelled = true
      · rw [if_pos hc] at h; injection h with h; subst h; simp only [set_self', todo, hw]; omega
      · rw [if_neg hc] at h; injection h with h; subst h; simp only [set_self', todo, hw]; omega
    · refine ⟨fun ho => absurd ho (by unfold Own; simp [hj]), fun _ _ _ _ => ?_⟩
      by_cases hc : (s.l j).cancelled = true
      · rw [if_pos hc] at h; injection h with h; subst h; simp only [other j _ hj]; omega
      · rw [if_neg hc] at h; injection h with h; subst h; simp only [other j _ hj]; omega
  | unregister j =>
    simp only [step] at h
    cases hw : (s.l j).w <;> rw [hw] at h <;> first | (cases h; done) | skip
    injection h with h; subst h
    by_cases hj : j = i
    · subst hj
      refine ⟨fun _ => ?_, fun hn => absurd (by unfold Own; simp) hn⟩
      by_cases hc : (s.l j).cancelled = false ∨ (s.l j).done = true
      · simp only [set_self', todo, hw, if_pos hc]; omega
      · simp only [set_self', todo, hw, if_neg hc, Bool.false_eq_true, if_false]; omega
    · exact ⟨fun ho => absurd ho (by unfold Own; simp [hj]), fun _ _ _ _ => by simp only [other j _ hj]; omega⟩
  | resumeT j =>
    simp only [step] at h
    cases hw : (s.l j).w <;> rw [hw] at h <;> first | (cases h; done) | skip
    rename_i r b
    cases b with
    | false => cases h
    | true =>
      injection h with h; subst h
      by_cases hj : j = i
      · subst hj
        refine ⟨fun _ => ?_, fun hn => absurd (by unfold Own; simp) hn⟩
        by_cases hd : (s.l j).done = true
        · simp only [set_self', todo, hw, if_pos hd, if_true]; omega
        · simp only [set_self', todo, hw, if_neg hd, Bool.false_eq_true, if_false, if_true]; omega
      · exact ⟨fun ho => absurd ho (by unfold Own; simp [hj]), fun _ _ _ _ => by simp only [other j _ hj]; omega⟩
  | spuriousT j =>
    refine ⟨fun ho => absurd ho (by unfold Own; simp), fun _ h1 _ _ => ?_⟩
    simp only [step] at h
    cases hw : (s.l j).w <;> rw [hw] at h <;> first | (cases h; done) | skip
    injection h with h; subst h
    by_cases hj : j = i
    · subst hj
      simp only [set_self', todo, hw, if_true]
      split <;> split <;> omega
    · simp only [other j _ hj]; omega
  | relock j =>
    simp only [step] at h
    cases hw : (s.l j).w <;> rw [hw] at h <;> first | (cases h; done) | skip
    rw [acquire_some h]
    by_cases hj : j = i
    · subst hj
      exact ⟨fun _ => by simp only [set_self', todo, hw]; omega, fun hn => absurd (by unfold Own; simp) hn⟩
    · exact ⟨fun ho => absurd ho (by unfold Own; simp [hj]), fun _ _ _ _ => by simp only [other j _ hj]; omega⟩
  | cancel j =>
    refine ⟨fun ho => absurd ho (by unfold Own; simp), fun _ _ _ h1 => ?_⟩
    simp only [step] at h
    by_cases hc : (s.l j).cancelled = false
    · rw [if_pos hc] at h
      injection h with h; subst h
      simp only [other j _ (by rintro rfl; exact h1 rfl)]; omega
    · rw [if_neg hc] at h; cases h
  | cLock j =>
    simp only [step] at h
    by_cases hc : (s.l j).c = .calling
    · rw [if_pos hc] at h
      by_cases ho : s.owner = none
      · rw [if_pos ho] at h
        injection h with h; subst h
        simp only [todo_wakeAll]
        by_cases hj : j = i
        · subst hj
          exact ⟨fun _ => by simp only [set_self', todo, hc]; omega, fun hn => absurd (by unfold Own; simp) hn⟩
        · exact ⟨fun ho => absurd ho (by unfold Own; simp [hj]), fun _ _ _ _ => by simp only [other j _ hj]; omega⟩
      · rw [if_neg ho] at h; cases h
    · rw [if_neg hc] at h; cases h
  | cUnlock j =>
    simp only [step] at h
    by_cases hc : (s.l j).c = .holding
    · rw [if_pos hc] at h
      injection h with h; subst h
      by_cases hj : j = i
      · subst hj
        exact ⟨fun _ => by simp only [set_self', todo, hc]; omega, fun hn => absurd (by unfold Own; simp) hn⟩
      · exact ⟨fun ho => absurd ho (by unfold Own; simp [hj]), fun _ _ _ _ => by simp only [other j _ hj]; omega⟩
    · rw [if_neg hc] at h; cases h
  | cFinish j =>
    simp only [step] at h
    by_cases hc : (s.l j).c = .called
    · rw [if_pos hc] at h
      injection h with h; subst h
      by_cases hj : j = i
      · subst hj
        refine ⟨fun _ => ?_, fun hn => absurd (by unfold Own; simp) hn⟩
        simp only [set_self', todo, hc]
        cases hw : (s.l j).w <;> simp only [] <;> first | omega | skip
        rename_i r b
        cases b <;> simp
      · exact ⟨fun ho => absurd ho (by unfold Own; simp [hj]), fun _ _ _ _ => by simp only [other j _ hj]; omega⟩
    · rw [if_neg hc] at h; cases h
  | envLock =>
    refine ⟨fun ho => absurd ho (by unfold Own; simp), fun _ _ _ h1 => ?_⟩
    simp only [step] at h
    by_cases ho : s.owner = none
    · rw [if_pos ho] at h; injection h with h; subst h; simp only []; omega
    · rw [if_neg ho] at h; cases h
  | envUnlock =>
    refine ⟨fun ho => absurd ho (by unfold Own; simp), fun _ _ _ h1 => ?_⟩
    simp only [step] at h
    by_cases ho : s.owner = some .env
    · rw [if_pos ho] at h; injection h with h; subst h; simp only []; omega
    · rw [if_neg ho] at h; cases h
  | envBroadcast =>
    refine ⟨fun ho => absurd ho (by unfold Own; simp), fun _ _ _ h1 => ?_⟩
    simp only [step] at h
    injection h with h; subst h
    simp only [todo_wakeAll]; omega

/-- A step of the thread is possible as long as its token is cancelled, the calls are not over, and nobody else has the mutex. -/
theorem own_enabled {s : State} (hi : Inv s) (i : Nat) (hc : (s.l i).cancelled = true) (hw : InWait (s.l i) ∨ (s.l i).c ≠ .finished)
    (hfree : s.owner = none ∨ s.owner = some (.waiter i) ∨ s.owner = some (.canceller i)) : ∃ a s', Own i a ∧ step s a = some s' := by
  have hl := hi.loc i
  have hcne := hl.1.mp hc
  by_cases h1 : (s.l i).c = .called
  · exact ⟨.cFinish i, _, by unfold Own; simp, by simp only [step]; rw [if_pos h1]; rfl⟩
  by_cases h2 : (s.l i).c = .holding
  · exact ⟨.cUnlock i, _, by unfold Own; simp, by simp only [step]; rw [if_pos h2]⟩
  have hno : s.owner ≠ some (.canceller i) := fun e => h2 ((hi.canceller i).mp e)
  by_cases hh : holds (s.l i).w = true
  · have ho := (hi.waiter i).mpr hh
    cases hw' : (s.l i).w <;> rw [hw'] at hh <;> first | (cases hh; done) | skip
    · exact ⟨.register i, _, by unfold Own; simp, by simp only [step]; rw [if_pos hw', if_pos hc]; rfl⟩
    · exact ⟨.block i, _, by unfold Own; simp, by simp only [step]; rw [if_pos hw']⟩
    · exact ⟨.release i, _, by unfold Own; simp, by simp only [step]; rw [if_pos hw']; rfl⟩
    · exact ⟨.dtorTry i, _, by unfold Own; simp, by simp only [step]; rw [hw']; simp only []; rw [if_pos hc]⟩
    · simp only [LInv, hw'] at hl
      have hfin : (s.l i).c = .finished := by
        cases hcc : (s.l i).c with
        | idle => exact absurd hcc hcne
        | calling => exact absurd (Or.inl hcc) hl.2.2.2.1
        | holding => exact absurd hcc h2
        | called => exact absurd hcc h1
        | finished => rfl
      rcases hw with hw | hw
      · unfold InWait at hw; rw [hw'] at hw; cases hw
      · exact absurd hfin hw
  · have hnw : s.owner = none := by
      rcases hfree with h | h | h
      · exact h
      · exact absurd ((hi.waiter i).mp h) hh
      · exact absurd h hno
    by_cases h3 : (s.l i).c = .calling
    · exact ⟨.cLock i, _, by unfold Own; simp, by simp only [step]; rw [if_pos h3, if_pos hnw]⟩
    · have hfin : (s.l i).c = .finished := by
        cases hcc : (s.l i).c with
        | idle => exact absurd hcc hcne
        | calling => exact absurd hcc h3
        | holding => exact absurd hcc h2
        | called => exact absurd hcc h1
        | finished => rfl
      have hdone := hl.2.1.mpr hfin
      rcases hw with hw | hw
      · unfold InWait at hw
        cases hw' : (s.l i).w <;> rw [hw'] at hw hh <;> simp only [LInv, hw'] at hl <;> first | (exact absurd rfl hh; done) | skip
        · cases hw
        · rename_i b
          cases b with
          | false => rcases hl.2.2.2 rfl with h | h
                     · exact absurd h hcne
                     · exact absurd h h3
          | true => exact ⟨.reacquire i, _, by unfold Own; simp, by simp only [step, acquire]; rw [if_pos hw', if_pos hnw]⟩
        · exact ⟨.unregister i, _, by unfold Own; simp, by simp only [step]; rw [hw']; rfl⟩
        · rename_i r b
          cases b with
          | false => have := hl.2.2.2.2 rfl; rw [hdone] at this; cases this
          | true => exact ⟨.resumeT i, _, by unfold Own; simp, by simp only [step]; rw [hw']; rfl⟩
        · exact ⟨.relock i, _, by unfold Own; simp, by simp only [step, acquire]; rw [hw']; simp only []; rw [if_pos hnw]⟩
      · exact absurd hfin hw

theorem run_todo (i : Nat) : ∀ {as : List Act} {s s' : State}, Inv s → (∀ a ∈ as, a ≠ .lock i ∧ a ≠ .again i ∧ a ≠ .cancel i) → run s as = some s' →
    as.countP (fun a => decide (Own i a)) + todo (s'.l i) ≤ todo (s.l i) + as.count (.spuriousT i)
  | [], s, s', _, _, h => by injection h with h; subst h; simp
  | a :: as, s, s', hi, ha, h => by
    rw [run] at h
    cases hs : step s a with
    | none => rw [hs] at h; cases h
    | some t =>
      rw [hs] at h
      have ih := run_todo i (step_inv hi hs) (fun x hx => ha x (List.mem_cons_of_mem _ hx)) h
      obtain ⟨n1, n2, n3⟩ := ha a (List.mem_cons_self ..)
      obtain ⟨s1, s2⟩ := step_todo i hi hs
      rw [List.countP_cons, List.count_cons]
      by_cases ho : Own i a
      · have := s1 ho
        simp only [ho, decide_true, if_true]
        omega
      · have := s2 ho n1 n2 n3
        simp only [ho, decide_false, Bool.false_eq_true, if_false]
        by_cases hsp : a = .spuriousT i
        · rw [if_pos hsp] at this
          simp only [hsp, beq_self_eq_true, if_true] at this ⊢; omega
        · rw [if_neg hsp] at this
          rw [if_neg (by simpa using hsp)]; omega

theorem todo_le (x : Local) : todo x ≤ 18 := by
  unfold todo
  cases x.w <;> cases x.c <;> simp only [] <;> (try split) <;> omega

/-- C59, no lost cancellation: once the token of a thread is cancelled - before, during or after the registration of the handler, whatever the other threads do -, its call of `Wait`
and the call of `Cancel` are over after at most 18 more steps of theirs (one more for each spurious wakeup), and until then one of them can make a step whenever nobody else has the mutex. -/
theorem cancel_ends_wait {as bs : List Act} {s s' : State} (i : Nat) (h : run init as = some s) (hc : (s.l i).cancelled = true)
    (hb : ∀ a ∈ bs, a ≠ .lock i ∧ a ≠ .again i) (h' : run s bs = some s') :
    bs.countP (fun a => decide (Own i a)) ≤ 18 + bs.count (.spuriousT i) ∧
    ((s'.owner = none ∨ s'.owner = some (.waiter i) ∨ s'.owner = some (.canceller i)) → (¬ InWait (s'.l i) ∧ (s'.l i).c = .finished) ∨ ∃ a s'', Own i a ∧ step s' a = some s'') := by
  have hi := run_inv init_inv h
  have stay : ∀ {bs : List Act} {s s' : State}, Inv s → (s.l i).cancelled = true → run s bs = some s' → (s'.l i).cancelled = true ∧ ∀ a ∈ bs, a ≠ .cancel i := by
    intro bs
    induction bs with
    | nil => intro s s' _ hc h; injection h with h; subst h; exact ⟨hc, fun a ha => nomatch ha⟩
    | cons a bs ih =>
      intro s s' hi hc h
      rw [run] at h
      cases hs : step s a with
      | none => rw [hs] at h; cases h
      | some t =>
        rw [hs] at h
        have hne : a ≠ .cancel i := by
          intro e; subst e
          simp only [step] at hs
          rw [if_neg (by rw [hc]; decide)] at hs; cases hs
        have hct : (t.l i).cancelled = true := by
          have hmono : ∀ (j : Nat) (x : Local), (j = i → x.cancelled = true) → (Token.set s.l j x i).cancelled = true := by
            intro j x hx
            by_cases hj : i = j
            · subst hj; rw [set_self']; exact hx rfl
            · rw [set_ne' _ _ hj]; exact hc
          have hwk : ∀ (l : Nat → Local), (wakeAll l i).cancelled = (l i).cancelled := by
            intro l; unfold wakeAll Local.wake; cases (l i).w <;> rfl
          cases a <;> simp only [step, upd] at hs
          all_goals first
            | (injection hs with hs; subst hs; simp only [hwk]; exact hc)
            | skip
          all_goals (repeat' split at hs)
          all_goals first
            | (cases hs; done)
            | (rw [acquire_some hs]; exact hmono _ _ (fun e => by subst e; exact hc))
            | (injection hs with hs; subst hs; simp only [hwk]; exact hmono _ _ (fun e => by subst e; first | exact hc | rfl))
            | (injection hs with hs; subst hs; exact hc)
        obtain ⟨r1, r2⟩ := ih (step_inv hi hs) hct h
        refine ⟨r1, fun x hx => ?_⟩
        rw [List.mem_cons] at hx
        rcases hx with rfl | hx
        · exact hne
        · exact r2 x hx
  obtain ⟨c1, c2⟩ := stay hi hc h'
  constructor
  · have := run_todo i hi (fun a ha => ⟨(hb a ha).1, (hb a ha).2, c2 a ha⟩) h'
    have := todo_le (s.l i)
    omega
  · intro hfree
    by_cases hdone : ¬ InWait (s'.l i) ∧ (s'.l i).c = .finished
    · exact Or.inl hdone
    · refine Or.inr (own_enabled (run_inv hi h') i c1 ?_ hfree)
      by_cases hw : InWait (s'.l i)
      · exact Or.inl hw
      · exact Or.inr fun e => hdone ⟨hw, e⟩

/-- C59, what `Wait` guarantees when it returns: the caller has the mutex, the handler is not being called and will not be, and `Cancelled` is only reported for a cancelled token. -/
theorem wait_returns {as : List Act} {s : State} (i : Nat) (r : Res) (h : run init as = some s) (hr : (s.l i).w = .returned r) :
    s.owner = some (.waiter i) ∧ ¬ InCall (s.l i) ∧ (s.l i).handler = false ∧ (r = .cancelled → (s.l i).cancelled = true) := by
  have hi := run_inv init_inv h
  have hl := hi.loc i
  simp only [LInv, hr] at hl
  exact ⟨(hi.waiter i).mpr (by rw [hr]; rfl), hl.2.2.2.1, hl.2.2.1, hl.2.2.2.2⟩

/-! Non-vacuity. -/
/-- A cancellation that comes between the registration and the blocking of the thread. -/
example : ∃ s, run init [.lock 2, .register 2, .cancel 2, .block 2, .cLock 2, .cUnlock 2, .reacquire 2, .release 2, .dtorTry 2, .unregister 2, .cFinish 2, .resumeT 2, .relock 2] = some s ∧
    (s.l 2).w = .returned .cancelled := ⟨_, rfl, rfl⟩
example : ∃ s, run init [.lock 2, .register 2, .block 2, .envLock, .envBroadcast, .envUnlock, .reacquire 2, .release 2] = some s ∧ (s.l 2).w = .returned .broadcasted := ⟨_, rfl, rfl⟩
example : ∃ s, run init [.lock 2, .register 2, .cancel 2] = some s ∧ (s.l 2).cancelled = true ∧ InWait (s.l 2) := ⟨_, rfl, rfl, trivial⟩

end Verif.Thread.CondWait

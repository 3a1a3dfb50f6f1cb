import Verif.Thread.Token
/-
Properties C39 and C40.
-/
namespace Verif.Thread.Token
open Spec

@[simp] theorem set_self {α : Type} (f : Nat → α) (i : Nat) (x : α) : set f i x i = x := by unfold set; rw [if_pos rfl]
theorem set_ne {α : Type} (f : Nat → α) {i j : Nat} (x : α) (h : j ≠ i) : set f i x j = f j := by unfold set; rw [if_neg h]

/-- Every reachable state satisfies this. -/
structure Inv (s : State) : Prop where
  done_cancelled : s.done = true → s.cancelled = true
  in_cancel : InCancel s ↔ (s.cancelled = true ∧ s.done = false)
  one_cancel : ∀ c₁ c₂ h₁ h₂, s.cancels c₁ = .calling h₁ → s.cancels c₂ = .calling h₂ → c₁ = c₂
  handler_user : ∀ h, s.handler = some h → s.users h = .registered
  call_user : ∀ c h, s.cancels c = .calling (some h) → InUse (s.users h)
  calls_le : ∀ h, s.calls h ≤ 1
  fresh : ∀ h, s.handler = some h → s.calls h = if s.cancelled then 1 else 0
  woken : s.done = true → ∀ h b, s.users h = .waiting b → b = true
  asleep : s.done = true → ∀ t b w, s.sleepers t = .sleeping b w → w = true

theorem init_inv : Inv init where
  done_cancelled := by intro h; cases h
  in_cancel := ⟨(fun ⟨_, _, h⟩ => nomatch h), (fun h => nomatch h.1)⟩
  one_cancel := by intro c₁ c₂ h₁ h₂ h; cases h
  handler_user := by intro h e; cases e
  call_user := by intro c h e; cases e
  calls_le := by intro h; exact Nat.zero_le _
  fresh := by intro h e; cases e
  woken := by intro h; cases h
  asleep := by intro h; cases h

theorem wake_inUse (u : UPc) : InUse u.wake ↔ InUse u := by cases u <;> rfl

theorem free_not_inUse {u : UPc} (h : u.free = true) : ¬ InUse u := by cases u <;> first | (cases h; done) | (intro h'; exact h')

/-- Changing users and the handler, the cancelling threads being as they were. -/
theorem inv_user {s : State} (hi : Inv s) (h : Nat) (u : UPc) (hh : Option Nat) (cl : Nat → Nat)
    (hcall : InUse (s.users h) → InUse u ∨ ¬ (s.cancelled = true ∧ s.done = false))
    (hhan : ∀ k, hh = some k → set s.users h u k = .registered)
    (hcl : ∀ k, cl k ≤ 1) (hfr : ∀ k, hh = some k → cl k = if s.cancelled then 1 else 0)
    (hw : s.done = true → ∀ b, u = .waiting b → b = true) :
    Inv { s with handler := hh, users := set s.users h u, calls := cl } where
  done_cancelled := hi.done_cancelled
  in_cancel := hi.in_cancel
  one_cancel := hi.one_cancel
  handler_user := hhan
  call_user := by
    intro c k e
    have h0 := hi.call_user c k e
    by_cases hk : k = h
    · subst hk
      simp only [set_self]
      rcases hcall h0 with h1 | h1
      · exact h1
      · exact absurd (hi.in_cancel.mp ⟨c, some k, e⟩) h1
    · simp only [set_ne _ _ hk]; exact h0
  calls_le := hcl
  fresh := hfr
  woken := by
    intro hd k b e
    by_cases hk : k = h
    · subst hk
      simp only [set_self] at e
      exact hw hd b e
    · simp only [set_ne _ _ hk] at e
      exact hi.woken hd k b e
  asleep := hi.asleep

theorem inv_sleep {s : State} (hi : Inv s) (t : Nat) (p : SPc) (hw : s.done = true → ∀ b w, p = .sleeping b w → w = true) : Inv { s with sleepers := set s.sleepers t p } where
  done_cancelled := hi.done_cancelled
  in_cancel := hi.in_cancel
  one_cancel := hi.one_cancel
  handler_user := hi.handler_user
  call_user := hi.call_user
  calls_le := hi.calls_le
  fresh := hi.fresh
  woken := hi.woken
  asleep := by
    intro hd k b w e
    by_cases hk : k = t
    · subst hk
      simp only [set_self] at e
      exact hw hd b w e
    · simp only [set_ne _ _ hk] at e
      exact hi.asleep hd k b w e

theorem step_inv {s s' : State} {a : Act} (hi : Inv s) (h : step s a = some s') : Inv s' := by
  cases a with
  | cancelStart c =>
    simp only [step, cancelStart] at h
    by_cases hc : s.cancels c = .idle
    · rw [if_pos hc] at h
      by_cases hx : s.cancelled = true
      · rw [if_pos hx] at h
        injection h with h; subst h
        refine ⟨hi.done_cancelled, ?_, ?_, hi.handler_user, ?_, hi.calls_le, hi.fresh, hi.woken, hi.asleep⟩
        · rw [← hi.in_cancel]
          constructor
          · rintro ⟨c', h', e⟩
            by_cases hk : c' = c
            · subst hk; simp only [set_self] at e; cases e
            · simp only [set_ne _ _ hk] at e; exact ⟨c', h', e⟩
          · rintro ⟨c', h', e⟩
            have hk : c' ≠ c := by intro hk; rw [hk, hc] at e; cases e
            exact ⟨c', h', by simp only [set_ne _ _ hk]; exact e⟩
        · intro c₁ c₂ h₁ h₂ e₁ e₂
          have k₁ : c₁ ≠ c := by intro hk; subst hk; simp only [set_self] at e₁; cases e₁
          have k₂ : c₂ ≠ c := by intro hk; subst hk; simp only [set_self] at e₂; cases e₂
          simp only [set_ne _ _ k₁] at e₁
          simp only [set_ne _ _ k₂] at e₂
          exact hi.one_cancel _ _ _ _ e₁ e₂
        · intro c' k e
          have k₁ : c' ≠ c := by intro hk; subst hk; simp only [set_self] at e; cases e
          simp only [set_ne _ _ k₁] at e
          exact hi.call_user _ _ e
      · rw [if_neg hx] at h
        injection h with h; subst h
        have hnc : ¬ InCancel s := fun hh => hx (hi.in_cancel.mp hh).1
        have hdone : s.done = false := by
          cases hd : s.done with
          | false => rfl
          | true => exact absurd (hi.done_cancelled hd) hx
        have hno : ∀ c' h', s.cancels c' ≠ .calling h' := fun c' h' e => hnc ⟨c', h', e⟩
        refine ⟨fun _ => rfl, ?_, ?_, hi.handler_user, ?_, ?_, ?_, ?_, ?_⟩
        · exact ⟨fun _ => ⟨rfl, hdone⟩, fun _ => ⟨c, s.handler, set_self ..⟩⟩
        · intro c₁ c₂ h₁ h₂ e₁ e₂
          have k₁ : c₁ = c := by
            by_cases hk : c₁ = c
            · exact hk
            · simp only [set_ne _ _ hk] at e₁; exact absurd e₁ (hno _ _)
          have k₂ : c₂ = c := by
            by_cases hk : c₂ = c
            · exact hk
            · simp only [set_ne _ _ hk] at e₂; exact absurd e₂ (hno _ _)
          rw [k₁, k₂]
        · intro c' k e
          by_cases hk : c' = c
          · subst hk
            simp only [set_self, CPc.calling.injEq] at e
            simp only []
            rw [hi.handler_user k e]; trivial
          · simp only [set_ne _ _ hk] at e; exact absurd e (hno _ _)
        · intro k
          simp only []
          cases hh : s.handler with
          | none => simp only [bump]; exact hi.calls_le k
          | some k' =>
            simp only [bump]
            by_cases hk : k = k'
            · subst hk
              have := hi.fresh k hh
              rw [if_neg hx] at this
              simp only [set_self, this]; decide
            · simp only [set_ne _ _ hk]; exact hi.calls_le k
        · intro k e
          simp only [] at e
          have := hi.fresh k e
          rw [if_neg hx] at this
          simp only [e, bump, set_self, this]; rfl
        · intro hd; simp only [] at hd; rw [hdone] at hd; cases hd
        · intro hd; simp only [] at hd; rw [hdone] at hd; cases hd
    · rw [if_neg hc] at h; cases h
  | cancelFinish c =>
    simp only [step, cancelFinish] at h
    cases hc : s.cancels c with
    | idle => rw [hc] at h; cases h
    | returned => rw [hc] at h; cases h
    | calling hh =>
      rw [hc] at h
      injection h with h; subst h
      have hcan := hi.in_cancel.mp ⟨c, hh, hc⟩
      have hno : ∀ c' h', set s.cancels c .returned c' ≠ .calling h' := by
        intro c' h' e
        by_cases hk : c' = c
        · subst hk; simp only [set_self] at e; cases e
        · simp only [set_ne _ _ hk] at e
          exact hk (hi.one_cancel _ _ _ _ e hc)
      refine ⟨fun _ => hcan.1, ⟨fun ⟨c', h', e⟩ => absurd e (hno _ _), fun hx => nomatch hx.2⟩, fun c₁ _ _ _ e₁ => absurd e₁ (hno _ _), ?_, fun c' k e => absurd e (hno _ _), hi.calls_le, hi.fresh, ?_, ?_⟩
      · intro k e
        have := hi.handler_user k e
        simp only []
        rw [this]; rfl
      · intro _ k b e
        simp only [] at e
        cases hu : s.users k <;> rw [hu] at e <;> simp only [UPc.wake] at e
        all_goals first | (cases e; done) | (injection e with e; exact e.symm)
      · intro _ k b w e
        simp only [] at e
        cases hu : s.sleepers k <;> rw [hu] at e <;> simp only [SPc.wake] at e
        all_goals first | (cases e; done) | (injection e with _ e; exact e.symm)
  | reset =>
    simp only [step, reset] at h
    by_cases hr : s.handler = none ∧ s.cancelled = s.done
    · rw [if_pos hr] at h
      injection h with h; subst h
      have hno : ¬ InCancel s := by
        intro hx
        have := hi.in_cancel.mp hx
        rw [hr.2, this.2] at this
        cases this.1
      refine ⟨(fun h => nomatch h), ⟨fun hx => absurd hx hno, (fun hx => nomatch hx.1)⟩, hi.one_cancel, hi.handler_user, hi.call_user, hi.calls_le, ?_, (fun h => nomatch h), (fun h => nomatch h)⟩
      intro k e
      simp only [] at e
      rw [hr.1] at e; cases e
    · rw [if_neg hr] at h; cases h
  | register k =>
    simp only [step, register] at h
    by_cases hf : (s.users k).free = true
    · rw [if_pos hf] at h
      have hnu := free_not_inUse hf
      have hnh : ∀ j, s.handler = some j → j ≠ k := by
        intro j e hj
        subst hj
        exact hnu (by rw [hi.handler_user j e]; trivial)
      by_cases hx : s.cancelled = true
      · rw [if_pos hx] at h
        injection h with h; subst h
        exact inv_user hi k .refused s.handler s.calls (fun hu => absurd hu hnu) (fun j e => by rw [set_ne _ _ (hnh j e)]; exact hi.handler_user j e) hi.calls_le hi.fresh (fun _ b e => by cases e)
      · rw [if_neg hx] at h
        by_cases hn : s.handler = none
        · rw [if_pos hn] at h
          injection h with h; subst h
          refine inv_user hi k .registered (some k) (set s.calls k 0) (fun hu => absurd hu hnu) (fun j e => ?_) (fun j => ?_) (fun j e => ?_) (fun _ b e => by cases e)
          · injection e with e; subst e; exact set_self ..
          · by_cases hj : j = k
            · subst hj; rw [set_self]; decide
            · rw [set_ne _ _ hj]; exact hi.calls_le j
          · injection e with e; subst e; rw [set_self, if_neg hx]
        · rw [if_neg hn] at h
          injection h with h; subst h
          exact inv_user hi k .failed s.handler s.calls (fun hu => absurd hu hnu) (fun j e => by rw [set_ne _ _ (hnh j e)]; exact hi.handler_user j e) hi.calls_le hi.fresh (fun _ b e => by cases e)
    · rw [if_neg hf] at h; cases h
  | tryUnregister k =>
    simp only [step, tryUnregister] at h
    by_cases hu : s.users k = .registered ∨ s.users k = .tried
    · rw [if_pos hu] at h
      injection h with h; subst h
      refine inv_user hi k _ none s.calls (fun _ => ?_) (fun j e => by cases e) hi.calls_le (fun j e => by cases e) (fun _ b e => ?_)
      · by_cases hx : s.cancelled = true
        · rw [if_pos hx]; exact Or.inl trivial
        · exact Or.inr fun hh => hx hh.1
      · by_cases hx : s.cancelled = true
        · rw [if_pos hx] at e; cases e
        · rw [if_neg hx] at e; cases e
    · rw [if_neg hu] at h; cases h
  | unregister k =>
    simp only [step, unregister] at h
    by_cases hu : s.users k = .registered ∨ s.users k = .tried
    · rw [if_pos hu] at h
      injection h with h; subst h
      refine inv_user hi k _ none s.calls (fun _ => ?_) (fun j e => by cases e) hi.calls_le (fun j e => by cases e) (fun hd b e => ?_)
      · by_cases hx : s.cancelled = false
        · exact Or.inr fun hh => by rw [hx] at hh; cases hh.1
        · rw [if_neg hx]
          by_cases hd : s.done = true
          · exact Or.inr fun hh => by rw [hd] at hh; cases hh.2
          · rw [if_neg hd]; exact Or.inl trivial
      · by_cases hx : s.cancelled = false
        · rw [if_pos hx] at e; cases e
        · rw [if_neg hx, if_pos hd] at e; cases e
    · rw [if_neg hu] at h; cases h
  | resume k =>
    simp only [step, resume] at h
    by_cases hu : s.users k = .waiting true
    · rw [if_pos hu] at h
      injection h with h; subst h
      have hnh : ∀ j, s.handler = some j → j ≠ k := by
        intro j e hj
        subst hj
        have := hi.handler_user j e
        rw [hu] at this; cases this
      refine inv_user hi k _ s.handler s.calls (fun _ => ?_) (fun j e => by rw [set_ne _ _ (hnh j e)]; exact hi.handler_user j e) hi.calls_le hi.fresh (fun hd b e => ?_)
      · by_cases hd : s.done = true
        · exact Or.inr fun hh => by rw [hd] at hh; cases hh.2
        · rw [if_neg hd]; exact Or.inl trivial
      · rw [if_pos hd] at e; cases e
    · rw [if_neg hu] at h; cases h
  | spurious k =>
    simp only [step, spurious] at h
    cases hu : s.users k with
    | waiting b =>
      rw [hu] at h
      injection h with h; subst h
      have hnh : ∀ j, s.handler = some j → j ≠ k := by
        intro j e hj
        subst hj
        have := hi.handler_user j e
        rw [hu] at this; cases this
      exact inv_user hi k (.waiting true) s.handler s.calls (fun _ => Or.inl trivial) (fun j e => by rw [set_ne _ _ (hnh j e)]; exact hi.handler_user j e) hi.calls_le hi.fresh
        (fun _ b e => by injection e with e; exact e.symm)
    | _ => rw [hu] at h; cases h
  | sleep t b =>
    simp only [step, sleep] at h
    have key : ∀ s', some { s with sleepers := set s.sleepers t (if s.cancelled then .result false else .sleeping b false) } = some s' → Inv s' := by
      intro s' h
      injection h with h; subst h
      refine inv_sleep hi t _ (fun hd b w e => ?_)
      rw [if_pos (hi.done_cancelled hd)] at e; cases e
    cases hu : s.sleepers t <;> rw [hu] at h
    · exact key _ h
    · cases h
    · exact key _ h
  | sleepWake t =>
    simp only [step, sleepWake] at h
    cases hu : s.sleepers t with
    | sleeping b w =>
      rw [hu] at h
      cases w with
      | true => injection h with h; subst h; exact inv_sleep hi t _ (fun _ b w e => by cases e)
      | false => cases h
    | _ => rw [hu] at h; cases h
  | sleepTimeout t =>
    simp only [step, sleepTimeout] at h
    cases hu : s.sleepers t with
    | sleeping b w =>
      rw [hu] at h
      cases b with
      | true => injection h with h; subst h; exact inv_sleep hi t _ (fun _ b w e => by cases e)
      | false => cases h
    | _ => rw [hu] at h; cases h
  | sleepSpurious t =>
    simp only [step, sleepSpurious] at h
    cases hu : s.sleepers t with
    | sleeping b w =>
      rw [hu] at h
      injection h with h; subst h; exact inv_sleep hi t _ (fun _ b w e => by injection e with _ e; exact e.symm)
    | _ => rw [hu] at h; cases h

theorem run_inv : ∀ {as : List Act} {s s' : State}, Inv s → run s as = some s' → Inv s'
  | [], s, s', hi, h => by injection h with h; exact h ▸ hi
  | a :: as, s, s', hi, h => by
    rw [run] at h
    cases hs : step s a with
    | none => rw [hs] at h; cases h
    | some t => rw [hs] at h; exact run_inv (step_inv hi hs) h

/-- C39: whatever the schedule of cancellations, resets, registrations and unregistrations, a handler is only ever being called while its registration is in use - not once the
unregistration has returned -, at most once for each registration, by one thread at a time; and a handler still registered when the token is cancelled has been called. -/
theorem handler_calls {as : List Act} {s : State} (h : run init as = some s) :
    (∀ k, InCall s k → InUse (s.users k)) ∧
    (∀ k, s.calls k ≤ 1) ∧
    (∀ c₁ c₂ h₁ h₂, s.cancels c₁ = .calling h₁ → s.cancels c₂ = .calling h₂ → c₁ = c₂) ∧
    (∀ k, s.handler = some k → s.users k = .registered ∧ s.calls k = if s.cancelled then 1 else 0) := by
  have hi := run_inv init_inv h
  exact ⟨fun k ⟨c, e⟩ => hi.call_user c k e, hi.calls_le, hi.one_cancel, fun k e => ⟨hi.handler_user k e, hi.fresh k e⟩⟩

/-- C39, the moment of return: the step by which the user of `k` gets its registration back leaves no call of `k` going on. -/
theorem unregister_waits {as : List Act} {s s' : State} {a : Act} (h : run init as = some s) (hs : step s a = some s') (k : Nat) (b : Bool) (hk : s'.users k = .finished b) :
    ¬ InCall s' k := by
  intro hc
  have := (handler_calls (as := as ++ [a]) (s := s') (by
    have main : ∀ (as : List Act) (s₀ : State), run s₀ as = some s → run s₀ (as ++ [a]) = some s' := by
      intro as
      induction as with
      | nil => intro s₀ e; injection e with e; subst e; rw [List.nil_append, run, hs]; rfl
      | cons x xs ih =>
        intro s₀ e
        rw [run] at e
        rw [List.cons_append, run]
        cases hx : step s₀ x with
        | none => rw [hx] at e; cases e
        | some t => rw [hx] at e; exact ih t e
    exact main as init h)).1 k hc
  rw [hk] at this; exact this

/-! ### Polite resets -/

/-- What is known of a user when `Reset` is only called with no handler in use. -/
def UserOk (s : State) (h : Nat) : UPc → Prop
  | .registered => s.handler = some h
  | .tried | .waiting _ => s.cancelled = true ∧ s.calls h = 1 ∧ s.handler = none
  | .finished b => s.calls h = if b then 0 else 1
  | _ => True

def Inv2 (s : State) : Prop := Inv s ∧ ∀ h, UserOk s h (s.users h)

theorem init_inv2 : Inv2 init := ⟨init_inv, fun _ => trivial⟩

theorem userOk_wake {s s' : State} {h : Nat} {u : UPc} (h1 : s'.handler = s.handler) (h2 : s'.cancelled = s.cancelled) (h3 : s'.calls h = s.calls h) (ho : UserOk s h u) : UserOk s' h u.wake := by
  cases u <;> simp only [UPc.wake, UserOk] at ho ⊢ <;> (try rw [h1]) <;> (try rw [h2]) <;> (try rw [h3]) <;> exact ho

theorem userOk_same {s s' : State} {h : Nat} {u : UPc} (h1 : s'.handler = s.handler) (h2 : s'.cancelled = s.cancelled) (h3 : s'.calls h = s.calls h) (ho : UserOk s h u) : UserOk s' h u := by
  cases u <;> simp only [UserOk] at ho ⊢ <;> (try rw [h1]) <;> (try rw [h2]) <;> (try rw [h3]) <;> exact ho

/-- A step of one user that is not a registration. -/
theorem users_ok {s : State} (hu : ∀ h, UserOk s h (s.users h)) (k : Nat) (u : UPc) (hh : Option Nat) (hu' : UserOk { s with handler := hh } k u)
    (hkeep : hh = s.handler ∨ (hh = none ∧ ∀ j, s.handler = some j → j = k)) (hi : Inv s) :
    ∀ j, UserOk { s with handler := hh, users := set s.users k u } j (set s.users k u j) := by
  intro j
  by_cases hj : j = k
  · subst hj
    rw [set_self]
    exact userOk_same rfl rfl rfl hu'
  · rw [set_ne _ _ hj]
    have ho := hu j
    rcases hkeep with he | ⟨he, hx⟩
    · exact userOk_same he rfl rfl ho
    · cases hj' : s.users j <;> rw [hj'] at ho <;> simp only [UserOk] at ho ⊢
      case registered => exact absurd (hx j ho) hj
      case tried => exact ⟨ho.1, ho.2.1, he⟩
      case waiting => exact ⟨ho.1, ho.2.1, he⟩
      case finished => exact ho

theorem step_inv2 {s s' : State} {a : Act} (hi2 : Inv2 s) (hp : a = .reset → ∀ h, ¬ InUse (s.users h)) (h : step s a = some s') : Inv2 s' := by
  obtain ⟨hi, hu⟩ := hi2
  refine ⟨step_inv hi h, ?_⟩
  have same : ∀ (cc : Nat → CPc) (sl : Nat → SPc) (d : Bool) (j : Nat), UserOk { s with cancels := cc, sleepers := sl, done := d } j (s.users j) := fun cc sl d j => userOk_same rfl rfl rfl (hu j)
  cases a with
  | cancelStart c =>
    simp only [step, cancelStart] at h
    by_cases hc : s.cancels c = .idle
    · rw [if_pos hc] at h
      by_cases hx : s.cancelled = true
      · rw [if_pos hx] at h
        injection h with h; subst h
        exact fun j => userOk_same rfl rfl rfl (hu j)
      · rw [if_neg hx] at h
        injection h with h; subst h
        intro j
        have ho := hu j
        simp only []
        have hcalls : s.users j ≠ .registered → bump s.calls s.handler j = s.calls j := by
          intro hn
          cases hh : s.handler with
          | none => rfl
          | some k =>
            have hk : j ≠ k := by intro e; subst e; exact hn (hi.handler_user _ hh)
            simp only [bump]; rw [set_ne _ _ hk]
        cases hj' : s.users j <;> rw [hj'] at ho <;> simp only [UserOk] at ho ⊢
        case registered => exact ho
        case tried => exact absurd ho.1 hx
        case waiting => exact absurd ho.1 hx
        case finished => rw [hcalls (by rw [hj']; intro e; cases e)]; exact ho
    · rw [if_neg hc] at h; cases h
  | cancelFinish c =>
    simp only [step, cancelFinish] at h
    cases hc : s.cancels c with
    | calling hh =>
      rw [hc] at h
      injection h with h; subst h
      exact fun j => userOk_wake rfl rfl rfl (hu j)
    | _ => rw [hc] at h; cases h
  | reset =>
    simp only [step, reset] at h
    by_cases hr : s.handler = none ∧ s.cancelled = s.done
    · rw [if_pos hr] at h
      injection h with h; subst h
      intro j
      have hn := hp rfl j
      have ho := hu j
      cases hj' : s.users j <;> rw [hj'] at ho hn <;> simp only [UserOk] at ho ⊢
      case registered => exact absurd trivial hn
      case tried => exact absurd trivial hn
      case waiting => exact absurd trivial hn
      case finished => exact ho
    · rw [if_neg hr] at h; cases h
  | register k =>
    simp only [step, register] at h
    by_cases hf : (s.users k).free = true
    · rw [if_pos hf] at h
      by_cases hx : s.cancelled = true
      · rw [if_pos hx] at h
        injection h with h; subst h
        exact users_ok hu k .refused s.handler trivial (Or.inl rfl) hi
      · rw [if_neg hx] at h
        by_cases hn : s.handler = none
        · rw [if_pos hn] at h
          injection h with h; subst h
          intro j
          by_cases hj : j = k
          · subst hj; simp only [set_self]; rfl
          · have ho := hu j
            simp only [set_ne _ _ hj]
            cases hj' : s.users j <;> rw [hj'] at ho <;> simp only [UserOk] at ho ⊢
            case registered => rw [hn] at ho; cases ho
            case tried => exact absurd ho.1 hx
            case waiting => exact absurd ho.1 hx
            case finished => rw [set_ne _ _ hj]; exact ho
        · rw [if_neg hn] at h
          injection h with h; subst h
          exact users_ok hu k .failed s.handler trivial (Or.inl rfl) hi
    · rw [if_neg hf] at h; cases h
  | tryUnregister k =>
    simp only [step, tryUnregister] at h
    by_cases hk : s.users k = .registered ∨ s.users k = .tried
    · rw [if_pos hk] at h
      injection h with h; subst h
      have ho := hu k
      refine users_ok hu k _ none ?_ (Or.inr ⟨rfl, fun j e => ?_⟩) hi
      · by_cases hx : s.cancelled = true
        · rw [if_pos hx]
          rcases hk with hk | hk <;> rw [hk] at ho
          · have := hi.fresh k ho
            rw [if_pos hx] at this
            exact ⟨hx, this, rfl⟩
          · exact ⟨hx, ho.2.1, rfl⟩
        · rw [if_neg hx]
          rcases hk with hk | hk <;> rw [hk] at ho
          · have := hi.fresh k ho
            rw [if_neg hx] at this
            exact this
          · exact absurd ho.1 hx
      · rcases hk with hk | hk <;> rw [hk] at ho <;> simp only [UserOk] at ho
        · rw [ho] at e; injection e with e; exact e.symm
        · rw [ho.2.2] at e; cases e
    · rw [if_neg hk] at h; cases h
  | unregister k =>
    simp only [step, unregister] at h
    by_cases hk : s.users k = .registered ∨ s.users k = .tried
    · rw [if_pos hk] at h
      injection h with h; subst h
      have ho := hu k
      refine users_ok hu k _ none ?_ (Or.inr ⟨rfl, fun j e => ?_⟩) hi
      · by_cases hx : s.cancelled = true
        · have hc1 : s.calls k = 1 := by
            rcases hk with hk | hk <;> rw [hk] at ho
            · have := hi.fresh k ho
              rw [if_pos hx] at this
              exact this
            · exact ho.2.1
          rw [if_neg (by rw [hx]; decide)]
          by_cases hd : s.done = true
          · rw [if_pos hd]; exact hc1
          · rw [if_neg hd]; exact ⟨hx, hc1, rfl⟩
        · rw [if_pos (by simpa using hx)]
          rcases hk with hk | hk <;> rw [hk] at ho
          · have := hi.fresh k ho
            rw [if_neg hx] at this
            exact this
          · exact absurd ho.1 hx
      · rcases hk with hk | hk <;> rw [hk] at ho <;> simp only [UserOk] at ho
        · rw [ho] at e; injection e with e; exact e.symm
        · rw [ho.2.2] at e; cases e
    · rw [if_neg hk] at h; cases h
  | resume k =>
    simp only [step, resume] at h
    by_cases hk : s.users k = .waiting true
    · rw [if_pos hk] at h
      injection h with h; subst h
      have ho := hu k
      rw [hk] at ho
      refine users_ok hu k _ s.handler ?_ (Or.inl rfl) hi
      by_cases hd : s.done = true
      · rw [if_pos hd]; exact ho.2.1
      · rw [if_neg hd]; exact ho
    · rw [if_neg hk] at h; cases h
  | spurious k =>
    simp only [step, spurious] at h
    cases hk : s.users k with
    | waiting b =>
      rw [hk] at h
      injection h with h; subst h
      have ho := hu k
      rw [hk] at ho
      exact users_ok hu k _ s.handler ho (Or.inl rfl) hi
    | _ => rw [hk] at h; cases h
  | sleep t b =>
    simp only [step, sleep] at h
    cases hk : s.sleepers t <;> rw [hk] at h <;> first | (injection h with h; subst h; exact fun j => userOk_same rfl rfl rfl (hu j)) | cases h
  | sleepWake t =>
    simp only [step, sleepWake] at h
    cases hk : s.sleepers t with
    | sleeping b w =>
      rw [hk] at h
      cases w with
      | true => injection h with h; subst h; exact fun j => userOk_same rfl rfl rfl (hu j)
      | false => cases h
    | _ => rw [hk] at h; cases h
  | sleepTimeout t =>
    simp only [step, sleepTimeout] at h
    cases hk : s.sleepers t with
    | sleeping b w =>
      rw [hk] at h
      cases b with
      | true => injection h with h; subst h; exact fun j => userOk_same rfl rfl rfl (hu j)
      | false => cases h
    | _ => rw [hk] at h; cases h
  | sleepSpurious t =>
    simp only [step, sleepSpurious] at h
    cases hk : s.sleepers t with
    | sleeping b w =>
      rw [hk] at h
      injection h with h; subst h; exact fun j => userOk_same rfl rfl rfl (hu j)
    | _ => rw [hk] at h; cases h

theorem run_inv2 : ∀ {as : List Act} {s s' : State}, Inv2 s → Polite s as → run s as = some s' → Inv2 s'
  | [], s, s', hi, _, h => by injection h with h; exact h ▸ hi
  | a :: as, s, s', hi, hp, h => by
    rw [run] at h
    cases hs : step s a with
    | none => rw [hs] at h; cases h
    | some t => rw [hs] at h; exact run_inv2 (step_inv2 hi hp.1 hs) (hp.2 t hs) h

/-- C39, the result: when `Reset` is only called with no handler in use, unregistration returns false exactly when the handler has been called (once), and true when it never was. -/
theorem unregister_result {as : List Act} {s : State} (hp : Polite init as) (h : run init as = some s) (k : Nat) (b : Bool) (hk : s.users k = .finished b) :
    s.calls k = if b then 0 else 1 := by
  have := (run_inv2 init_inv2 hp h).2 k
  rw [hk] at this
  exact this

/-- C40: whenever a cancellation is complete, every thread waiting in `Unregister` returns with its next step, and every sleeping thread is awake: its next step returns. -/
theorem cancel_frees_waiters {as : List Act} {s : State} (h : run init as = some s) (hd : s.done = true) :
    (∀ k b, s.users k = .waiting b → ∃ s', step s (.resume k) = some s' ∧ s'.users k = .finished false) ∧
    (∀ t b w, s.sleepers t = .sleeping b w → ∃ s', step s (.sleepWake t) = some s' ∧ s'.sleepers t = .result false) := by
  have hi := run_inv init_inv h
  constructor
  · intro k b e
    have := hi.woken hd k b e
    subst this
    refine ⟨_, by simp only [step, resume]; rw [if_pos e], ?_⟩
    simp only [set_self, hd, if_true]
  · intro t b w e
    have := hi.asleep hd t b w e
    subst this
    refine ⟨_, by simp only [step, sleepWake]; rw [e], ?_⟩
    simp only [set_self]

/-- A thread in `Unregister` while the token is not cancelled: nothing but a new cancellation will let it out. -/
theorem stuck_step {s s' : State} {a : Act} {k : Nat} (hi : Inv s) (hc : s.cancelled = false) (hw : ∃ b, s.users k = .waiting b) (ha : ∀ c, a ≠ .cancelStart c) (h : step s a = some s') :
    s'.cancelled = false ∧ ∃ b, s'.users k = .waiting b := by
  obtain ⟨b, hw⟩ := hw
  have hd : s.done = false := by
    cases hd : s.done with
    | false => rfl
    | true => have := hi.done_cancelled hd; rw [hc] at this; cases this
  have keep : ∀ (j : Nat) (u : UPc), j ≠ k → set s.users j u k = .waiting b := fun j u hj => by rw [set_ne _ _ (Ne.symm hj)]; exact hw
  cases a with
  | cancelStart c => exact absurd rfl (ha c)
  | cancelFinish c =>
    simp only [step, cancelFinish] at h
    cases hcc : s.cancels c with
    | calling hh =>
      have := (hi.in_cancel.mp ⟨c, hh, hcc⟩).1
      rw [hc] at this; cases this
    | _ => rw [hcc] at h; cases h
  | reset =>
    simp only [step, reset] at h
    by_cases hr : s.handler = none ∧ s.cancelled = s.done
    · rw [if_pos hr] at h
      injection h with h; subst h
      exact ⟨rfl, b, hw⟩
    · rw [if_neg hr] at h; cases h
  | register j =>
    simp only [step, register] at h
    by_cases hf : (s.users j).free = true
    · have hj : j ≠ k := by intro e; subst e; rw [hw] at hf; cases hf
      rw [if_pos hf, if_neg (by rw [hc]; decide)] at h
      by_cases hn : s.handler = none
      · rw [if_pos hn] at h; injection h with h; subst h; exact ⟨hc, b, keep j _ hj⟩
      · rw [if_neg hn] at h; injection h with h; subst h; exact ⟨hc, b, keep j _ hj⟩
    · rw [if_neg hf] at h; cases h
  | tryUnregister j =>
    simp only [step, tryUnregister] at h
    by_cases hk : s.users j = .registered ∨ s.users j = .tried
    · have hj : j ≠ k := by intro e; subst e; rw [hw] at hk; rcases hk with hk | hk <;> cases hk
      rw [if_pos hk] at h; injection h with h; subst h; exact ⟨hc, b, keep j _ hj⟩
    · rw [if_neg hk] at h; cases h
  | unregister j =>
    simp only [step, unregister] at h
    by_cases hk : s.users j = .registered ∨ s.users j = .tried
    · have hj : j ≠ k := by intro e; subst e; rw [hw] at hk; rcases hk with hk | hk <;> cases hk
      rw [if_pos hk] at h; injection h with h; subst h; exact ⟨hc, b, keep j _ hj⟩
    · rw [if_neg hk] at h; cases h
  | resume j =>
    simp only [step, resume] at h
    by_cases hk : s.users j = .waiting true
    · rw [if_pos hk] at h; injection h with h; subst h
      by_cases hj : j = k
      · subst hj; exact ⟨hc, false, by simp only [set_self]; rw [if_neg (by rw [hd]; decide)]⟩
      · exact ⟨hc, b, keep j _ hj⟩
    · rw [if_neg hk] at h; cases h
  | spurious j =>
    simp only [step, spurious] at h
    cases hk : s.users j with
    | waiting b' =>
      rw [hk] at h; injection h with h; subst h
      by_cases hj : j = k
      · subst hj; exact ⟨hc, true, by simp only [set_self]⟩
      · exact ⟨hc, b, keep j _ hj⟩
    | _ => rw [hk] at h; cases h
  | sleep t b' =>
    simp only [step, sleep] at h
    cases hk : s.sleepers t <;> rw [hk] at h <;> first | (injection h with h; subst h; exact ⟨hc, b, hw⟩) | cases h
  | sleepWake t =>
    simp only [step, sleepWake] at h
    cases hk : s.sleepers t with
    | sleeping b' w =>
      rw [hk] at h
      cases w with
      | true => injection h with h; subst h; exact ⟨hc, b, hw⟩
      | false => cases h
    | _ => rw [hk] at h; cases h
  | sleepTimeout t =>
    simp only [step, sleepTimeout] at h
    cases hk : s.sleepers t with
    | sleeping b' w =>
      rw [hk] at h
      cases b' with
      | true => injection h with h; subst h; exact ⟨hc, b, hw⟩
      | false => cases h
    | _ => rw [hk] at h; cases h
  | sleepSpurious t =>
    simp only [step, sleepSpurious] at h
    cases hk : s.sleepers t with
    | sleeping b' w =>
      rw [hk] at h; injection h with h; subst h; exact ⟨hc, b, hw⟩
    | _ => rw [hk] at h; cases h

theorem stuck_run : ∀ {as : List Act} {s s' : State} {k : Nat}, Inv s → s.cancelled = false → (∃ b, s.users k = .waiting b) → (∀ a ∈ as, ∀ c, a ≠ .cancelStart c) → run s as = some s' →
    ∃ b, s'.users k = .waiting b
  | [], s, s', k, _, _, hw, _, h => by injection h with h; exact h ▸ hw
  | a :: as, s, s', k, hi, hc, hw, ha, h => by
    rw [run] at h
    cases hs : step s a with
    | none => rw [hs] at h; cases h
    | some t =>
      rw [hs] at h
      obtain ⟨hc', hw'⟩ := stuck_step hi hc hw (ha a (List.mem_cons_self ..)) hs
      exact stuck_run (step_inv hi hs) hc' hw' (fun x hx => ha x (List.mem_cons_of_mem _ hx)) h

/-- The schedule of the wedge: a handler is registered, the token cancelled, the user enters `Unregister` and waits, `Cancel` returns (and wakes the user), and `Reset` - which does not
throw - runs before the user gets the mutex. -/
def wedge : List Act := [.register 7, .cancelStart 0, .unregister 7, .cancelFinish 0, .reset]

/-- C40 refuted: after this schedule, in which every `Cancel` has returned, the thread in `Unregister` stays there whatever happens, unless somebody cancels the token again. -/
theorem unregister_wedge_violated : ∃ s, run init wedge = some s ∧ (∀ c h, s.cancels c ≠ .calling h) ∧
    ∀ as s', (∀ a ∈ as, ∀ c, a ≠ .cancelStart c) → run s as = some s' → ∃ b, s'.users 7 = .waiting b := by
  refine ⟨_, rfl, ?_, ?_⟩
  · intro c h
    simp only [init, set]
    by_cases hc : c = 0 <;> simp [hc]
  · intro as s' ha hs
    exact stuck_run (run_inv init_inv (as := wedge) rfl) rfl ⟨true, rfl⟩ ha hs

/-- C40 without `Reset` while a handler is in use: a thread in `Unregister` always has a cancellation going on that will free it, or is free to return. -/
theorem unregister_progress_partial {as : List Act} {s : State} (hp : Polite init as) (h : run init as = some s) (k : Nat) (b : Bool) (hk : s.users k = .waiting b) :
    (∃ c h', s.cancels c = .calling h' ∧ ∃ s' s'', step s (.cancelFinish c) = some s' ∧ step s' (.resume k) = some s'' ∧ s''.users k = .finished false) ∨
    (∃ s', step s (.resume k) = some s' ∧ s'.users k = .finished false) := by
  have hi := run_inv2 init_inv2 hp h
  have hu := hi.2 k
  rw [hk] at hu
  by_cases hd : s.done = true
  · exact Or.inr ((cancel_frees_waiters h hd).1 k b hk)
  · obtain ⟨c, h', hc⟩ := hi.1.in_cancel.mpr ⟨hu.1, by simpa using hd⟩
    have h1 : step s (.cancelFinish c) = some { s with done := true, cancels := set s.cancels c .returned, users := fun i => (s.users i).wake, sleepers := fun i => (s.sleepers i).wake } := by
      simp only [step, cancelFinish]; rw [hc]
    refine Or.inl ⟨c, h', hc, _, { s with done := true, cancels := set s.cancels c .returned, users := set (fun i => (s.users i).wake) k (.finished false), sleepers := fun i => (s.sleepers i).wake }, h1, ?_, ?_⟩
    · simp only [step, resume]
      rw [if_pos (by rw [hk]; rfl)]; rfl
    · simp only [set_self]

/-- A sleeper that is not woken by anyone (a spurious wakeup) reports a cancellation that did not happen. -/
theorem sleep_spurious_violated : ∃ s, run init [.sleep 3 false, .sleepSpurious 3, .sleepWake 3] = some s ∧ s.sleepers 3 = .result false ∧ s.cancelled = false := ⟨_, rfl, rfl, rfl⟩

/-! Non-vacuity. -/
example : ∃ s, run init [.register 7, .sleep 3 true, .cancelStart 0, .cancelStart 1, .tryUnregister 7, .unregister 7, .cancelFinish 0, .resume 7, .sleepWake 3] = some s ∧
    s.users 7 = .finished false ∧ s.calls 7 = 1 ∧ s.sleepers 3 = .result false ∧ s.cancels 1 = .returned := ⟨_, rfl, rfl, rfl, rfl, rfl⟩
example : Polite init [.register 7, .cancelStart 0, .unregister 7, .cancelFinish 0, .resume 7, .reset, .register 7, .tryUnregister 7] := by
  refine ⟨(by intro h; cases h), fun s' h => ?_⟩
  injection h with h; subst h
  refine ⟨(by intro h; cases h), fun s' h => ?_⟩
  injection h with h; subst h
  refine ⟨(by intro h; cases h), fun s' h => ?_⟩
  injection h with h; subst h
  refine ⟨(by intro h; cases h), fun s' h => ?_⟩
  injection h with h; subst h
  refine ⟨(by intro h; cases h), fun s' h => ?_⟩
  injection h with h; subst h
  refine ⟨fun _ k => ?_, fun s' h => ?_⟩
  · by_cases hk : k = 7 <;> simp [init, set, hk, UPc.wake, InUse]
  injection h with h; subst h
  refine ⟨(by intro h; cases h), fun s' h => ?_⟩
  injection h with h; subst h
  exact ⟨(by intro h; cases h), fun s' h => trivial⟩
example : ∃ s, run init [.register 7, .cancelStart 0, .unregister 7, .cancelFinish 0, .resume 7, .reset, .register 7, .tryUnregister 7] = some s ∧ s.users 7 = .finished true ∧ s.calls 7 = 0 := ⟨_, rfl, rfl, rfl⟩

/-- C40: a timed `Sleep` that times out returns true; an untimed one never times out. -/
theorem sleep_times_out (s : State) (t : Nat) (w : Bool) :
    (s.sleepers t = .sleeping true w → ∃ s', step s (.sleepTimeout t) = some s' ∧ s'.sleepers t = .result true) ∧
    (s.sleepers t = .sleeping false w → step s (.sleepTimeout t) = none) := by
  constructor
  · intro e
    refine ⟨_, by simp only [step, sleepTimeout]; rw [e], ?_⟩
    simp only [set_self]
  · intro e
    simp only [step, sleepTimeout]; rw [e]

end Verif.Thread.Token

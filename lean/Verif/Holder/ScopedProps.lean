import Verif.Holder.Scoped

/-! C143: a handle given to a holder is cleaned up exactly once, unless it was released. -/

namespace Verif.Holder.Scoped

namespace Spec

/-- No cleanup throws. -/
def Quiet : Act → Prop
  | .clear t => t = false
  | .set _ t => t = false
  | .destroy _ => False
  | _ => True

/-- The handles that were put in by `Set`. -/
def putIn : List Act → List Nat
  | [] => []
  | .set h _ :: as => h :: putIn as
  | _ :: as => putIn as

/-- The handles got back by `Release`. -/
def gotOut : List Act → List Out → List Nat
  | .release :: as, .value h :: os => h :: gotOut as os
  | _ :: as, _ :: os => gotOut as os
  | _, _ => []

end Spec

open Spec

/-- What is held. -/
def held (s : State) : List Nat := if s.valid then [s.handle] else []

/-- C143.  If no cleanup throws: the handles the holder was given are, each as often as it was given, exactly those released and those
cleaned up, after the holder is destroyed; they are cleaned up in the order they were given.  Nothing else is cleaned up. -/
theorem cleaned_once (s0 : State) (h0 : s0.cleaned = []) (as : List Act) (hq : ∀ a ∈ as, Quiet a) :
    (life s0 as false ++ gotOut as (run s0 as).2).Perm (held s0 ++ putIn as) ∧
    (gotOut as (run s0 as).2 = [] → life s0 as false = held s0 ++ putIn as) := by
  have key : ∀ (as : List Act) (s : State), (∀ a ∈ as, Quiet a) →
      (life s as false ++ gotOut as (run s as).2).Perm (s.cleaned ++ held s ++ putIn as) ∧
      (gotOut as (run s as).2 = [] → life s as false = s.cleaned ++ held s ++ putIn as) := by
    intro as
    induction as with
    | nil =>
      intro s _
      have : life s [] false = s.cleaned ++ held s := by
        unfold life run held
        simp only [step, cleanup]
        split <;> simp
      simp [this, gotOut, putIn, run]
    | cons a as ih =>
      intro s hq
      have hq' : ∀ a ∈ as, Quiet a := fun a h => hq a (List.mem_cons_of_mem _ h)
      have ha := hq a List.mem_cons_self
      have hl : ∀ b, life s (a :: as) b = life (step s a).1 as b := fun b => rfl
      obtain ⟨i1, i2⟩ := ih (step s a).1 hq'
      rw [hl, run]
      cases a with
      | get =>
        have e : (step s .get).1 = s := by simp only [step]; split <;> rfl
        rw [e] at i1 i2 ⊢
        simp only [gotOut, putIn]
        exact ⟨i1, i2⟩
      | clear t =>
        have ht : t = false := ha
        subst ht
        have e : (step s (.clear false)).1.cleaned ++ held (step s (.clear false)).1 = s.cleaned ++ held s := by
          by_cases hv : s.valid = true <;> simp [step, cleanup, held, hv]
        rw [e] at i1 i2
        simp only [gotOut, putIn]
        exact ⟨i1, i2⟩
      | set h t =>
        have ht : t = false := ha
        subst ht
        have e : (step s (.set h false)).1.cleaned ++ held (step s (.set h false)).1 = s.cleaned ++ held s ++ [h] := by
          by_cases hv : s.valid = true
          · simp [step, cleanup, held, hv]
          · simp [step, cleanup, held, hv]
        rw [e] at i1 i2
        simp only [gotOut, putIn]
        rw [List.append_assoc _ [h]] at i1 i2
        exact ⟨i1, i2⟩
      | release =>
        by_cases hv : s.valid = true
        · have e1 : step s .release = ({ s with valid := false }, .value s.handle) := by simp [step, hv]
          rw [e1] at i1 i2 ⊢
          simp only [gotOut, putIn]
          refine ⟨?_, fun h => by cases h⟩
          have e2 : held s = [s.handle] := by simp [held, hv]
          have e3 : held { s with valid := false } = [] := by simp [held]
          rw [e3, List.append_nil] at i1
          simp only [] at i1
          rw [e2]
          refine (List.perm_middle).trans ?_
          refine (List.Perm.cons _ i1).trans ?_
          rw [List.append_assoc]
          exact (List.perm_middle (a := s.handle) (l₁ := s.cleaned) (l₂ := putIn as)).symm
        · have e1 : step s .release = (s, .threw) := by simp [step, hv]
          rw [e1] at i1 i2 ⊢
          simp only [gotOut, putIn]
          exact ⟨i1, i2⟩
      | destroy t => exact absurd ha id
  have := key as s0 hq
  rw [h0, List.nil_append] at this
  exact this

example : life State.empty [.set 1 false, .set 2 false, .release, .set 3 false, .get, .clear false, .set 4 false] false = [1, 3, 4] ∧
    gotOut [.set 1 false, .set 2 false, .release, .set 3 false, .get, .clear false, .set 4 false]
      (run State.empty [.set 1 false, .set 2 false, .release, .set 3 false, .get, .clear false, .set 4 false]).2 = [2] := by decide

/-- C143.  `Get` and `Release` give what was put in last, and throw if there is nothing; after `Set` there is something, after `Release`
and `Clear` nothing. -/
theorem get_spec (s : State) (h : Nat) :
    (step (step s (.set h false)).1 .get).2 = .value h ∧ (step (step s (.set h false)).1 .release).2 = .value h ∧
    (step (step s .release).1 .get).2 = .threw ∧ (step (step s (.clear false)).1 .get).2 = .threw ∧
    (step (step s .release).1 .release).2 = .threw := by
  by_cases hv : s.valid = true <;> simp [step, cleanup, hv]

/-- C143 is violated if a cleanup throws: the handle stays and is cleaned up again, and a handle given to `Set` then is not taken. -/
theorem throwing_cleanup_violated : life (State.holding 1) [.clear true] false = [1, 1] ∧
    (run (State.holding 1) [.set 2 true]).2 = [.threw] ∧ life (State.holding 1) [.set 2 true] false = [1, 1] := by decide

/-- C143.  `ScopedHolder<void>`: if no cleanup throws, it is called once for every `Set` (and once for a holder valid from the beginning). -/
theorem void_cleaned_once (valid : Bool) (as : List VAct) (hq : ∀ a ∈ as, a = .clear false ∨ a = .set false) :
    vlife valid as = as.count (.set false) + (if valid then 1 else 0) := by
  have key : ∀ (as : List VAct) (s : VState), (∀ a ∈ as, a = .clear false ∨ a = .set false) →
      (if (vrun s as).valid then (vrun s as).cleaned + 1 else (vrun s as).cleaned) = s.cleaned + (if s.valid then 1 else 0) + as.count (.set false) := by
    intro as
    induction as with
    | nil => intro s _; simp only [vrun, List.count_nil]; by_cases hv : s.valid = true <;> simp [hv]
    | cons a as ih =>
      intro s hq
      rw [vrun, ih _ (fun a h => hq a (List.mem_cons_of_mem _ h)), List.count_cons]
      rcases hq a List.mem_cons_self with rfl | rfl
      · simp only [vstep]
        by_cases hv : s.valid = true
        · simp [hv]
        · simp [hv]
      · simp only [vstep]
        by_cases hv : s.valid = true
        · simp [hv]; omega
        · simp [hv]; omega
  unfold vlife
  rw [key as ⟨valid, 0⟩ hq]
  simp only []
  omega

example : vlife true [.set false, .clear false, .clear false, .set false] = 3 := by decide

/-- C143.  `SharedHolder`s made from one another are one holder: what is done through one is seen through all. -/
theorem shared_is_one {h h' : Heap} {i j p : Nat} {a b : Act} {o : Out} (hi : h.refs[i]? = some (some p)) (hj : h.refs[j]? = some (some p))
    (hs : sharedStep h i a = some (h', o)) : sharedStep h' i b = sharedStep h' j b ∧ sharedValid h' i = sharedValid h' j ∧
    sharedValid h i = sharedValid h j ∧ (∀ (q : Nat), q ≠ p → h'.impls[q]? = h.impls[q]?) := by
  unfold sharedStep at hs
  rw [hi] at hs
  simp only [] at hs
  cases hp : h.impls[p]? with
  | none => rw [hp] at hs; cases hs
  | some s =>
    rw [hp] at hs
    injection hs with hs
    injection hs with hs _
    subst hs
    refine ⟨?_, ?_, ?_, ?_⟩
    · simp only [sharedStep, hi, hj]
    · simp only [sharedValid, hi, hj]
    · simp only [sharedValid, hi, hj]
    · intro q hq
      simp only []
      rw [List.getElem?_set_ne (Ne.symm hq)]

/-- C143 is violated for a `SharedHolder` made without arguments: `Valid` may be called, anything else is undefined. -/
theorem shared_default_violated : sharedValid ⟨[], [none]⟩ 0 = some false ∧ sharedStep ⟨[], [none]⟩ 0 .get = none ∧ sharedStep ⟨[], [none]⟩ 0 (.set 1 false) = none := by decide

end Verif.Holder.Scoped

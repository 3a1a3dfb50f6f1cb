import Verif.Func.Function
import Verif.Func.FunctionSpec
/-!
Functions share their functor, call it in its state, and destroy it once.
-/
namespace Verif.Func
open Spec

variable {F A R : Type}

/-- How many variables refer to functor `o`. -/
def holders (vars : List (Option (Option Nat))) (o : Nat) : Nat := vars.count (some (some o))

/-- One for the functor a pointer refers to. -/
def one (p : Option (Option Nat)) (o : Nat) : Nat := if p = some (some o) then 1 else 0

/-- Counters and destructions are right for `cnt` holders of every functor. -/
structure Good (cnt : Nat → Nat) (objs : List (Obj F)) : Prop where
  made : ∀ o x, objs[o]? = some x → x.made = true → x.count = cnt o ∧ x.destroyed = if cnt o = 0 then 1 else 0
  lost : ∀ o x, objs[o]? = some x → x.made = false → cnt o = 0
  range : ∀ o, cnt o ≠ 0 → o < objs.length

theorem Good.congr {c d : Nat → Nat} {objs : List (Obj F)} (h : Good c objs) (e : ∀ o, c o = d o) : Good d objs := by
  have : c = d := funext e
  exact this ▸ h

theorem Good.addRefPtr {c : Nat → Nat} {objs : List (Obj F)} (h : Good c objs) (p : Option Nat) (hp : ∀ o, p = some o → c o ≠ 0) :
    Good (fun o => c o + one (some p) o) (addRefPtr objs p) := by
  cases p with
  | none => exact h.congr fun o => by simp [one]
  | some q =>
    have hq := hp q rfl
    have hl := h.range q hq
    have e : Verif.Func.addRefPtr objs (some q) = objs.set q { objs[q] with count := objs[q].count + 1 } := by
      simp [Verif.Func.addRefPtr, addRef, List.getElem?_eq_getElem hl]
    rw [e]
    have hx := List.getElem?_eq_getElem hl
    refine ⟨fun o x ho hm => ?_, fun o x ho hm => ?_, fun o ho => ?_⟩
    · by_cases hoq : o = q
      · subst hoq
        rw [List.getElem?_set_self hl] at ho
        injection ho with ho; subst ho
        obtain ⟨h1, h2⟩ := h.made o _ hx hm
        refine ⟨by simp [one, h1], ?_⟩
        show objs[o].destroyed = _
        rw [h2, if_neg hq, if_neg (by omega)]
      · rw [List.getElem?_set_ne (Ne.symm hoq)] at ho
        have := h.made o x ho hm
        simpa [one, Ne.symm hoq] using this
    · by_cases hoq : o = q
      · subst hoq
        rw [List.getElem?_set_self hl] at ho
        injection ho with ho; subst ho
        exact absurd (h.lost o _ hx hm) hq
      · rw [List.getElem?_set_ne (Ne.symm hoq)] at ho
        have := h.lost o x ho hm
        simpa [one, Ne.symm hoq] using this
    · rw [List.length_set]
      by_cases hoq : o = q
      · exact hoq ▸ hl
      · refine h.range o ?_
        intro h0
        apply ho
        show c o + one (some (some q)) o = 0
        simp [one, Ne.symm hoq, h0]

theorem Good.releasePtr {c : Nat → Nat} {objs : List (Obj F)} (h : Good c objs) (p : Option Nat) (hp : ∀ o, p = some o → c o ≠ 0) :
    Good (fun o => c o - one (some p) o) (releasePtr objs p) := by
  cases p with
  | none => exact h.congr fun o => by simp [one]
  | some q =>
    have hq := hp q rfl
    have hl := h.range q hq
    have hx := List.getElem?_eq_getElem hl
    have e : Verif.Func.releasePtr objs (some q) =
        objs.set q { objs[q] with count := objs[q].count - 1, destroyed := objs[q].destroyed + (if objs[q].count - 1 = 0 then 1 else 0) } := by
      simp [Verif.Func.releasePtr, release, List.getElem?_eq_getElem hl]
    rw [e]
    refine ⟨fun o x ho hm => ?_, fun o x ho hm => ?_, fun o ho => ?_⟩
    · by_cases hoq : o = q
      · subst hoq
        rw [List.getElem?_set_self hl] at ho
        injection ho with ho; subst ho
        obtain ⟨h1, h2⟩ := h.made o _ hx hm
        rw [if_neg hq] at h2
        have e1 : one (some (some o)) o = 1 := if_pos rfl
        refine ⟨?_, ?_⟩
        · show objs[o].count - 1 = _; rw [h1, e1]
        · show objs[o].destroyed + _ = _
          rw [h2, h1, e1, Nat.zero_add]
      · rw [List.getElem?_set_ne (Ne.symm hoq)] at ho
        have := h.made o x ho hm
        simpa [one, Ne.symm hoq] using this
    · by_cases hoq : o = q
      · subst hoq
        rw [List.getElem?_set_self hl] at ho
        injection ho with ho; subst ho
        exact absurd (h.lost o _ hx hm) hq
      · rw [List.getElem?_set_ne (Ne.symm hoq)] at ho
        have := h.lost o x ho hm
        simpa [one, Ne.symm hoq] using this
    · rw [List.length_set]
      refine h.range o ?_
      intro h0
      apply ho
      show c o - _ = 0
      omega

theorem states_addRefPtr (objs : List (Obj F)) (p : Option Nat) (o : Nat) :
    ((addRefPtr objs p)[o]?).map Obj.state = (objs[o]?).map Obj.state := by
  cases p with
  | none => rfl
  | some q =>
    unfold addRefPtr addRef
    dsimp only
    cases hq : objs[q]? with
    | none => rfl
    | some x =>
      dsimp only
      by_cases h : o = q
      · subst h
        rw [List.getElem?_set_self (List.getElem?_eq_some_iff.mp hq).1, hq]; rfl
      · rw [List.getElem?_set_ne (Ne.symm h)]

theorem states_releasePtr (objs : List (Obj F)) (p : Option Nat) (o : Nat) :
    ((releasePtr objs p)[o]?).map Obj.state = (objs[o]?).map Obj.state := by
  cases p with
  | none => rfl
  | some q =>
    unfold releasePtr release
    dsimp only
    cases hq : objs[q]? with
    | none => rfl
    | some x =>
      dsimp only
      by_cases h : o = q
      · subst h
        rw [List.getElem?_set_self (List.getElem?_eq_some_iff.mp hq).1, hq]; rfl
      · rw [List.getElem?_set_ne (Ne.symm h)]

/-- The state of the program and what it sees. -/
structure Inv (sem : F → A → F × R) (w : World F) (v : View F A) : Prop where
  means : ∀ i p, w.vars[i]? = some p → v.means i = p
  calls : ∀ o : Nat, (w.objs[o]?).map Obj.state = (v.calls[o]?).map fun c : F × List A => after sem c.1 c.2
  good : Good (holders w.vars) w.objs

theorem holders_set {vars : List (Option (Option Nat))} {k : Nat} {p : Option (Option Nat)} (hk : vars[k]? = some p) (q : Option (Option Nat)) (o : Nat) :
    holders (vars.set k q) o = holders vars o - one p o + one q o := by
  obtain ⟨hl, hx⟩ := List.getElem?_eq_some_iff.mp hk
  unfold holders one
  rw [List.count_set hl, hx]
  simp only [beq_iff_eq]

theorem holders_pos {vars : List (Option (Option Nat))} {k o : Nat} (hk : vars[k]? = some (some (some o))) : holders vars o ≠ 0 := by
  have := List.count_pos_iff.mpr (List.mem_of_getElem? hk)
  unfold holders
  omega

theorem one_le {vars : List (Option (Option Nat))} {k : Nat} {p : Option (Option Nat)} (hk : vars[k]? = some p) (o : Nat) : one p o ≤ holders vars o := by
  unfold one
  split
  · rename_i h
    have := holders_pos (h ▸ hk)
    omega
  · exact Nat.zero_le _

theorem one_none (o : Nat) : one none o = 0 := if_neg (by simp)
theorem one_empty (o : Nat) : one (some none) o = 0 := if_neg (by simp)

theorem Inv.length {sem : F → A → F × R} {w : World F} {v : View F A} (h : Inv sem w v) : w.objs.length = v.calls.length := by
  have h1 := h.calls w.objs.length
  have h2 := h.calls v.calls.length
  rw [List.getElem?_eq_none (Nat.le_refl _)] at h1
  rw [List.getElem?_eq_none (l := v.calls) (Nat.le_refl _)] at h2
  have a := List.getElem?_eq_none_iff.mp (Option.map_eq_none_iff.mp h1.symm)
  have b := List.getElem?_eq_none_iff.mp (Option.map_eq_none_iff.mp h2)
  omega

theorem means_set {vars : List (Option (Option Nat))} {v : View F A} (h : ∀ i p, vars[i]? = some p → v.means i = p) (k : Nat) (p : Option (Option Nat)) :
    ∀ i q, (vars.set k p)[i]? = some q → (v.put k p).means i = q := by
  intro i q hi
  by_cases hk : i = k
  · subst hk
    have hl : i < vars.length := by
      have := (List.getElem?_eq_some_iff.mp hi).1
      rwa [List.length_set] at this
    rw [List.getElem?_set_self hl] at hi
    injection hi with hi
    simp [View.put, hi]
  · rw [List.getElem?_set_ne (Ne.symm hk)] at hi
    simp [View.put, hk, h i q hi]

theorem good_append {c d : Nat → Nat} {objs : List (Obj F)} {x : Obj F} (h : Good c objs) (hd : ∀ o, o ≠ objs.length → d o = c o)
    (hm : x.made = true → x.count = d objs.length ∧ x.destroyed = if d objs.length = 0 then 1 else 0) (hl : x.made = false → d objs.length = 0) :
    Good d (objs ++ [x]) := by
  have key : ∀ o y, (objs ++ [x])[o]? = some y → o ≠ objs.length → objs[o]? = some y := by
    intro o y ho hne
    have hlt := (List.getElem?_eq_some_iff.mp ho).1
    rw [List.length_append, List.length_singleton] at hlt
    rwa [List.getElem?_append_left (by omega)] at ho
  have last : ∀ y, (objs ++ [x])[objs.length]? = some y → y = x := by
    intro y hy
    rw [List.getElem?_append_right (Nat.le_refl _), Nat.sub_self] at hy
    simpa using hy.symm
  refine ⟨fun o y ho hy => ?_, fun o y ho hy => ?_, fun o ho => ?_⟩
  · by_cases hne : o = objs.length
    · subst hne; rw [last y ho] at hy ⊢; exact hm hy
    · rw [hd o hne]; exact h.made o y (key o y ho hne) hy
  · by_cases hne : o = objs.length
    · subst hne; rw [last y ho] at hy; exact hl hy
    · rw [hd o hne]; exact h.lost o y (key o y ho hne) hy
  · rw [List.length_append, List.length_singleton]
    by_cases hne : o = objs.length
    · omega
    · have := h.range o (by rw [← hd o hne]; exact ho)
      omega

theorem Good.fresh {c : Nat → Nat} {objs : List (Obj F)} (h : Good c objs) : c objs.length = 0 := by
  apply Classical.byContradiction
  intro hc
  have := h.range _ hc
  omega

theorem calls_append {sem : F → A → F × R} {objs : List (Obj F)} {calls : List (F × List A)} (hl : objs.length = calls.length)
    (h : ∀ o : Nat, (objs[o]?).map Obj.state = (calls[o]?).map fun c : F × List A => after sem c.1 c.2) (x : Obj F) :
    ∀ o : Nat, ((objs ++ [x])[o]?).map Obj.state = ((calls ++ [(x.state, [])])[o]?).map fun c : F × List A => after sem c.1 c.2 := by
  intro o
  by_cases ho : o < objs.length
  · rw [List.getElem?_append_left ho, List.getElem?_append_left (by omega)]
    exact h o
  · rw [List.getElem?_append_right (by omega), List.getElem?_append_right (by omega), hl]
    cases o - calls.length <;> rfl

theorem step_inv {sem : F → A → F × R} {w w' : World F} {v : View F A} (h : Inv sem w v) {a : Act F A} {o : Out R} (hs : step sem w a = some (w', o)) :
    ∃ v', Step sem v a o v' ∧ Inv sem w' v' := by
  cases a with
  | make k f =>
    simp only [step] at hs
    split at hs
    · rename_i hk
      injection hs with hs; injection hs with h1 h2; subst h1 h2
      refine ⟨_, .make, ?_, calls_append h.length h.calls _, ?_⟩
      · rw [← h.length]
        exact means_set (v := { v with calls := v.calls ++ [(f, [])] }) h.means k _
      · refine good_append h.good (fun i hi => ?_) (fun _ => ?_) (fun hm => by cases hm)
        · rw [holders_set hk, one_none, one, if_neg (by simpa using fun e : w.objs.length = i => hi e.symm)]; omega
        · have := h.good.fresh
          rw [holders_set hk, one_none, one, if_pos rfl, this]; simp
    · cases hs
  | makeThrows k f =>
    simp only [step] at hs
    split at hs
    · rename_i hk
      injection hs with hs; injection hs with h1 h2; subst h1 h2
      exact ⟨_, .makeThrows, h.means, calls_append h.length h.calls _, good_append h.good (fun i hi => rfl) (fun hm => by cases hm) (fun _ => h.good.fresh)⟩
    · cases hs
  | copy k j =>
    simp only [step] at hs
    split at hs
    · rename_i p hk hj
      injection hs with hs; injection hs with h1 h2; subst h1 h2
      refine ⟨_, .copy, ?_, ?_, ?_⟩
      · rw [h.means j _ hj]; exact means_set h.means k _
      · intro i; dsimp only [View.put]; rw [states_addRefPtr]; exact h.calls i
      · refine (h.good.addRefPtr p fun o ho => ?_).congr fun o => ?_
        · subst ho; exact holders_pos hj
        · dsimp only; rw [holders_set hk, one_none]; rfl
    · cases hs
  | move k j =>
    simp only [step] at hs
    split at hs
    · rename_i p hk hj
      injection hs with hs; injection hs with h1 h2; subst h1 h2
      have hne : k ≠ j := by rintro rfl; rw [hk] at hj; cases hj
      have hj' : (w.vars.set k (some p))[j]? = some (some p) := by rw [List.getElem?_set_ne hne]; exact hj
      refine ⟨_, .move, ?_, h.calls, ?_⟩
      · rw [h.means j _ hj, List.set_comm _ _ hne]; exact means_set (means_set h.means j _) k _
      · refine h.good.congr fun o => ?_
        have := one_le hj o
        dsimp only
        rw [holders_set hj', one_empty, holders_set hk, one_none]; omega
    · cases hs
  | assign k j =>
    simp only [step] at hs
    split at hs
    · rename_i old p hk hj
      injection hs with hs; injection hs with h1 h2; subst h1 h2
      refine ⟨_, .assign, ?_, ?_, ?_⟩
      · rw [h.means j _ hj]; exact means_set h.means k _
      · intro i; dsimp only [View.put]; rw [states_releasePtr, states_addRefPtr]; exact h.calls i
      · refine ((h.good.addRefPtr p fun o ho => ?_).releasePtr old fun o ho => ?_).congr fun o => ?_
        · subst ho; exact holders_pos hj
        · subst ho; have := holders_pos hk; omega
        · have := one_le hk o
          dsimp only; rw [holders_set hk]; omega
    · cases hs
  | moveAssign k j =>
    simp only [step] at hs
    split at hs
    · rename_i old p hk hj
      split at hs
      · rename_i e
        subst e
        injection hs with hs; injection hs with h1 h2; subst h1 h2
        refine ⟨_, .moveAssign, ?_, h.calls, h.good⟩
        intro i q hi
        by_cases hik : i = k
        · subst hik; simp only [View.put, if_true]; exact h.means _ _ hi
        · simp [View.put, hik]; exact h.means _ _ hi
      · rename_i hne
        injection hs with hs; injection hs with h1 h2; subst h1 h2
        have hj' : (w.vars.set k (some p))[j]? = some (some p) := by rw [List.getElem?_set_ne hne]; exact hj
        refine ⟨_, .moveAssign, ?_, ?_, ?_⟩
        · rw [h.means j _ hj, List.set_comm _ _ hne]; exact means_set (means_set h.means j _) k _
        · intro i; dsimp only [View.put]; rw [states_releasePtr]; exact h.calls i
        · refine (h.good.releasePtr old fun o ho => ?_).congr fun o => ?_
          · subst ho; exact holders_pos hk
          · have h1 := one_le hj' o
            rw [holders_set hk] at h1
            dsimp only; rw [holders_set hj', one_empty, holders_set hk]; omega
    · cases hs
  | call k a =>
    simp only [step] at hs
    split at hs
    · rename_i p hk
      injection hs with hs
      cases p with
      | none =>
        injection hs with h1 h2; subst h1 h2
        exact ⟨_, .callNull (h.means _ _ hk), h⟩
      | some q =>
        simp only [callVar] at hs
        have hl := h.good.range q (holders_pos hk)
        rw [List.getElem?_eq_getElem hl] at hs
        dsimp only at hs
        injection hs with h1 h2; subst h1 h2
        have hc := h.calls q
        have hl' : q < v.calls.length := h.length ▸ hl
        rw [List.getElem?_eq_getElem hl, List.getElem?_eq_getElem hl'] at hc
        simp only [Option.map_some] at hc
        injection hc with hc
        cases hf : v.calls[q] with | mk f as =>
        rw [hf] at hc
        dsimp only at hc
        rw [hc]
        refine ⟨_, .call (h.means _ _ hk) (List.getElem?_eq_some_iff.mpr ⟨hl', hf⟩), h.means, ?_, ?_⟩
        · intro i
          by_cases hi : i = q
          · subst hi
            rw [List.getElem?_set_self hl, List.getElem?_set_self hl']
            simp [after]
          · rw [List.getElem?_set_ne (Ne.symm hi), List.getElem?_set_ne (Ne.symm hi)]
            exact h.calls i
        · refine ⟨fun i x hx hm => ?_, fun i x hx hm => ?_, fun i hi => ?_⟩
          · by_cases hi : i = q
            · subst hi
              rw [List.getElem?_set_self hl] at hx
              injection hx with hx; subst hx
              exact h.good.made i w.objs[i] (List.getElem?_eq_getElem hl) hm
            · rw [List.getElem?_set_ne (Ne.symm hi)] at hx
              exact h.good.made i x hx hm
          · by_cases hi : i = q
            · subst hi
              rw [List.getElem?_set_self hl] at hx
              injection hx with hx; subst hx
              exact h.good.lost i w.objs[i] (List.getElem?_eq_getElem hl) hm
            · rw [List.getElem?_set_ne (Ne.symm hi)] at hx
              exact h.good.lost i x hx hm
          · rw [List.length_set]; exact h.good.range i hi
    · cases hs
  | destroy k =>
    simp only [step] at hs
    split at hs
    · rename_i p hk
      injection hs with hs; injection hs with h1 h2; subst h1 h2
      refine ⟨_, .destroy, means_set h.means k _, ?_, ?_⟩
      · intro i; dsimp only [View.put]; rw [states_releasePtr]; exact h.calls i
      · refine (h.good.releasePtr p fun o ho => ?_).congr fun o => ?_
        · subst ho; exact holders_pos hk
        · dsimp only; rw [holders_set hk, one_none]; rfl
    · cases hs

theorem run_inv {sem : F → A → F × R} : ∀ (as : List (Act F A)) {w w' : World F} {v : View F A} {os : List (Out R)}, Inv sem w v →
    run sem w as = some (w', os) → ∃ v', Steps sem v as os v' ∧ Inv sem w' v' := by
  intro as
  induction as with
  | nil => intro w w' v os h hr; injection hr with hr; injection hr with h1 h2; subst h1 h2; exact ⟨v, .nil, h⟩
  | cons a as ih =>
    intro w w' v os h hr
    simp only [run] at hr
    cases hs : step sem w a with
    | none => rw [hs] at hr; cases hr
    | some r =>
      obtain ⟨w1, o⟩ := r
      rw [hs] at hr
      dsimp only at hr
      cases hr' : run sem w1 as with
      | none => rw [hr'] at hr; cases hr
      | some r =>
        obtain ⟨w2, os'⟩ := r
        rw [hr'] at hr
        injection hr with hr; injection hr with h1 h2; subst h1 h2
        obtain ⟨v1, e1, i1⟩ := step_inv h hs
        obtain ⟨v2, e2, i2⟩ := ih i1 hr'
        exact ⟨v2, .cons e1 e2, i2⟩

/-- Nothing was made. -/
def nothing : View F A := ⟨fun _ => none, []⟩

theorem init_inv (sem : F → A → F × R) (n : Nat) : Inv sem (World.init F n) nothing := by
  refine ⟨fun i p hi => ?_, fun o => by simp [World.init, nothing], ⟨fun o x ho => by simp [World.init] at ho, fun o x ho => by simp [World.init] at ho, fun o ho => ?_⟩⟩
  · have := List.mem_of_getElem? hi
    simp [World.init] at this
    exact this.2.symm
  · exfalso; apply ho
    unfold holders
    apply List.count_eq_zero.mpr
    simp [World.init]

/-- What is seen of every history is what shared functors would show: copies call the functor of the original, in the state all the calls before have left,
whatever variable they went through. -/
theorem function_shares {sem : F → A → F × R} {n : Nat} {as : List (Act F A)} {w : World F} {os : List (Out R)}
    (hr : run sem (World.init F n) as = some (w, os)) : ∃ v, Steps sem nothing as os v ∧ ∀ i p, w.vars[i]? = some p → v.means i = p := by
  obtain ⟨v, h1, h2⟩ := run_inv as (init_inv sem n) hr
  exact ⟨v, h1, h2.means⟩

/-- A functor whose constructor has ended is not destroyed while a variable refers to it, and is destroyed exactly once as soon as none does. -/
theorem lifetime_partial {sem : F → A → F × R} {n : Nat} {as : List (Act F A)} {w : World F} {os : List (Out R)}
    (hr : run sem (World.init F n) as = some (w, os)) {o : Nat} {x : Obj F} (hx : w.objs[o]? = some x) (hm : x.made = true) :
    ((∃ k : Nat, w.vars[k]? = some (some (some o))) → x.destroyed = 0) ∧ ((¬ ∃ k : Nat, w.vars[k]? = some (some (some o))) → x.destroyed = 1) := by
  obtain ⟨v, _, h⟩ := run_inv as (init_inv sem n) hr
  obtain ⟨_, h2⟩ := h.good.made o x hx hm
  constructor
  · rintro ⟨k, hk⟩
    rw [h2, if_neg (holders_pos hk)]
  · intro hn
    rw [h2, if_pos]
    unfold holders
    apply List.count_eq_zero.mpr
    intro hc
    exact hn (List.getElem?_of_mem hc)

/-- Every variable refers to a functor whose constructor has ended, so a call never goes to one that is not there. -/
theorem referred {sem : F → A → F × R} {n : Nat} {as : List (Act F A)} {w : World F} {os : List (Out R)}
    (hr : run sem (World.init F n) as = some (w, os)) {k o : Nat} (hk : w.vars[k]? = some (some (some o))) :
    ∃ x, w.objs[o]? = some x ∧ x.made = true ∧ x.destroyed = 0 := by
  obtain ⟨v, _, h⟩ := run_inv as (init_inv sem n) hr
  have hl := h.good.range o (holders_pos hk)
  have hx := List.getElem?_eq_getElem hl
  cases hm : w.objs[o].made with
  | false => exact absurd (h.good.lost o _ hx hm) (holders_pos hk)
  | true => exact ⟨_, hx, hm, (lifetime_partial hr hx hm).1 ⟨k, hk⟩⟩

/-- A functor that adds up what it is called with. -/
def adds (f a : Nat) : Nat × Nat := (f + a, f + a)

/-- If copying the functor throws, the destructor of a functor that was never constructed runs. -/
theorem unmade_destroyed_violated : ∃ w : World Nat, run adds (World.init Nat 1) [.makeThrows 0 7] = some (w, [.threw]) ∧ ∃ x, w.objs[0]? = some x ∧ x.made = false ∧ x.destroyed = 1 :=
  ⟨_, rfl, _, rfl, rfl, rfl⟩

example : (run adds (World.init Nat 3) [.make 0 5, .copy 1 0, .call 0 1, .call 1 10, .move 2 0, .call 0 1, .call 2 100, .moveAssign 2 2, .assign 1 1, .call 2 1, .destroy 1, .destroy 2]).map
    (fun r => (r.2, r.1.objs.map fun x => (x.count, x.destroyed))) =
    some ([.done, .done, .result 6, .result 16, .done, .nullPointer, .result 116, .done, .done, .result 117, .done, .done], [(0, 1)]) := rfl

end Verif.Func

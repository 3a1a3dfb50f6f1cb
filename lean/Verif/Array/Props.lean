import Verif.Array.Model
import Verif.Order.Basic
/-
What a user of array relies on: it is N values, each assignment stores what it says, copies are independent, and the order is that of dictionaries.
-/
namespace Verif.Array
open Verif.Order

section
variable {α : Type}

/-- The arrays: how many there are, and the value of each element of each (specification). -/
structure Abs (α : Type) where
  count : Nat
  val : Nat → Nat → α

/-- What a call means (specification). -/
def Abs.after (zero : α) (n : Nat) (s : Abs α) : Op α → Abs α
  | .make => ⟨s.count + 1, fun a e => if a = s.count then zero else s.val a e⟩
  | .makeOf l => ⟨s.count + 1, fun a e => if a = s.count then l[e]?.getD zero else s.val a e⟩
  | .copy i => ⟨s.count + 1, fun a e => if a = s.count then s.val i e else s.val a e⟩
  | .assign i j => ⟨s.count, fun a e => if a = i then s.val j e else s.val a e⟩
  | .fill i x => ⟨s.count, fun a e => if a = i then x else s.val a e⟩
  | .swap i j => ⟨s.count, fun a e => if a = i then s.val j e else if a = j then s.val i e else s.val a e⟩
  | .setAt i offset x => ⟨s.count, fun a e => if a = i ∧ e = offset ∧ offset < n then x else s.val a e⟩
  | .getAt _ _ => s

/-- What a call gives (specification). -/
def Abs.gives (n : Nat) (s : Abs α) : Op α → Out α
  | .setAt _ offset _ => if offset < n then .done else .indexError
  | .getAt i offset => if offset < n then .value (s.val i offset) else .indexError
  | _ => .done

/-- The call is for arrays that exist (specification). -/
def Abs.Can (n : Nat) (s : Abs α) : Op α → Prop
  | .make => True
  | .makeOf l => l.length = n
  | .copy i | .fill i _ | .setAt i _ _ | .getAt i _ => i < s.count
  | .assign i j | .swap i j => i < s.count ∧ j < s.count

/-- A history with its results (specification). -/
inductive Hist (zero : α) (n : Nat) : Abs α → List (Op α) → Abs α → List (Out α) → Prop
  | nil {s : Abs α} : Hist zero n s [] s []
  | cons {s s' : Abs α} {op : Op α} {ops : List (Op α)} {os : List (Out α)} : s.Can n op → Hist zero n (s.after zero n op) ops s' os → Hist zero n s (op :: ops) s' (s.gives n op :: os)

/-- The arrays have these values. -/
def Shows (n : Nat) (w : List (List α)) (s : Abs α) : Prop := w = (List.range s.count).map fun a => (List.range n).map (s.val a)

theorem copyFrom_spec : ∀ (xs dst : List α) (i : Nat), i + xs.length ≤ dst.length → copyFrom dst i xs = some (dst.take i ++ xs ++ dst.drop (i + xs.length))
  | [], dst, i, _ => by simp [copyFrom]
  | x :: xs, dst, i, h => by
    simp only [List.length_cons] at h
    simp only [copyFrom]
    rw [if_pos (by omega), copyFrom_spec xs (dst.set i x) (i + 1) (by simp; omega)]
    congr 1
    apply List.ext_getElem?
    intro k
    simp only [List.length_cons, List.getElem?_append, List.getElem?_take, List.getElem?_drop, List.length_append, List.length_take, List.length_set, List.getElem?_set, List.getElem?_cons]
    grind

theorem fillFrom_spec (x : α) : ∀ (n : Nat) (dst : List α) (i : Nat), i + n ≤ dst.length → fillFrom dst x i n = some (dst.take i ++ List.replicate n x ++ dst.drop (i + n))
  | 0, dst, i, _ => by simp [fillFrom]
  | n + 1, dst, i, h => by
    simp only [fillFrom]
    rw [if_pos (by omega), fillFrom_spec x n (dst.set i x) (i + 1) (by simp; omega)]
    congr 1
    apply List.ext_getElem?
    intro k
    simp only [List.getElem?_append, List.getElem?_take, List.getElem?_drop, List.length_append, List.length_take, List.length_set, List.getElem?_set, List.getElem?_replicate, List.length_replicate]
    grind

theorem swapFrom_spec : ∀ (n : Nat) (a b : List α) (i : Nat), i + n = a.length → b.length = a.length →
    swapFrom a b i n = some (a.take i ++ b.drop i, b.take i ++ a.drop i)
  | 0, a, b, i, h, hl => by
    have : b.drop i = [] := List.drop_eq_nil_of_le (by omega)
    have h2 : a.drop i = [] := List.drop_eq_nil_of_le (by omega)
    rw [this, h2, List.take_of_length_le (by omega), List.take_of_length_le (by omega)]
    simp [swapFrom]
  | n + 1, a, b, i, h, hl => by
    simp only [swapFrom]
    rw [List.getElem?_eq_getElem (by omega), List.getElem?_eq_getElem (by omega)]
    simp only
    rw [swapFrom_spec n _ _ (i + 1) (by simp; omega) (by simp [hl])]
    congr 1
    rw [Prod.mk.injEq]
    constructor <;>
    · apply List.ext_getElem?
      intro k
      simp only [List.getElem?_append, List.getElem?_take, List.getElem?_drop, List.length_take, List.length_set, List.getElem?_set]
      grind

theorem swapSelf_spec : ∀ (n : Nat) (a : List α) (i : Nat), i + n = a.length → swapSelf a i n = some a
  | 0, a, i, _ => rfl
  | n + 1, a, i, h => by
    simp only [swapSelf]
    rw [List.getElem?_eq_getElem (by omega)]
    simp only [List.set_getElem_self]
    exact swapSelf_spec n a (i + 1) (by omega)

theorem Shows.get {n : Nat} {w : List (List α)} {s : Abs α} (h : Shows n w s) {i : Nat} (hi : i < s.count) : w[i]? = some ((List.range n).map (s.val i)) := by
  rw [h]; simp [hi]

theorem Shows.add {n : Nat} {w : List (List α)} {s : Abs α} (h : Shows n w s) {l : List α} {f : Nat → α} (hl : l = (List.range n).map f) :
    Shows n (w ++ [l]) ⟨s.count + 1, fun a e => if a = s.count then f e else s.val a e⟩ := by
  unfold Shows at *
  rw [h, hl, List.range_succ, List.map_append]
  congr 1
  · apply List.map_congr_left
    intro a ha
    have := List.mem_range.mp ha
    have hne : ¬ a = s.count := by omega
    simp only [hne, if_false]
  · simp

theorem Shows.set {n : Nat} {w : List (List α)} {s : Abs α} (h : Shows n w s) (i : Nat) {l : List α} {f : Nat → α} (hl : l = (List.range n).map f) :
    Shows n (w.set i l) ⟨s.count, fun a e => if a = i then f e else s.val a e⟩ := by
  unfold Shows at *
  rw [h, hl]
  apply List.ext_getElem?
  intro k
  rw [List.getElem?_set]
  by_cases hk : i = k
  · subst hk
    simp only [List.length_map, List.length_range, List.getElem?_map, List.getElem?_range', if_true]
    by_cases hi : i < s.count
    · simp [hi]
    · simp [hi]
  · rw [if_neg hk]
    by_cases hc : k < s.count
    · have : ¬ k = i := fun h => hk h.symm
      simp [hc, this]
    · simp [hc]

theorem Shows.congr {n : Nat} {w : List (List α)} {s t : Abs α} (h : Shows n w s) (hc : s.count = t.count) (hv : ∀ a e, e < n → s.val a e = t.val a e) : Shows n w t := by
  unfold Shows at *
  rw [h, hc]
  apply List.map_congr_left
  intro a _
  apply List.map_congr_left
  intro e he
  exact hv a e (List.mem_range.mp he)

theorem step_spec {zero : α} {n : Nat} {w : List (List α)} {s : Abs α} (h : Shows n w s) {op : Op α} (hc : s.Can n op) :
    ∃ w', step zero n w op = some (w', s.gives n op) ∧ Shows n w' (s.after zero n op) := by
  cases op with
  | make =>
    exact ⟨_, rfl, h.add (f := fun _ => zero) (by rw [List.map_const']; simp)⟩
  | makeOf l =>
    have hl : l.length = n := hc
    refine ⟨w ++ [l], ?_, h.add (f := fun e => l[e]?.getD zero) ?_⟩
    · simp only [step, Abs.gives]
      rw [if_pos hl, copyFrom_spec _ _ _ (by simp [hl])]
      simp [add, hl]
    · apply List.ext_getElem?
      intro k
      simp only [List.getElem?_map]
      by_cases hk : k < n
      · rw [List.getElem?_range hk, List.getElem?_eq_getElem (by omega)]
        rw [Option.map_some, List.getElem?_eq_getElem (by omega)]
        rfl
      · rw [List.getElem?_eq_none (by omega), List.getElem?_eq_none (by simpa using hk)]
        rfl
  | copy i =>
    have hi : i < s.count := hc
    refine ⟨w ++ [(List.range n).map (s.val i)], ?_, h.add (f := s.val i) rfl⟩
    simp only [step, Abs.gives]
    rw [h.get hi]
    simp only
    rw [copyFrom_spec _ _ _ (by simp)]
    simp [add]
  | assign i j =>
    have hi : i < s.count ∧ j < s.count := hc
    refine ⟨w.set i ((List.range n).map (s.val j)), ?_, h.set i (f := s.val j) rfl⟩
    simp only [step, Abs.gives]
    rw [h.get hi.1, h.get hi.2]
    simp only
    rw [copyFrom_spec _ _ _ (by simp), List.drop_eq_nil_of_le (by simp)]
    simp [store]
  | fill i x =>
    have hi : i < s.count := hc
    refine ⟨w.set i (List.replicate n x), ?_, h.set i (f := fun _ => x) (by rw [List.map_const']; simp)⟩
    simp only [step, Abs.gives]
    rw [h.get hi]
    simp only
    rw [fillFrom_spec _ _ _ _ (by simp), List.drop_eq_nil_of_le (by simp)]
    simp [store]
  | swap i j =>
    have hi : i < s.count ∧ j < s.count := hc
    simp only [step, Abs.gives]
    rw [h.get hi.1, h.get hi.2]
    simp only
    by_cases he : i = j
    · subst he
      rw [if_pos rfl, swapSelf_spec _ _ _ (by simp)]
      refine ⟨_, rfl, (h.set i (f := s.val i) rfl).congr rfl ?_⟩
      intro a e _
      simp only [Abs.after]
      split <;> rfl
    · rw [if_neg he, swapFrom_spec _ _ _ _ (by simp) (by simp)]
      refine ⟨_, rfl, ((h.set i (f := s.val j) (by simp)).set j (f := s.val i) (by simp)).congr rfl ?_⟩
      intro a e _
      simp only [Abs.after]
      by_cases h1 : a = j
      · have : ¬ a = i := fun h => he (h.symm.trans h1)
        have hji : ¬ j = i := fun h => he h.symm
        subst h1
        simp only [hji, if_false, if_true]
      · simp [h1]
  | setAt i offset x =>
    have hi : i < s.count := hc
    simp only [step, Abs.gives]
    rw [h.get hi]
    simp only
    by_cases ho : offset < n
    · rw [if_pos ho, if_pos ho, copyFrom_spec _ _ _ (by simp; omega)]
      refine ⟨_, rfl, (h.set i (f := fun e => if e = offset then x else s.val i e) ?_).congr rfl ?_⟩
      · apply List.ext_getElem?
        intro k
        simp only [List.getElem?_append, List.getElem?_take, List.getElem?_drop, List.length_append, List.length_take, List.length_map, List.length_range, List.getElem?_map, List.getElem?_cons,
          List.length_cons, List.length_nil]
        grind
      · intro a e _
        simp only [Abs.after]
        by_cases h1 : a = i <;> by_cases h2 : e = offset <;> simp [h1, h2, ho]
    · rw [if_neg ho, if_neg ho]
      refine ⟨w, rfl, h.congr rfl ?_⟩
      intro a e _
      simp only [Abs.after]
      rw [if_neg (by simp [ho])]
  | getAt i offset =>
    have hi : i < s.count := hc
    simp only [step, Abs.gives]
    rw [h.get hi]
    simp only
    by_cases ho : offset < n
    · rw [if_pos ho, if_pos ho]
      exact ⟨w, by simp [ho], h⟩
    · rw [if_neg ho, if_neg ho]
      exact ⟨w, rfl, h⟩

/-- C187.  In every history of constructing, copying, assigning, filling, swapping and setting elements of arrays of any length, on any values: the arrays hold the values they
should, `at` gives them, an index outside throws, and copies are independent. -/
theorem values_exact {zero : α} {n : Nat} {w : List (List α)} {s s' : Abs α} {ops : List (Op α)} {os : List (Out α)} (hs : Shows n w s) (h : Hist zero n s ops s' os) :
    ∃ w', run zero n w ops = some (w', os) ∧ Shows n w' s' := by
  induction h generalizing w with
  | nil => exact ⟨w, rfl, hs⟩
  | cons hc _ ih =>
    obtain ⟨w1, h1, h2⟩ := step_spec (zero := zero) hs hc
    obtain ⟨w2, h3, h4⟩ := ih h2
    exact ⟨w2, by simp only [run, h1, h3], h4⟩

/-- A history that meets the hypotheses, for every length. -/
theorem hist_some {zero : α} {n : Nat} (v : Nat → Nat → α) : Hist zero n ⟨0, v⟩ [.make, .copy 0, .fill 1 (v 0 0), .swap 0 1, .setAt 0 0 zero, .getAt 1 0]
    ((((((Abs.after zero n ⟨0, v⟩ .make).after zero n (.copy 0)).after zero n (.fill 1 (v 0 0))).after zero n (.swap 0 1)).after zero n (.setAt 0 0 zero)).after zero n (.getAt 1 0))
    [.done, .done, .done, .done, if 0 < n then .done else .indexError, if 0 < n then .value zero else .indexError] := by
  refine .cons (op := .make) trivial (.cons (op := .copy 0) (Nat.lt_succ_self _) (.cons (op := .fill 1 _) (Nat.lt_succ_self _) (.cons (op := .swap 0 1) ⟨Nat.zero_lt_succ _, Nat.lt_succ_self _⟩ (.cons (op := .setAt 0 0 zero) (Nat.zero_lt_succ _) ?_))))
  exact .cons (op := .getAt 1 0) (Nat.lt_succ_self _) .nil

example : (run 0 2 [] [.makeOf [3, 4], .copy 0, .setAt 1 1 9, .swap 0 1, .getAt 0 1, .getAt 1 1, .getAt 0 2]) =
    some ([[3, 9], [3, 4]], [.done, .done, .done, .done, .value 9, .value 4, .indexError]) := by decide

/-- C187.  Arrays are equal exactly if all elements are. -/
theorem equal_exact {eq : α → α → Bool} : ∀ {a b : List α}, a.length = b.length →
    ∃ r, equal eq a b = some r ∧ (r = true ↔ ∀ (i : Nat) (x y : α), a[i]? = some x → b[i]? = some y → eq x y = true)
  | [], b, h => ⟨true, rfl, by simp⟩
  | x :: a, [], h => by simp at h
  | x :: a, y :: b, h => by
    simp only [List.length_cons, Nat.add_right_cancel_iff] at h
    obtain ⟨r, h1, h2⟩ := equal_exact (eq := eq) h
    simp only [equal]
    cases he : eq x y with
    | true =>
      refine ⟨r, by simp [h1], h2.trans ⟨fun k i => ?_, fun k i => ?_⟩⟩
      · cases i with
        | zero => intro x' y' hx hy; cases hx; cases hy; exact he
        | succ i => exact k i
      · exact k (i + 1)
    | false =>
      refine ⟨false, by simp, by simp, fun k => ?_⟩
      have := k 0 x y rfl rfl
      rw [he] at this
      exact this

/-- C187.  The order is that of dictionaries: the first element that is not equivalent decides. -/
theorem less_exact {lt : α → α → Bool} : ∀ {a b : List α}, a.length = b.length →
    (less lt a b = true ↔ ∃ (k : Nat) (x y : α), a[k]? = some x ∧ b[k]? = some y ∧ lt x y = true ∧
      ∀ (j : Nat) (u v : α), j < k → a[j]? = some u → b[j]? = some v → lt u v = false ∧ lt v u = false)
  | [], [], _ => by simp [less]
  | x :: a, [], h => by simp at h
  | [], y :: b, h => by simp at h
  | x :: a, y :: b, h => by
    simp only [List.length_cons, Nat.add_right_cancel_iff] at h
    have ih := less_exact (lt := lt) h
    simp only [less]
    cases h1 : lt x y with
    | true =>
      simp only [if_true, true_iff]
      exact ⟨0, x, y, rfl, rfl, h1, fun j _ _ hj => by omega⟩
    | false =>
      cases h2 : lt y x with
      | true =>
        simp only [Bool.false_eq_true, if_true, if_false, false_iff, not_exists, not_and]
        intro k u v hu hv hl
        cases k with
        | zero => cases hu; cases hv; rw [h1] at hl; cases hl
        | succ k =>
          intro hc
          have := (hc 0 x y (by omega) rfl rfl).2
          rw [h2] at this; cases this
      | false =>
        simp only [Bool.false_eq_true, if_false]
        rw [ih]
        constructor
        · intro ⟨k, u, v, hu, hv, hl, hc⟩
          refine ⟨k + 1, u, v, hu, hv, hl, fun j p q hj hp hq => ?_⟩
          cases j with
          | zero => cases hp; cases hq; exact ⟨h1, h2⟩
          | succ j => exact hc j p q (by omega) hp hq
        · intro ⟨k, u, v, hu, hv, hl, hc⟩
          cases k with
          | zero => cases hu; cases hv; rw [h1] at hl; cases hl
          | succ k => exact ⟨k, u, v, hu, hv, hl, fun j p q hj hp hq => hc (j + 1) p q (by omega) hp hq⟩

theorem less_irrefl {lt : α → α → Bool} (h : StrictWeak lt) : ∀ a : List α, less lt a a = false
  | [] => rfl
  | x :: a => by simp only [less, h.irrefl, Bool.false_eq_true, if_false]; exact less_irrefl h a

theorem less_trans {lt : α → α → Bool} (h : StrictWeak lt) : ∀ a b c : List α, less lt a b = true → less lt b c = true → less lt a c = true
  | a, b, [], _, h2 => by cases b <;> simp [less] at h2
  | [], _, z :: c, _, _ => rfl
  | x :: a, [], z :: c, h1, _ => by simp [less] at h1
  | x :: a, y :: b, z :: c, h1, h2 => by
    simp only [less] at h1 h2 ⊢
    cases hxy : lt x y with
    | true =>
      cases hyz : lt y z with
      | true => simp [h.trans _ _ _ hxy hyz]
      | false =>
        cases hzy : lt z y with
        | true => simp [hyz, hzy] at h2
        | false => simp [h.lt_of_equiv_right (equiv_iff.mpr ⟨hyz, hzy⟩) hxy]
    | false =>
      cases hyx : lt y x with
      | true => simp [hxy, hyx] at h1
      | false =>
        simp only [hxy, hyx, Bool.false_eq_true, if_false] at h1
        cases hyz : lt y z with
        | true => simp [h.lt_of_equiv_left (equiv_iff.mpr ⟨hxy, hyx⟩) hyz]
        | false =>
          cases hzy : lt z y with
          | true => simp [hyz, hzy] at h2
          | false =>
            simp only [hyz, hzy, Bool.false_eq_true, if_false] at h2
            have e := equiv_iff.mp (equiv_trans h (equiv_iff.mpr ⟨hxy, hyx⟩) (equiv_iff.mpr ⟨hyz, hzy⟩))
            simp [e.1, e.2, less_trans h a b c h1 h2]

theorem less_incomp {lt : α → α → Bool} (h : StrictWeak lt) : ∀ a b c : List α, less lt a c = true → less lt a b = true ∨ less lt b c = true
  | a, b, [], h1 => by cases a <;> simp [less] at h1
  | _, [], z :: c, _ => .inr rfl
  | [], y :: b, z :: c, _ => .inl rfl
  | x :: a, y :: b, z :: c, h1 => by
    simp only [less] at h1 ⊢
    cases hxy : lt x y with
    | true => exact .inl rfl
    | false =>
      cases hyz : lt y z with
      | true => exact .inr rfl
      | false =>
        have hxz : lt x z = false := by
          cases hx : lt x z with
          | false => rfl
          | true => rcases h.incomp _ y _ hx with k | k <;> simp_all
        cases hzx : lt z x with
        | true => simp [hxz, hzx] at h1
        | false =>
          simp only [hxz, hzx, Bool.false_eq_true, if_false] at h1
          have hyx : lt y x = false := by
            cases hh : lt y x with
            | false => rfl
            | true =>
              have := h.lt_of_equiv_right (equiv_iff.mpr ⟨hxz, hzx⟩) hh
              rw [hyz] at this; cases this
          have hzy : lt z y = false := by
            cases hh : lt z y with
            | false => rfl
            | true =>
              have := h.lt_of_equiv_left (equiv_iff.mpr ⟨hxz, hzx⟩) hh
              rw [hxy] at this; cases this
          simp only [hyx, hzy, Bool.false_eq_true, if_false]
          exact less_incomp h a b c h1

/-- C187.  Arrays are ordered if their elements are, so they can be keys; and `>`, `<=` and `>=` fit `<`. -/
theorem order_valid {lt : α → α → Bool} (h : StrictWeak lt) : StrictWeak (less lt) ∧
    ∀ a b : List α, (greater lt a b = less lt b a) ∧ (lessEq lt a b = true ↔ less lt a b = true ∨ (less lt a b = false ∧ less lt b a = false)) ∧
      (greaterEq lt a b = true ↔ less lt b a = true ∨ (less lt a b = false ∧ less lt b a = false)) := by
  have hw : StrictWeak (less lt) := ⟨less_irrefl h, less_trans h, less_incomp h⟩
  refine ⟨hw, fun a b => ⟨rfl, ?_, ?_⟩⟩
  · unfold lessEq
    cases h1 : less lt a b <;> cases h2 : less lt b a <;> simp
    rw [hw.asymm h1] at h2; cases h2
  · unfold greaterEq
    cases h1 : less lt a b <;> cases h2 : less lt b a <;> simp
    rw [hw.asymm h1] at h2; cases h2

example : less (fun a b : Nat => decide (a < b)) [1, 2, 9] [1, 3, 0] = true ∧ equal (fun a b : Nat => a == b) [1, 2] [1, 2] = some true := by decide

end

end Verif.Array

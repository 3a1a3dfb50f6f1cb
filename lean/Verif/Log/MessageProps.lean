import Verif.Log.Message
import Verif.Util.CompareProps

/-
C198.  Log messages are ordered by name, level, time, thread and text; what they are shown as.
-/
namespace Verif.Log.Message
open Verif.Util Verif.Util.Spec Verif.Order

/-! ### Specification -/

/-- One text is before another: it is a proper beginning of it, or the first byte that differs is smaller. -/
def Before (a b : Text) : Prop :=
  (∃ c r, b = a ++ c :: r) ∨ ∃ p c d r s, a = p ++ c :: r ∧ b = p ++ d :: s ∧ c.toNat < d.toNat

/-- The order by name: messages of no logger come first. -/
def NameBefore (a b : Option Text) : Prop := (a = none ∧ b ≠ none) ∨ ∃ x y, a = some x ∧ b = some y ∧ Before x y

/-! ### The order -/

theorem byte_order : IsOrder byteCmp := by
  refine ⟨fun a => ?_, fun a b => ?_, fun a b d => ?_⟩ <;> unfold byteCmp <;> omega

theorem byte_zero {a b : Char} : byteCmp a b = 0 ↔ a = b := by
  unfold byteCmp
  refine ⟨fun h => ?_, fun h => by rw [h]; omega⟩
  have h' : a.toNat = b.toNat := by omega
  exact Char.toNat_inj.mp h'

theorem collection_zero : ∀ a b : Text, collectionCmp byteCmp a b = 0 ↔ a = b
  | [], [] => by simp [collectionCmp]
  | [], _ :: _ => by simp [collectionCmp]
  | _ :: _, [] => by simp [collectionCmp]
  | x :: xs, y :: ys => by
    have ih := collection_zero xs ys
    have hz := byte_zero (a := x) (b := y)
    simp only [collectionCmp, List.cons.injEq]
    split
    · next h => exact ⟨fun k => absurd k h, fun k => absurd (hz.mpr k.1) h⟩
    · next h =>
      have h' : byteCmp x y = 0 := Classical.byContradiction h
      rw [ih]
      exact ⟨fun k => ⟨hz.mp h', k⟩, fun k => k.2⟩

theorem collection_before : ∀ a b : Text, collectionCmp byteCmp a b < 0 ↔ Before a b
  | [], [] => by
    simp [collectionCmp, Before]
  | [], c :: r => by
    simp only [collectionCmp, List.isEmpty_cons, Bool.false_eq_true, if_false]
    exact ⟨fun _ => Or.inl ⟨c, r, rfl⟩, fun _ => by decide⟩
  | _ :: _, [] => by
    simp [collectionCmp, Before]
  | x :: xs, y :: ys => by
    have ih := collection_before xs ys
    simp only [collectionCmp]
    split
    · next h =>
      have hne : x ≠ y := fun k => h (byte_zero.mpr k)
      constructor
      · intro k
        exact Or.inr ⟨[], x, y, xs, ys, rfl, rfl, by unfold byteCmp at k; omega⟩
      · rintro (⟨c, r, k⟩ | ⟨p, c, d, r, s, k1, k2, k3⟩)
        · simp at k
          exact absurd k.1.symm hne
        · cases p with
          | nil =>
            simp at k1 k2
            rw [k1.1, k2.1]
            unfold byteCmp
            omega
          | cons q p =>
            simp at k1 k2
            exact absurd (k1.1.trans k2.1.symm) hne
    · next h =>
      have hxy : x = y := byte_zero.mp (Classical.byContradiction h)
      subst hxy
      rw [ih]
      constructor
      · rintro (⟨c, r, k⟩ | ⟨p, c, d, r, s, k1, k2, k3⟩)
        · exact Or.inl ⟨c, r, by rw [k]; rfl⟩
        · exact Or.inr ⟨x :: p, c, d, r, s, by rw [k1]; rfl, by rw [k2]; rfl, k3⟩
      · rintro (⟨c, r, k⟩ | ⟨p, c, d, r, s, k1, k2, k3⟩)
        · simp at k
          exact Or.inl ⟨c, r, k⟩
        · cases p with
          | nil =>
            simp at k1 k2
            rw [← k1.1, ← k2.1] at k3
            omega
          | cons q p =>
            simp at k1 k2
            exact Or.inr ⟨p, c, d, r, s, k1.2, k2.2, k3⟩

theorem textLess_weak : StrictWeak (cmpToLess (collectionCmp byteCmp)) := (derived_comparers (collection_order byte_order).1).1

theorem text_order : IsOrder textCmp := (less_to_cmp textLess_weak).1

theorem text_before (a b : Text) : textCmp a b < 0 ↔ Before a b := by
  unfold textCmp
  rw [(less_to_cmp textLess_weak).2.1, ← collection_before]
  simp [cmpToLess]

theorem text_zero (a b : Text) : textCmp a b = 0 ↔ a = b := by
  unfold textCmp
  rw [(derived_comparers (collection_order byte_order).1).2.2.2.2, collection_zero]

theorem optional_eq : optionalCmp = ptrCmp textCmp := by
  funext a b
  cases a <;> cases b <;> rfl

theorem name_before (a b : Option Text) : optionalCmp a b < 0 ↔ NameBefore a b := by
  cases a <;> cases b <;> simp [optionalCmp, NameBefore, text_before]

theorem name_zero (a b : Option Text) : optionalCmp a b = 0 ↔ a = b := by
  cases a <;> cases b <;> simp [optionalCmp, text_zero]

theorem nat_cmp (a b : Nat) : (lessToCmp (fun x y : Nat => decide (x < y)) a b < 0 ↔ a < b) ∧ (lessToCmp (fun x y : Nat => decide (x < y)) a b = 0 ↔ a = b) := by
  unfold lessToCmp
  simp only [decide_eq_true_eq]
  split
  · omega
  · split <;> omega

theorem int_cmp (a b : Int) : (lessToCmp (fun x y : Int => decide (x < y)) a b < 0 ↔ a < b) ∧ (lessToCmp (fun x y : Int => decide (x < y)) a b = 0 ↔ a = b) := by
  unfold lessToCmp
  simp only [decide_eq_true_eq]
  split
  · omega
  · split <;> omega

theorem pull {α β : Type} {c : Cmp β} (h : IsOrder c) (f : α → β) : IsOrder (fun a b => c (f a) (f b)) :=
  ⟨fun _ => h.refl _, fun _ _ => h.flip _ _, fun _ _ _ => h.trans _ _ _⟩

theorem nat_weak : StrictWeak (fun x y : Nat => decide (x < y)) :=
  ⟨fun a => by simp, fun a b c => by simp only [decide_eq_true_eq]; omega, fun a b c => by simp only [decide_eq_true_eq]; omega⟩

theorem int_weak : StrictWeak (fun x y : Int => decide (x < y)) :=
  ⟨fun a => by simp, fun a b c => by simp only [decide_eq_true_eq]; omega, fun a b c => by simp only [decide_eq_true_eq]; omega⟩

theorem members_orders : ∀ m ∈ members, IsOrder m := by
  intro m hm
  simp only [members, List.mem_cons, List.not_mem_nil, or_false] at hm
  rcases hm with rfl | rfl | rfl | rfl | rfl
  · rw [optional_eq]
    exact pull (ptr_comparers text_order).1 Msg.name
  · exact pull (less_to_cmp nat_weak).1 Msg.level
  · exact pull (less_to_cmp int_weak).1 Msg.time
  · exact pull text_order Msg.thread
  · exact pull text_order Msg.message

/-- C198.  Messages are ordered: sets and maps of them work. -/
theorem less_order : StrictWeak less := (derived_comparers (members_order members_orders).1).1

theorem five (c1 c2 c3 c4 c5 : Cmp Msg) (a b : Msg) : memberCmp [c1, c2, c3, c4, c5] a b < 0 ↔
    c1 a b < 0 ∨ (c1 a b = 0 ∧ (c2 a b < 0 ∨ (c2 a b = 0 ∧ (c3 a b < 0 ∨ (c3 a b = 0 ∧ (c4 a b < 0 ∨ (c4 a b = 0 ∧ c5 a b < 0))))))) := by
  simp only [memberCmp]
  (repeat' split) <;> omega

/-- C198.  First by the name of the logger, those of none first, then by level, time, name of the thread and text. -/
theorem less_iff (a b : Msg) : less a b = true ↔
    NameBefore a.name b.name ∨ (a.name = b.name ∧
      (a.level < b.level ∨ (a.level = b.level ∧
        (a.time < b.time ∨ (a.time = b.time ∧
          (Before a.thread b.thread ∨ (a.thread = b.thread ∧ Before a.message b.message))))))) := by
  rw [← name_before, ← name_zero, ← text_before, ← text_before, ← text_zero, ← (nat_cmp a.level b.level).1, ← (nat_cmp a.level b.level).2, ← (int_cmp a.time b.time).1,
    ← (int_cmp a.time b.time).2]
  unfold less cmpToLess
  rw [decide_eq_true_iff]
  exact five _ _ _ _ _ a b

/-- C198.  Messages are equal if all but the highlighting is. -/
theorem equal_iff (a b : Msg) : equal a b = true ↔ a.name = b.name ∧ a.level = b.level ∧ a.time = b.time ∧ a.thread = b.thread ∧ a.message = b.message := by
  have h1 := (derived_comparers (members_order members_orders).1).2.2.1 a b
  have h2 := (members_order members_orders).2.1 a b
  unfold equal less
  unfold lessToEquals at h1
  rw [← h1]
  simp only [cmpToEquals, decide_eq_true_eq]
  rw [h2]
  simp only [members, List.mem_cons, List.not_mem_nil, or_false, forall_eq_or_imp, forall_eq, name_zero, text_zero, (nat_cmp _ _).2, (int_cmp _ _).2]

/-- C198 is violated for highlighting: a message and the same one highlighted are equal, a set keeps only one of them. -/
theorem highlight_violated : ∃ a b : Msg, equal a b = true ∧ a ≠ b :=
  ⟨⟨none, 0, 0, ['t'], ['m'], false⟩, ⟨none, 0, 0, ['t'], ['m'], true⟩, by decide, by decide⟩

example : less ⟨none, 5, 9, ['t'], ['z'], false⟩ ⟨some ['a'], 0, 0, ['t'], ['a'], false⟩ = true ∧
    less ⟨some ['a'], 1, 9, ['t'], ['z'], false⟩ ⟨some ['a'], 2, 0, ['t'], ['a'], false⟩ = true ∧
    less ⟨some ['a'], 1, 9, ['t'], ['a'], false⟩ ⟨some ['a'], 1, 9, ['t'], ['a', 'a'], false⟩ = true := by decide +kernel

/-! ### The text -/

/-- What is before the first `c` and what is after it. -/
theorem split_at {c : Char} {a b x y : Text} (ha : c ∉ a) (hb : c ∉ b) (h : a ++ c :: x = b ++ c :: y) : a = b ∧ x = y := by
  induction a generalizing b with
  | nil =>
    cases b with
    | nil => simpa using h
    | cons d b => simp at h hb; exact absurd h.1 hb.1
  | cons e a ih =>
    cases b with
    | nil => simp at h ha; exact absurd h.1.symm ha.1
    | cons d b =>
      simp only [List.cons_append, List.cons.injEq, List.mem_cons, not_or] at h ha hb
      have := ih ha.2 hb.2 h.2
      exact ⟨by rw [h.1, this.1], this.2⟩

/-- C198.  The text shows all of a message but the highlighting, if names have no closing brackets, and it is known whether there is the name of
a logger. -/
theorem text_partial (showTime : Int → Text) (showLevel : Nat → Text) (ht : ∀ t, ']' ∉ showTime t) (hl : ∀ l, ']' ∉ showLevel l) {a b : Msg}
    (ha : '}' ∉ a.thread) (hb : '}' ∉ b.thread) (hna : ∀ n, a.name = some n → ']' ∉ n) (hnb : ∀ n, b.name = some n → ']' ∉ n) (hk : a.name.isSome = b.name.isSome)
    (h : text showTime showLevel a = text showTime showLevel b) :
    showTime a.time = showTime b.time ∧ showLevel a.level = showLevel b.level ∧ a.thread = b.thread ∧ a.name = b.name ∧ a.message = b.message := by
  have e1 : "] [".toList = ']' :: [' ', '['] := by decide
  have e2 : "] {".toList = ']' :: [' ', '{'] := by decide
  have e3 : "} ".toList = '}' :: [' '] := by decide
  have e4 : "] ".toList = ']' :: [' '] := by decide
  unfold text at h
  rw [e1, e2, e3, e4] at h
  simp only [List.cons_append, List.append_assoc, List.cons.injEq, true_and, List.nil_append] at h
  obtain ⟨h1, h⟩ := split_at (ht _) (ht _) h
  simp only [List.cons.injEq, true_and] at h
  obtain ⟨h2, h⟩ := split_at (hl _) (hl _) h
  simp only [List.cons.injEq, true_and] at h
  obtain ⟨h3, h⟩ := split_at ha hb h
  simp only [List.cons.injEq, true_and] at h
  refine ⟨h1, h2, h3, ?_⟩
  cases hA : a.name with
  | none =>
    cases hB : b.name with
    | none => rw [hA, hB] at h; exact ⟨rfl, h⟩
    | some n => rw [hA, hB] at hk; exact absurd hk (by simp)
  | some n =>
    cases hB : b.name with
    | none => rw [hA, hB] at hk; exact absurd hk (by simp)
    | some k =>
      rw [hA, hB] at h
      simp only [List.cons_append, List.append_assoc, List.cons.injEq, true_and, List.nil_append] at h
      obtain ⟨h4, h⟩ := split_at (hna n hA) (hnb k hB) h
      simp only [List.cons.injEq, true_and] at h
      exact ⟨by rw [h4], h⟩

example : text (fun _ => ['T']) (fun _ => ['L']) ⟨some ['n'], 0, 0, ['t'], ['m'], true⟩ = "[T] [L] {t} [n] m".toList := by decide

/-- C198 is violated for messages of no logger that begin with a bracket: they are shown as those of a logger. -/
theorem ambiguous_violated (showTime : Int → Text) (showLevel : Nat → Text) : ∃ a b : Msg, text showTime showLevel a = text showTime showLevel b ∧ equal a b = false :=
  ⟨⟨none, 0, 0, ['t'], "[n] m".toList, false⟩, ⟨some ['n'], 0, 0, ['t'], ['m'], false⟩, by simp [text], by decide +kernel⟩

/-- C198.  A message never has an empty name of a thread, and holds what it was made of. -/
theorem made (name : Option Text) (level : Nat) (message : Text) (highlight : Bool) (now : Int) (current : Text) :
    (make name level message highlight now current).thread ≠ [] ∧
    (current ≠ [] → make name level message highlight now current = ⟨name, level, now, current, message, highlight⟩) ∧
    (current = [] → make name level message highlight now current = ⟨name, level, now, "__undefined__".toList, message, highlight⟩) := by
  unfold make threadName
  cases current with
  | nil => exact ⟨by simp, fun h => absurd rfl h, fun _ => rfl⟩
  | cons c r => exact ⟨by simp, fun _ => rfl, nofun⟩

end Verif.Log.Message

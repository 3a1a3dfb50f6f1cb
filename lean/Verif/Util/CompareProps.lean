import Verif.Util.Compare
import Verif.Order.Basic
/-
What a comparer should be, and that all comparers made of such comparers are.
-/
namespace Verif.Util.Spec

/-- The signs of a comparer are those of an order in which different objects may have the same rank. -/
structure IsOrder {α : Type} (c : Cmp α) : Prop where
  refl : ∀ a, c a a = 0
  flip : ∀ a b, c a b < 0 ↔ 0 < c b a
  trans : ∀ a b d, c a b ≤ 0 → c b d ≤ 0 → c a d ≤ 0

/-- The lexicographic order: at the first place where they differ the left one is less, or has ended. -/
def LexLess {α : Type} (c : Cmp α) (a b : List α) : Prop :=
  ∃ i, (∀ j < i, ∃ x y, a[j]? = some x ∧ b[j]? = some y ∧ c x y = 0) ∧
    ((a.length = i ∧ i < b.length) ∨ ∃ x y, a[i]? = some x ∧ b[i]? = some y ∧ c x y < 0)

end Verif.Util.Spec

namespace Verif.Util
open Spec Verif.Order

section
variable {α : Type} {c : Cmp α}

theorem IsOrder.zero_comm (h : IsOrder c) {a b : α} (e : c a b = 0) : c b a = 0 := by
  have h1 := h.flip a b
  have h2 := h.flip b a
  omega

theorem IsOrder.trans_lt (h : IsOrder c) {a b d : α} (h1 : c a b ≤ 0) (h2 : c b d < 0) : c a d < 0 := by
  have h3 := h.trans a b d h1 (by omega)
  by_cases e : c a d = 0
  · have h4 := IsOrder.zero_comm h e
    have h5 := h.trans d a b (by omega) h1
    have := h.flip b d
    omega
  · omega

theorem IsOrder.lt_trans (h : IsOrder c) {a b d : α} (h1 : c a b < 0) (h2 : c b d ≤ 0) : c a d < 0 := by
  have h3 := h.trans a b d (by omega) h2
  by_cases e : c a d = 0
  · have h4 := IsOrder.zero_comm h e
    have h5 := h.trans b d a h2 (by omega)
    have := h.flip a b
    omega
  · omega

theorem IsOrder.zero_trans (h : IsOrder c) {a b d : α} (h1 : c a b = 0) (h2 : c b d = 0) : c a d = 0 := by
  have h3 := h.trans a b d (by omega) (by omega)
  have h4 := h.trans d b a (by rw [IsOrder.zero_comm h h2]; omega) (by rw [IsOrder.zero_comm h h1]; omega)
  have := h.flip a d
  have := h.flip d a
  omega

/-- The shortcut for the same object changes nothing. -/
theorem shortcut (h : IsOrder c) (a : α) : c a a = 0 ∧ cmpToLess c a a = false ∧ cmpToGreater c a a = false ∧ cmpToEquals c a a = true := by
  simp [cmpToLess, cmpToGreater, cmpToEquals, h.refl]

/-- `Less`, `Greater` and `Equals` of a comparer agree with each other, `Less` is a strict order and `Equals` says that neither is less. -/
theorem derived_comparers (h : IsOrder c) : StrictWeak (cmpToLess c) ∧ (∀ a b, cmpToGreater c a b = cmpToLess c b a) ∧ (∀ a b, cmpToEquals c a b = lessToEquals (cmpToLess c) a b) ∧
    (∀ a b, lessToCmp (cmpToLess c) a b < 0 ↔ c a b < 0) ∧ (∀ a b, lessToCmp (cmpToLess c) a b = 0 ↔ c a b = 0) := by
  refine ⟨⟨?_, ?_, ?_⟩, ?_, ?_, ?_, ?_⟩
  · intro a; simp [cmpToLess, h.refl]
  · intro a b d h1 h2
    simp only [cmpToLess, decide_eq_true_eq] at *
    exact IsOrder.lt_trans h h1 (by omega)
  · intro a b d hd
    simp only [cmpToLess, decide_eq_true_eq] at *
    by_cases h1 : c a b < 0
    · exact Or.inl h1
    · have := h.flip a b
      exact Or.inr (IsOrder.trans_lt h (b := a) (by omega) hd)
  · intro a b
    have := h.flip b a
    simp only [cmpToLess, cmpToGreater]
    exact decide_eq_decide.mpr (by omega)
  · intro a b
    have h1 := h.flip a b
    have h2 := h.flip b a
    simp only [cmpToEquals, lessToEquals, cmpToLess]
    rw [Bool.eq_iff_iff]
    simp only [decide_eq_true_eq, Bool.and_eq_true, Bool.not_eq_true', decide_eq_false_iff_not]
    omega
  · intro a b
    have h1 := h.flip a b
    have h2 := h.flip b a
    unfold lessToCmp cmpToLess
    by_cases e1 : c a b < 0
    · simp [e1]
    · by_cases e2 : c b a < 0 <;> simp [e1, e2]
  · intro a b
    have h1 := h.flip a b
    have h2 := h.flip b a
    unfold lessToCmp cmpToLess
    by_cases e1 : c a b < 0
    · simp [e1]; omega
    · by_cases e2 : c b a < 0
      · simp [e1, e2]; omega
      · simp [e1, e2]; omega

/-- `LessToCmp` and `Cmp` of a strict order. -/
theorem less_to_cmp {less : α → α → Bool} (h : StrictWeak less) :
    IsOrder (lessToCmp less) ∧ (∀ a b, lessToCmp less a b < 0 ↔ less a b = true) ∧ (∀ a b, lessToCmp less a b = 0 ↔ lessToEquals less a b = true) := by
  have key : ∀ a b, (lessToCmp less a b < 0 ↔ less a b = true) ∧ (0 < lessToCmp less a b ↔ less b a = true) := by
    intro a b
    unfold lessToCmp
    by_cases h1 : less a b = true
    · rw [if_pos h1]
      have := h.asymm h1
      simp [h1, this]
    · rw [if_neg h1]
      by_cases h2 : less b a = true
      · rw [if_pos h2]; simp [h1, h2]
      · rw [if_neg h2]; simp [h1, h2]
  refine ⟨⟨?_, ?_, ?_⟩, fun a b => (key a b).1, ?_⟩
  · intro a
    unfold lessToCmp
    simp [h.irrefl]
  · intro a b
    rw [(key a b).1, (key b a).2]
  · intro a b d h1 h2
    apply Int.not_lt.mp
    intro h3
    rw [(key a d).2] at h3
    rcases h.incomp d b a h3 with h4 | h4
    · have := (key b d).2.mpr h4; omega
    · have := (key a b).2.mpr h4; omega
  · intro a b
    have h1 := key a b
    unfold lessToEquals
    rw [Bool.and_eq_true, Bool.not_eq_true', Bool.not_eq_true', ← Bool.not_eq_true, ← Bool.not_eq_true, ← h1.1, ← h1.2]
    omega

/-- Shared pointers: a null pointer is before every object and equal to null; the four kinds of comparers agree. -/
theorem ptr_comparers (h : IsOrder c) : IsOrder (ptrCmp c) ∧ (∀ a b, ptrCmp c (some a) (some b) = c a b) ∧ (∀ b, ptrCmp c none (some b) < 0) ∧
    (∀ a b, ptrLess (cmpToLess c) a b = cmpToLess (ptrCmp c) a b) ∧ (∀ a b, ptrEquals (cmpToEquals c) a b = cmpToEquals (ptrCmp c) a b) ∧
    (∀ a b, ptrGreater (cmpToGreater c) a b = cmpToGreater (ptrCmp c) a b) := by
  refine ⟨⟨?_, ?_, ?_⟩, fun _ _ => rfl, fun b => by show (-1 : Int) < 0; decide, ?_, ?_, ?_⟩
  · rintro (_ | a)
    · rfl
    · exact h.refl a
  · rintro (_ | a) (_ | b)
    · show (0 : Int) < 0 ↔ 0 < 0; decide
    · show (-1 : Int) < 0 ↔ (0 : Int) < 1; decide
    · show (1 : Int) < 0 ↔ (0 : Int) < -1; decide
    · exact h.flip a b
  · intro a b d h1 h2
    cases a <;> cases b <;> cases d <;> simp only [ptrCmp] at * <;> first | decide | omega | exact h.trans _ _ _ h1 h2
  all_goals
    rintro (_ | a) (_ | b) <;> rfl

theorem collection_nil_left (b : List α) : collectionCmp c [] b = if b.isEmpty then 0 else -1 := by
  cases b <;> rfl

theorem collection_flip (h : IsOrder c) : ∀ a b : List α, (collectionCmp c a b < 0 ↔ 0 < collectionCmp c b a) ∧ (collectionCmp c a b = 0 ↔ collectionCmp c b a = 0)
  | [], [] => by simp [collectionCmp]
  | [], y :: ys => by simp [collectionCmp]
  | x :: xs, [] => by simp [collectionCmp]
  | x :: xs, y :: ys => by
    obtain ⟨h1, h2⟩ := collection_flip h xs ys
    have f1 := h.flip x y
    have f2 := h.flip y x
    unfold collectionCmp
    by_cases e : c x y = 0
    · have e2 := IsOrder.zero_comm h e
      rw [if_neg (fun n => n e), if_neg (fun n => n e2)]
      exact ⟨h1, h2⟩
    · have e2 : c y x ≠ 0 := fun e3 => e (IsOrder.zero_comm h e3)
      rw [if_pos e, if_pos e2]
      exact ⟨f1, fun z => absurd z e, fun z => absurd z e2⟩

theorem collection_trans (h : IsOrder c) : ∀ a b d : List α, collectionCmp c a b ≤ 0 → collectionCmp c b d ≤ 0 → collectionCmp c a d ≤ 0
  | [], b, d => by
    intro _ _
    rw [collection_nil_left]
    split <;> decide
  | x :: xs, [], d => by
    intro h1 _
    exact absurd h1 (by simp [collectionCmp])
  | x :: xs, y :: ys, [] => by
    intro _ h2
    exact absurd h2 (by simp [collectionCmp])
  | x :: xs, y :: ys, z :: zs => by
    unfold collectionCmp
    intro h1 h2
    by_cases e1 : c x y = 0
    · simp only [e1, ne_eq, not_true_eq_false, if_false] at h1
      by_cases e2 : c y z = 0
      · simp only [e2, ne_eq, not_true_eq_false, if_false] at h2
        have := IsOrder.zero_trans h e1 e2
        simp only [this, ne_eq, not_true_eq_false, if_false]
        exact collection_trans h xs ys zs h1 h2
      · simp only [e2, ne_eq, not_false_eq_true, if_true] at h2
        have := IsOrder.trans_lt h (a := x) (b := y) (d := z) (by omega) (by omega)
        rw [if_pos (by omega)]; omega
    · simp only [e1, ne_eq, not_false_eq_true, if_true] at h1
      have h3 : c y z ≤ 0 := by
        by_cases e2 : c y z = 0
        · omega
        · simp only [e2, ne_eq, not_false_eq_true, if_true] at h2; exact h2
      have := IsOrder.lt_trans h (a := x) (b := y) (d := z) (by omega) h3
      rw [if_pos (by omega)]; omega

/-- Collections are compared lexicographically; equal are collections of the same length with equal items. -/
theorem collection_order (h : IsOrder c) : IsOrder (collectionCmp c) ∧
    (∀ a b : List α, collectionCmp c a b = 0 ↔ a.length = b.length ∧ ∀ (i : Nat) (x y : α), a[i]? = some x → b[i]? = some y → c x y = 0) := by
  have hz : ∀ a b : List α, collectionCmp c a b = 0 ↔ a.length = b.length ∧ ∀ (i : Nat) (x y : α), a[i]? = some x → b[i]? = some y → c x y = 0 := by
    intro a
    induction a with
    | nil =>
      intro b
      rw [collection_nil_left]
      cases b with
      | nil => simp
      | cons y ys => simp
    | cons x xs ih =>
      intro b
      cases b with
      | nil => simp [collectionCmp]
      | cons y ys =>
        unfold collectionCmp
        by_cases e : c x y = 0
        · simp only [e, ne_eq, not_true_eq_false, if_false]
          rw [ih ys]
          simp only [List.length_cons, Nat.add_right_cancel_iff]
          constructor
          · rintro ⟨h1, h2⟩
            refine ⟨h1, ?_⟩
            rintro (_ | i) u v hu hv
            · simp only [List.getElem?_cons_zero, Option.some.injEq] at hu hv
              subst hu hv; exact e
            · simp only [List.getElem?_cons_succ] at hu hv
              exact h2 i u v hu hv
          · rintro ⟨h1, h2⟩
            exact ⟨h1, fun i u v hu hv => h2 (i + 1) u v (by simpa using hu) (by simpa using hv)⟩
        · simp only [e, ne_eq, not_false_eq_true, if_true, false_iff]
          rintro ⟨-, h2⟩
          exact e (h2 0 x y rfl rfl)
  refine ⟨⟨?_, fun a b => (collection_flip h a b).1, collection_trans h⟩, hz⟩
  intro a
  rw [hz]
  refine ⟨rfl, fun i x y h1 h2 => ?_⟩
  rw [h1] at h2
  cases h2
  exact h.refl x

/-- The order of collections is the lexicographic one. -/
theorem collection_lexicographic (a : List α) : ∀ b, collectionCmp c a b < 0 ↔ LexLess c a b := by
  induction a with
  | nil =>
    intro b
    rw [collection_nil_left]
    constructor
    · intro h1
      cases b with
      | nil => exact absurd h1 (by simp)
      | cons y ys => exact ⟨0, fun j hj => absurd hj (by omega), Or.inl ⟨rfl, by simp⟩⟩
    · rintro ⟨i, h1, h2⟩
      cases b with
      | nil =>
        rcases h2 with ⟨-, h3⟩ | ⟨x, y, h3, h4, -⟩
        · simp at h3
        · simp at h3
      | cons y ys => show (-1 : Int) < 0; decide
  | cons x xs ih =>
    intro b
    cases b with
    | nil =>
      unfold collectionCmp
      constructor
      · intro h1; exact absurd h1 (by decide)
      · rintro ⟨i, h1, h2⟩
        rcases h2 with ⟨-, h3⟩ | ⟨u, v, h3, h4, -⟩
        · simp at h3
        · simp at h4
    | cons y ys =>
      unfold collectionCmp
      by_cases e : c x y = 0
      · simp only [e, ne_eq, not_true_eq_false, if_false]
        rw [ih ys]
        constructor
        · rintro ⟨i, h1, h2⟩
          refine ⟨i + 1, ?_, ?_⟩
          · rintro (_ | j) hj
            · exact ⟨x, y, rfl, rfl, e⟩
            · obtain ⟨u, v, h3, h4, h5⟩ := h1 j (by omega)
              exact ⟨u, v, by simpa using h3, by simpa using h4, h5⟩
          · rcases h2 with ⟨h3, h4⟩ | ⟨u, v, h3, h4, h5⟩
            · exact Or.inl ⟨by simp [h3], by simpa using h4⟩
            · exact Or.inr ⟨u, v, by simpa using h3, by simpa using h4, h5⟩
        · rintro ⟨i, h1, h2⟩
          cases i with
          | zero =>
            rcases h2 with ⟨h3, -⟩ | ⟨u, v, h3, h4, h5⟩
            · simp at h3
            · simp only [List.getElem?_cons_zero, Option.some.injEq] at h3 h4
              subst h3 h4; omega
          | succ i =>
            refine ⟨i, fun j hj => ?_, ?_⟩
            · obtain ⟨u, v, h3, h4, h5⟩ := h1 (j + 1) (by omega)
              exact ⟨u, v, by simpa using h3, by simpa using h4, h5⟩
            · rcases h2 with ⟨h3, h4⟩ | ⟨u, v, h3, h4, h5⟩
              · exact Or.inl ⟨by simpa using h3, by simpa using h4⟩
              · exact Or.inr ⟨u, v, by simpa using h3, by simpa using h4, h5⟩
      · simp only [e, ne_eq, not_false_eq_true, if_true]
        constructor
        · intro h1
          exact ⟨0, fun j hj => absurd hj (by omega), Or.inr ⟨x, y, rfl, rfl, h1⟩⟩
        · rintro ⟨i, h1, h2⟩
          cases i with
          | zero =>
            rcases h2 with ⟨h3, -⟩ | ⟨u, v, h3, h4, h5⟩
            · simp at h3
            · simp only [List.getElem?_cons_zero, Option.some.injEq] at h3 h4
              subst h3 h4; exact h5
          | succ i =>
            obtain ⟨u, v, h3, h4, h5⟩ := h1 0 (by omega)
            simp only [List.getElem?_cons_zero, Option.some.injEq] at h3 h4
            subst h3 h4; exact absurd h5 e

/-- Lists of members: the first member that differs decides. -/
theorem members_order {cs : List (Cmp α)} (h : ∀ m ∈ cs, IsOrder m) : IsOrder (memberCmp cs) ∧ (∀ a b, memberCmp cs a b = 0 ↔ ∀ m ∈ cs, m a b = 0) ∧
    (∀ a b, memberCmp cs a b < 0 ↔ ∃ pre m post, cs = pre ++ m :: post ∧ (∀ k ∈ pre, k a b = 0) ∧ m a b < 0) := by
  induction cs with
  | nil =>
    refine ⟨⟨fun _ => rfl, fun _ _ => by simp [memberCmp], fun _ _ _ _ _ => by simp [memberCmp]⟩, fun a b => by simp [memberCmp], fun a b => ?_⟩
    constructor
    · intro h1; exact absurd h1 (by simp [memberCmp])
    · rintro ⟨pre, m, post, h1, -⟩
      exact absurd h1 (by simp)
  | cons m ms ih =>
    obtain ⟨i1, i2, i3⟩ := ih (fun k hk => h k (List.mem_cons_of_mem _ hk))
    have hm := h m List.mem_cons_self
    refine ⟨⟨?_, ?_, ?_⟩, ?_, ?_⟩
    · intro a
      unfold memberCmp
      rw [hm.refl]; simp only [ne_eq, not_true_eq_false, if_false]
      exact i1.refl a
    · intro a b
      unfold memberCmp
      have f1 := hm.flip a b
      by_cases e : m a b = 0
      · have e2 := IsOrder.zero_comm hm e
        simp only [e, e2, ne_eq, not_true_eq_false, if_false]
        exact i1.flip a b
      · have e2 : m b a ≠ 0 := fun e3 => e (IsOrder.zero_comm hm e3)
        simp only [e, e2, ne_eq, not_false_eq_true, if_true]
        exact f1
    · intro a b d
      unfold memberCmp
      intro h1 h2
      by_cases e1 : m a b = 0
      · simp only [e1, ne_eq, not_true_eq_false, if_false] at h1
        by_cases e2 : m b d = 0
        · simp only [e2, ne_eq, not_true_eq_false, if_false] at h2
          simp only [IsOrder.zero_trans hm e1 e2, ne_eq, not_true_eq_false, if_false]
          exact i1.trans a b d h1 h2
        · simp only [e2, ne_eq, not_false_eq_true, if_true] at h2
          have := IsOrder.trans_lt hm (a := a) (b := b) (d := d) (by omega) (by omega)
          rw [if_pos (by omega)]; omega
      · simp only [e1, ne_eq, not_false_eq_true, if_true] at h1
        have h3 : m b d ≤ 0 := by
          by_cases e2 : m b d = 0
          · omega
          · simp only [e2, ne_eq, not_false_eq_true, if_true] at h2; exact h2
        have := IsOrder.lt_trans hm (a := a) (b := b) (d := d) (by omega) h3
        rw [if_pos (by omega)]; omega
    · intro a b
      unfold memberCmp
      by_cases e : m a b = 0
      · simp only [e, ne_eq, not_true_eq_false, if_false]
        rw [i2]
        simp [e]
      · simp only [e, ne_eq, not_false_eq_true, if_true, false_iff]
        intro h1
        exact e (h1 m List.mem_cons_self)
    · intro a b
      unfold memberCmp
      by_cases e : m a b = 0
      · simp only [e, ne_eq, not_true_eq_false, if_false]
        rw [i3]
        constructor
        · rintro ⟨pre, k, post, h1, h2, h3⟩
          exact ⟨m :: pre, k, post, by rw [h1]; rfl, List.forall_mem_cons.mpr ⟨e, h2⟩, h3⟩
        · rintro ⟨pre, k, post, h1, h2, h3⟩
          cases pre with
          | nil =>
            rw [List.nil_append] at h1
            rw [← (List.cons.inj h1).1] at h3
            omega
          | cons p pre =>
            rw [List.cons_append] at h1
            exact ⟨pre, k, post, (List.cons.inj h1).2, fun q hq => h2 q (List.mem_cons_of_mem _ hq), h3⟩
      · simp only [e, ne_eq, not_false_eq_true, if_true]
        constructor
        · intro h1
          exact ⟨[], m, ms, rfl, by simp, h1⟩
        · rintro ⟨pre, k, post, h1, h2, h3⟩
          cases pre with
          | nil =>
            rw [List.nil_append] at h1
            rw [(List.cons.inj h1).1]; exact h3
          | cons p pre =>
            rw [List.cons_append] at h1
            have := h2 p List.mem_cons_self
            rw [← (List.cons.inj h1).1] at this
            exact absurd this e

/-- Optionals: null is before every value. -/
theorem optional_less {less : α → α → Bool} (h : StrictWeak less) : StrictWeak (optionalLess less) ∧ (∀ x y, optionalLess less (some x) (some y) = less x y) ∧
    (∀ y, optionalLess less none (some y) = true) ∧ ∀ a, optionalLess less a none = false := by
  refine ⟨⟨?_, ?_, ?_⟩, fun _ _ => rfl, fun _ => rfl, fun a => by cases a <;> rfl⟩
  · rintro (_ | a)
    · rfl
    · exact h.irrefl a
  · intro a b d h1 h2
    cases a <;> cases b <;> cases d <;> first | exact h.trans _ _ _ h1 h2 | (cases h1; done) | (cases h2; done) | rfl
  · intro a b d h1
    cases a <;> cases b <;> cases d <;> first | exact h.incomp _ _ _ h1 | (cases h1; done) | exact Or.inl rfl | exact Or.inr rfl

/-- Objects of several types: ordered by their types first, and within a type by the comparer of the type. -/
theorem comparable_order {τ : Type} [DecidableEq τ] {type : α → τ} {before : τ → τ → Bool} (hb : StrictWeak before) (ht : ∀ s t, s ≠ t → before s t = true ∨ before t s = true)
    (h : ∀ t, IsOrder (α := { a : α // type a = t }) (fun a b => c a.1 b.1)) : IsOrder (comparable type before c) := by
  have low : ∀ a b, comparable type before c a b ≤ 0 ↔ before (type a) (type b) = true ∨ (type a = type b ∧ c a b ≤ 0) := by
    intro a b
    unfold comparable
    by_cases e : type a = type b
    · simp only [e, ne_eq, not_true_eq_false, if_false, hb.irrefl, Bool.false_eq_true, false_or, true_and]
    · simp only [e, ne_eq, not_false_eq_true, if_true, false_and, or_false]
      by_cases e2 : before (type a) (type b) = true
      · simp [e2]
      · simp [e2]
  refine ⟨?_, ?_, ?_⟩
  · intro a
    unfold comparable
    simp only [ne_eq, not_true_eq_false, if_false]
    exact (h (type a)).refl ⟨a, rfl⟩
  · intro a b
    unfold comparable
    by_cases e : type a = type b
    · simp only [e, ne_eq, not_true_eq_false, if_false]
      exact (h (type b)).flip ⟨a, e⟩ ⟨b, rfl⟩
    · have e' : ¬ type b = type a := fun x => e x.symm
      simp only [e, e', ne_eq, not_false_eq_true, if_true]
      by_cases e2 : before (type a) (type b) = true
      · have := hb.asymm e2
        simp [e2, this]
      · have := (ht _ _ e).resolve_left e2
        simp [e2, this]
  · intro a b d h1 h2
    rw [low] at *
    rcases h1 with h1 | ⟨h1, h3⟩
    · rcases h2 with h2 | ⟨h2, -⟩
      · exact Or.inl (hb.trans _ _ _ h1 h2)
      · exact Or.inl (by rw [← h2]; exact h1)
    · rcases h2 with h2 | ⟨h2, h4⟩
      · exact Or.inl (by rw [h1]; exact h2)
      · refine Or.inr ⟨h1.trans h2, ?_⟩
        exact (h (type d)).trans ⟨a, h1.trans h2⟩ ⟨b, h2⟩ ⟨d, rfl⟩ h3 h4

end

theorem int_order : IsOrder (fun a b : Int => a - b) := ⟨fun a => by omega, fun a b => by omega, fun a b d => by omega⟩

example : collectionCmp (fun a b : Int => a - b) [1, 2] [1, 2, 0] = -1 ∧ collectionCmp (fun a b : Int => a - b) [1, 5] [1, 2, 0] = 3 ∧
    memberCmp [fun a b : Int × Int => a.1 - b.1, fun a b => a.2 - b.2] (1, 2) (1, 5) = -3 ∧ ptrCmp (fun a b : Int => a - b) (some 4) none = 1 ∧
    lessToCmp (optionalLess (fun a b : Nat => decide (a < b))) (some 0) none = 1 := by decide
example : IsOrder (fun a b : Int => a - b) ∧ StrictWeak (fun a b : Nat => decide (a < b)) := ⟨int_order, strictWeak_nat⟩

end Verif.Util

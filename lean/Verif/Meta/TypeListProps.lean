import Verif.Meta.TypeList
/-
C134: algorithms on lists of types, dispatch by tag.
-/
namespace Verif.Meta.TypeList

variable {α : Type}

theorem listMerge_eq : ∀ (a b : List α), listMerge a b = a ++ b := by
  intro a; induction a with
  | nil => intro b; rfl
  | cons x a ih => intro b; simp [listMerge, ih]

theorem merge_eq : ∀ (ls : List (List α)) (r : List α), merge ls r = r ++ ls.flatten := by
  intro ls; induction ls with
  | nil => intro r; simp [merge]
  | cons l ls ih => intro r; simp [merge, ih, listMerge_eq]

theorem length_eq : ∀ (l : List α), length l = l.length := by
  intro l; induction l with
  | nil => rfl
  | cons x l ih => simp [length, ih]

theorem item_eq : ∀ (l : List α) (n : Nat), item l n = l[n]? := by
  intro l; induction l with
  | nil => intro n; simp [item]
  | cons x l ih => intro n; cases n <;> simp [item, ih]

theorem append_eq : ∀ (l : List α) (v : α), append l v = l ++ [v] := by
  intro l; induction l with
  | nil => intro v; rfl
  | cons x l ih => intro v; simp [append, ih]

theorem copyIf_eq (p : α → Bool) : ∀ (l : List α), copyIf p l = l.filter p := by
  intro l; induction l with
  | nil => rfl
  | cons x l ih => simp only [copyIf, ih, List.filter_cons]

theorem accumulate_eq {β : Type} (f : α → β → β) (init : β) : ∀ (l : List α), accumulate f init l = l.foldr f init := by
  intro l; induction l with
  | nil => rfl
  | cons x l ih => simp [accumulate, ih]

theorem transform_eq {β : Type} (f : α → β) : ∀ (l : List α), transform f l = l.map f := by
  intro l; induction l with
  | nil => rfl
  | cons x l ih => simp [transform, ih]

theorem reverse_eq : ∀ (l : List α), reverse l = l.reverse := by
  intro l; induction l with
  | nil => rfl
  | cons x l ih => simp [reverse, ih, append_eq]

/-- **C134.**  Length, item, merging, appending, filtering, folding, mapping and reversing are those of lists. -/
theorem list_operations {β : Type} (l : List α) (ls : List (List α)) (v : α) (n : Nat) (p : α → Bool) (f : α → β → β) (init : β) (g : α → β) :
    length l = l.length ∧ item l n = l[n]? ∧ merge ls [] = ls.flatten ∧ append l v = l ++ [v] ∧ copyIf p l = l.filter p ∧
    accumulate f init l = l.foldr f init ∧ transform g l = l.map g ∧ reverse l = l.reverse :=
  ⟨length_eq l, item_eq l n, by rw [merge_eq]; rfl, append_eq l v, copyIf_eq p l, accumulate_eq f init l, transform_eq g l, reverse_eq l⟩

/-- **C134.**  `IndexOfTypeListItem<L, T, K>` is the place of the occurrence number K (from 0) of T; the end marker exactly if there is none. -/
theorem indexOf_spec [DecidableEq α] (t : α) : ∀ (l : List α) (k i : Nat), indexOf l t k = some i ↔ l[i]? = some t ∧ (l.take i).count t = k := by
  intro l
  induction l with
  | nil => intro k i; simp [indexOf]
  | cons x l ih =>
    intro k i
    simp only [indexOf]
    by_cases hx : x = t
    · subst hx
      simp only [if_true]
      cases k with
      | zero =>
        cases i with
        | zero => simp
        | succ i => simp
      | succ k =>
        cases i with
        | zero =>
          constructor
          · intro h
            simp only [] at h
            split at h
            · exact absurd h (by simp)
            · exact absurd h (by simp)
          · intro h; exact absurd h.2 (by simp)
        | succ i =>
          have := ih k i
          simp only [List.getElem?_cons_succ, List.take_succ_cons, List.count_cons_self, Nat.add_right_cancel_iff]
          rw [← this]
          cases indexOf l x k <;> simp
    · rw [if_neg hx]
      cases i with
      | zero => cases indexOf l t k <;> simp [hx]
      | succ i =>
        have := ih k i
        simp only [List.getElem?_cons_succ, List.take_succ_cons, List.count_cons_of_ne hx]
        rw [← this]
        cases indexOf l t k <;> simp

theorem indexOf_none [DecidableEq α] (t : α) (l : List α) (k : Nat) : indexOf l t k = none ↔ l.count t ≤ k := by
  induction l generalizing k with
  | nil => simp [indexOf]
  | cons x l ih =>
    simp only [indexOf]
    by_cases hx : x = t
    · subst hx
      simp only [if_true, List.count_cons_self]
      cases k with
      | zero => simp
      | succ k =>
        have := ih k
        simp only []
        rw [show l.count x + 1 ≤ k + 1 ↔ l.count x ≤ k by omega, ← this]
        cases indexOf l x k <;> simp
    · rw [if_neg hx, List.count_cons_of_ne hx, ← ih k]
      cases indexOf l t k <;> simp

/-! ### Extremes -/

/-- The order is a strict weak order. -/
structure Spec.Order (less : α → α → Bool) : Prop where
  irrefl : ∀ x, less x x = false
  trans : ∀ x y z, less x y = true → less y z = true → less x z = true
  incomp : ∀ x y z, less x y = false → less y z = false → less x z = false

/-- **C134.**  `MaxElement` is an element that none exceeds, the first of these; `MinElement` is an element that exceeds none, the last of these. -/
theorem maxElement_spec {less : α → α → Bool} (o : Spec.Order less) : ∀ (l : List α), l ≠ [] → ∃ m a b, maxElement less l = some m ∧ l = a ++ m :: b ∧
    (∀ x ∈ l, less m x = false) ∧ ∀ x ∈ a, less x m = true := by
  intro l
  induction l with
  | nil => intro h; exact absurd rfl h
  | cons x l ih =>
    intro _
    cases l with
    | nil => exact ⟨x, [], [], rfl, rfl, fun y hy => by simp at hy; subst hy; exact o.irrefl y, fun y hy => by cases hy⟩
    | cons y r =>
      obtain ⟨m, a, b, h1, h2, h3, h4⟩ := ih (by simp)
      simp only [maxElement, h1]
      by_cases hx : less x m = true
      · rw [if_pos hx]
        refine ⟨m, x :: a, b, rfl, by rw [h2]; rfl, ?_, ?_⟩
        · intro z hz
          rcases List.mem_cons.mp hz with rfl | hz
          · cases hc : less m z with
            | false => rfl
            | true => exact absurd (o.trans _ _ _ hx hc) (by rw [o.irrefl]; simp)
          · exact h3 z hz
        · intro z hz
          rcases List.mem_cons.mp hz with rfl | hz
          · exact hx
          · exact h4 z hz
      · have hx' : less x m = false := by simpa using hx
        rw [if_neg hx]
        refine ⟨x, [], y :: r, rfl, rfl, ?_, fun z hz => by cases hz⟩
        intro z hz
        rcases List.mem_cons.mp hz with rfl | hz
        · exact o.irrefl z
        · exact o.incomp _ _ _ hx' (h3 z hz)

theorem minElement_spec {less : α → α → Bool} (o : Spec.Order less) : ∀ (l : List α), l ≠ [] → ∃ m a b, minElement less l = some m ∧ l = a ++ m :: b ∧
    (∀ x ∈ l, less x m = false) ∧ ∀ x ∈ b, less m x = true := by
  intro l
  induction l with
  | nil => intro h; exact absurd rfl h
  | cons x l ih =>
    intro _
    cases l with
    | nil => exact ⟨x, [], [], rfl, rfl, fun y hy => by simp at hy; subst hy; exact o.irrefl y, fun y hy => by cases hy⟩
    | cons y r =>
      obtain ⟨m, a, b, h1, h2, h3, h4⟩ := ih (by simp)
      simp only [minElement, h1]
      by_cases hx : less x m = true
      · rw [if_pos hx]
        refine ⟨x, [], y :: r, rfl, rfl, ?_, ?_⟩
        · intro z hz
          rcases List.mem_cons.mp hz with rfl | hz
          · exact o.irrefl z
          · cases hc : less z x with
            | false => rfl
            | true => exact absurd (o.trans _ _ _ hc hx) (by rw [h3 z hz]; simp)
        · intro z hz
          cases hc : less x z with
          | true => rfl
          | false => exact absurd hx (by rw [o.incomp _ _ _ hc (h3 z hz)]; simp)
      · have hx' : less x m = false := by simpa using hx
        rw [if_neg hx]
        refine ⟨m, x :: a, b, rfl, by rw [h2]; rfl, ?_, h4⟩
        intro z hz
        rcases List.mem_cons.mp hz with rfl | hz
        · exact hx'
        · exact h3 z hz

/-! ### Sorting -/

theorem sort_cons (less : α → α → Bool) (n : Nat) (x : α) (l : List α) :
    sort less (n + 1) (x :: l) = sort less n (l.filter (fun y => less y x)) ++ x :: sort less n (l.filter (fun y => !less y x)) := by
  simp [sort, merge_eq, copyIf_eq]

theorem sort_perm (less : α → α → Bool) : ∀ (n : Nat) (l : List α), l.length ≤ n → (sort less n l).Perm l := by
  intro n
  induction n with
  | zero => intro l h; cases l with
    | nil => exact .refl _
    | cons x l => simp at h
  | succ n ih =>
    intro l h
    cases l with
    | nil => exact .refl _
    | cons x l =>
      simp only [List.length_cons] at h
      rw [sort_cons]
      have h1 := ih (l.filter (fun y => less y x)) (by have := List.length_filter_le (fun y => less y x) l; omega)
      have h2 := ih (l.filter (fun y => !less y x)) (by have := List.length_filter_le (fun y => !less y x) l; omega)
      have h3 : (l.filter (fun y => less y x) ++ x :: l.filter (fun y => !less y x)).Perm (x :: l) :=
        List.perm_middle.trans (List.Perm.cons x (List.filter_append_perm (fun y => less y x) l))
      exact (List.Perm.append h1 (List.Perm.cons x h2)).trans h3

/-- **C134.**  `TypeListSort` gives the same types, in order, and keeps the order of equal ones. -/
theorem sort_spec {less : α → α → Bool} (o : Spec.Order less) (l : List α) :
    (sort less (length l) l).Perm l ∧ (sort less (length l) l).Pairwise (fun x y => less y x = false) ∧
    ∀ t, (sort less (length l) l).filter (fun y => !less y t && !less t y) = l.filter (fun y => !less y t && !less t y) := by
  rw [length_eq]
  have key : ∀ (n : Nat) (l : List α), l.length ≤ n → (sort less n l).Pairwise (fun x y => less y x = false) ∧
      ∀ t, (sort less n l).filter (fun y => !less y t && !less t y) = l.filter (fun y => !less y t && !less t y) := by
    intro n
    induction n with
    | zero => intro l h; cases l with
      | nil => exact ⟨.nil, fun t => rfl⟩
      | cons x l => simp at h
    | succ n ih =>
      intro l h
      cases l with
      | nil => exact ⟨.nil, fun t => rfl⟩
      | cons x l =>
        simp only [List.length_cons] at h
        rw [sort_cons]
        have l1 : (l.filter (fun y => less y x)).length ≤ n := by have := List.length_filter_le (fun y => less y x) l; omega
        have l2 : (l.filter (fun y => !less y x)).length ≤ n := by have := List.length_filter_le (fun y => !less y x) l; omega
        obtain ⟨a1, a2⟩ := ih _ l1
        obtain ⟨b1, b2⟩ := ih _ l2
        have m1 : ∀ z, z ∈ sort less n (l.filter (fun y => less y x)) → less z x = true := by
          intro z hz
          have := (sort_perm less n _ l1).subset hz
          simpa using (List.mem_filter.mp this).2
        have m2 : ∀ z, z ∈ sort less n (l.filter (fun y => !less y x)) → less z x = false := by
          intro z hz
          have := (sort_perm less n _ l2).subset hz
          simpa using (List.mem_filter.mp this).2
        constructor
        · rw [List.pairwise_append]
          refine ⟨a1, List.pairwise_cons.mpr ⟨fun z hz => m2 z hz, b1⟩, ?_⟩
          intro z hz w hw
          have hzx := m1 z hz
          rcases List.mem_cons.mp hw with rfl | hw
          · cases hc : less w z with
            | false => rfl
            | true => exact absurd (o.trans _ _ _ hzx hc) (by rw [o.irrefl]; simp)
          · cases hc : less w z with
            | false => rfl
            | true => exact absurd (o.trans _ _ _ hc hzx) (by rw [m2 w hw]; simp)
        · intro t
          rw [List.filter_append, a2 t, List.filter_cons, b2 t, List.filter_filter, List.filter_filter, List.filter_cons]
          by_cases ht : (!less x t && !less t x) = true
          · rw [if_pos ht, if_pos ht]
            simp only [Bool.and_eq_true, Bool.not_eq_true'] at ht
            have e1 : l.filter (fun y => (!less y t && !less t y) && less y x) = [] := by
              refine List.filter_eq_nil_iff.mpr ?_
              intro y _ hy
              simp only [Bool.and_eq_true, Bool.not_eq_true'] at hy
              have := o.incomp y t x hy.1.1 ht.2
              rw [this] at hy; simp at hy
            have e2 : l.filter (fun y => (!less y t && !less t y) && !less y x) = l.filter (fun y => !less y t && !less t y) := by
              refine List.filter_congr ?_
              intro y _
              cases h1 : less y t <;> cases h2 : less t y <;> simp
              exact o.incomp y t x h1 ht.2
            rw [e1, e2]; rfl
          · rw [if_neg ht, if_neg ht]
            -- equal ones are all on one side
            cases htx : less t x with
            | true =>
              have e1 : l.filter (fun y => (!less y t && !less t y) && less y x) = l.filter (fun y => !less y t && !less t y) := by
                refine List.filter_congr ?_
                intro y _
                cases h1 : less y t <;> cases h2 : less t y <;> simp
                cases hc : less y x with
                | true => rfl
                | false => exact absurd htx (by rw [o.incomp t y x h2 hc]; simp)
              have e2 : l.filter (fun y => (!less y t && !less t y) && !less y x) = [] := by
                refine List.filter_eq_nil_iff.mpr ?_
                intro y _ hy
                simp only [Bool.and_eq_true, Bool.not_eq_true'] at hy
                exact absurd htx (by rw [o.incomp t y x hy.1.2 hy.2]; simp)
              rw [e1, e2, List.append_nil]
            | false =>
              have hxt : less x t = true := by
                cases hc : less x t with
                | true => rfl
                | false => exact absurd (by rw [hc, htx]; rfl) ht
              have e1 : l.filter (fun y => (!less y t && !less t y) && less y x) = [] := by
                refine List.filter_eq_nil_iff.mpr ?_
                intro y _ hy
                simp only [Bool.and_eq_true, Bool.not_eq_true'] at hy
                exact absurd (o.trans y x t hy.2 hxt) (by rw [hy.1.1]; simp)
              have e2 : l.filter (fun y => (!less y t && !less t y) && !less y x) = l.filter (fun y => !less y t && !less t y) := by
                refine List.filter_congr ?_
                intro y _
                cases h1 : less y t <;> cases h2 : less t y <;> simp
                cases hc : less y x with
                | false => rfl
                | true => exact absurd (o.trans y x t hc hxt) (by rw [h1]; simp)
              rw [e1, e2, List.nil_append]
  obtain ⟨k1, k2⟩ := key l.length l (Nat.le_refl _)
  exact ⟨sort_perm less _ l (Nat.le_refl _), k1, k2⟩

/-! ### Trees -/

def Tree.inorder : Tree α → List α
  | .leaf => []
  | .branch x l r => l.inorder ++ x :: r.inorder

def Tree.depth : Tree α → Nat
  | .leaf => 0
  | .branch _ l r => max l.depth r.depth + 1

theorem treeImpl_spec (l : List α) : ∀ (n b e : Nat), b ≤ e → e ≤ l.length → e - b ≤ n → ∃ t, treeImpl l n b e = some t ∧ t.inorder = (l.drop b).take (e - b) ∧
    ∀ d, e - b < 2 ^ d → t.depth ≤ d := by
  intro n
  induction n with
  | zero =>
    intro b e h1 h2 h3
    have : b = e := by omega
    subst this
    exact ⟨.leaf, by simp [treeImpl], by simp [Tree.inorder], fun d _ => Nat.zero_le _⟩
  | succ n ih =>
    intro b e h1 h2 h3
    by_cases hbe : b = e
    · subst hbe
      exact ⟨.leaf, by simp [treeImpl], by simp [Tree.inorder], fun d _ => Nat.zero_le _⟩
    · generalize hm : b + (e - b) / 2 = m
      have hm1 : b ≤ m := by omega
      have hm2 : m < e := by omega
      obtain ⟨t, t1, t2, t3⟩ := ih b m hm1 (by omega) (by omega)
      obtain ⟨u, u1, u2, u3⟩ := ih (m + 1) e (by omega) h2 (by omega)
      have hx := List.getElem?_eq_getElem (show m < l.length by omega)
      refine ⟨.branch l[m] t u, ?_, ?_, ?_⟩
      · simp only [treeImpl, hbe, if_false, hm, item_eq, hx, t1, u1]
      · simp only [Tree.inorder]
        rw [t2, u2]
        have e1 : (l.drop b).take (e - b) = (l.drop b).take (m - b) ++ ((l.drop b).drop (m - b)).take (e - m) := by
          rw [show e - b = (m - b) + (e - m) by omega, List.take_add]
        rw [e1, List.drop_drop, show b + (m - b) = m by omega, List.drop_eq_getElem_cons (show m < l.length by omega), show e - m = (e - (m + 1)) + 1 by omega, List.take_succ_cons]
      · intro d hd
        cases d with
        | zero => simp at hd; omega
        | succ d =>
          rw [Nat.pow_succ] at hd
          have d1 := t3 d (by omega)
          have d2 := u3 d (by omega)
          simp only [Tree.depth]
          omega

theorem process_spec (tagOf : α → Int) (tag : Int) : ∀ (t : Tree α), t.inorder.Pairwise (fun x y => tagOf x < tagOf y) →
    (∀ x, (process tagOf tag t).1 = some x ↔ x ∈ t.inorder ∧ tagOf x = tag) ∧ (process tagOf tag t).2 ≤ t.depth := by
  intro t
  induction t with
  | leaf => intro _; exact ⟨by simp [process, Tree.inorder], Nat.zero_le _⟩
  | branch e l r ihl ihr =>
    intro h
    simp only [Tree.inorder] at h
    rw [List.pairwise_append] at h
    obtain ⟨p1, p2, p3⟩ := h
    obtain ⟨p4, p5⟩ := List.pairwise_cons.mp p2
    obtain ⟨l1, l2⟩ := ihl p1
    obtain ⟨r1, r2⟩ := ihr p5
    simp only [process, Tree.inorder, Tree.depth]
    by_cases he : tag = tagOf e
    · rw [if_pos he]
      refine ⟨?_, by simp only []; omega⟩
      intro x
      simp only [Option.some.injEq, List.mem_append, List.mem_cons]
      constructor
      · rintro rfl; exact ⟨Or.inr (Or.inl rfl), he.symm⟩
      · rintro ⟨h1 | h1 | h1, h2⟩
        · have := p3 x h1 e (by simp); omega
        · exact h1.symm
        · have := p4 x h1; omega
    · rw [if_neg he]
      by_cases hl : tag < tagOf e
      · rw [if_pos hl]
        refine ⟨?_, by simp only []; omega⟩
        intro x
        rw [l1 x]
        simp only [List.mem_append, List.mem_cons]
        constructor
        · rintro ⟨h1, h2⟩; exact ⟨Or.inl h1, h2⟩
        · rintro ⟨h1 | h1 | h1, h2⟩
          · exact ⟨h1, h2⟩
          · subst h1; omega
          · have := p4 x h1; omega
      · rw [if_neg hl]
        refine ⟨?_, by simp only []; omega⟩
        intro x
        rw [r1 x]
        simp only [List.mem_append, List.mem_cons]
        constructor
        · rintro ⟨h1, h2⟩; exact ⟨Or.inr (Or.inr h1), h2⟩
        · rintro ⟨h1 | h1 | h1, h2⟩
          · have := p3 x h1 e (by simp); omega
          · subst h1; omega
          · exact ⟨h1, h2⟩

/-- **C134.**  For every registry with different tags, in any order: `Invoke` calls the entry with the given tag, the function for unknown tags if there is none,
and looks at no more entries than the binary logarithm of their number, plus one. -/
theorem invoke_spec (tagOf : α → Int) (registry : List α) (hd : (registry.map tagOf).Nodup) (tag : Int) :
    ∃ r n, invoke tagOf registry tag = some (r, n) ∧ (∀ x, r = some x ↔ x ∈ registry ∧ tagOf x = tag) ∧ ∀ d, registry.length < 2 ^ d → n ≤ d := by
  have o : Spec.Order (fun a b => decide (tagOf a < tagOf b)) :=
    ⟨fun x => by simp, fun x y z h1 h2 => by simp at *; omega, fun x y z h1 h2 => by simp at *; omega⟩
  obtain ⟨s1, s2, _⟩ := sort_spec o registry
  have hlen := s1.length_eq
  obtain ⟨t, t1, t2, t3⟩ := treeImpl_spec (sort (fun a b => decide (tagOf a < tagOf b)) (length registry) registry) registry.length 0 registry.length (Nat.zero_le _) (by omega) (by omega)
  have hs : t.inorder = sort (fun a b => decide (tagOf a < tagOf b)) (length registry) registry := by
    rw [t2]; simp [← hlen]
  have hp : t.inorder.Pairwise (fun x y => tagOf x < tagOf y) := by
    rw [hs]
    have hnd : ((sort (fun a b => decide (tagOf a < tagOf b)) (length registry) registry).map tagOf).Nodup := (s1.map tagOf).nodup_iff.mpr hd
    have h3 := List.Pairwise.and s2 (List.pairwise_map.mp hnd)
    refine h3.imp ?_
    rintro x y ⟨h4, h5⟩
    simp only [decide_eq_false_iff_not] at h4
    omega
  obtain ⟨q1, q2⟩ := process_spec tagOf tag t hp
  refine ⟨(process tagOf tag t).1, (process tagOf tag t).2, ?_, ?_, ?_⟩
  · simp only [invoke, balanced]
    rw [length_eq (sort _ _ _), hlen, t1]; rfl
  · intro x
    rw [q1 x, hs, s1.mem_iff]
  · intro d hd'
    exact Nat.le_trans q2 (t3 d (by simpa using hd'))

/-- Tags registered twice: which entry is called is not the first one registered. -/
theorem invoke_duplicate_violated : ∃ (registry : List (Int × Nat)) (tag : Int), (∃ n, invoke (fun e => e.1) registry tag = some (some (1, 20), n)) ∧
    registry.find? (fun e => e.1 = tag) = some (1, 10) := by
  refine ⟨[(1, 10), (1, 20)], 1, ⟨1, by decide⟩, by decide⟩

example : invoke (fun e : Int × Nat => e.1) [(5, 0), (1, 1), (3, 2), (9, 3), (7, 4)] 7 = some (some (7, 4), 3) := by decide
example : invoke (fun e : Int × Nat => e.1) [(5, 0), (1, 1), (3, 2), (9, 3), (7, 4)] 8 = some (none, 3) := by decide
example : indexOf [3, 1, 3, 3, 2] 3 1 = some 2 := by decide
example : indexOf [3, 1, 3, 3, 2] 3 3 = none := by decide

end Verif.Meta.TypeList

import Verif.Coll.Kinds
/-
GenericList.
-/
namespace Verif.Coll
variable {α : Type}

/-! Positions -/

/-- The elements before an insertion stay, the new one is at the index, those after it move up by one; exactly when the index is not past the end. -/
theorem list_insert (xs : List α) (i : Nat) (v : α) :
    (i ≤ xs.length ∧ ∃ ys, Lst.insert xs i v = some ys ∧ ys.length = xs.length + 1 ∧
      ∀ j, Lst.get ys j = if j < i then Lst.get xs j else if j = i then some v else Lst.get xs (j - 1)) ∨
    (xs.length < i ∧ Lst.insert xs i v = none) := by
  unfold Lst.insert
  by_cases h : i ≤ xs.length
  · left
    refine ⟨h, _, if_pos h, ?_, ?_⟩
    · simp; omega
    · intro j
      have hget : ∀ (l : List α) (n : Nat), Lst.get l n = l[n]? := by
        intro l n; unfold Lst.get
        by_cases hn : n < l.length
        · rw [if_pos hn]
        · rw [if_neg hn, List.getElem?_eq_none (by omega)]
      rw [hget, hget, hget]
      by_cases h1 : j < i
      · rw [if_pos h1, List.getElem?_append_left (by simp; omega), List.getElem?_take_of_lt h1]
      · rw [if_neg h1, List.getElem?_append_right (by simp; omega)]
        have : (xs.take i).length = i := by simp; omega
        rw [this]
        by_cases h2 : j = i
        · subst h2; simp
        · rw [if_neg h2]
          have : j - i = (j - 1 - i) + 1 := by omega
          rw [this, List.getElem?_cons_succ, List.getElem?_drop]
          congr 1; omega
  · exact .inr ⟨by omega, if_neg h⟩

/-- Removal at an index. -/
theorem list_removeAt (xs : List α) (i : Nat) :
    (i < xs.length ∧ ∃ ys, Lst.removeAt xs i = some ys ∧ ys.length + 1 = xs.length ∧ ∀ j, Lst.get ys j = if j < i then Lst.get xs j else Lst.get xs (j + 1)) ∨
    (xs.length ≤ i ∧ Lst.removeAt xs i = none) := by
  unfold Lst.removeAt
  by_cases h : i < xs.length
  · left
    refine ⟨h, _, if_pos h, ?_, ?_⟩
    · rw [List.length_eraseIdx_of_lt h]; omega
    · intro j
      have hget : ∀ (l : List α) (n : Nat), Lst.get l n = l[n]? := by
        intro l n; unfold Lst.get
        by_cases hn : n < l.length
        · rw [if_pos hn]
        · rw [if_neg hn, List.getElem?_eq_none (by omega)]
      rw [hget, hget, hget, List.getElem?_eraseIdx]
  · exact .inr ⟨by omega, if_neg h⟩

/-- Replacing an element. -/
theorem list_set (xs : List α) (i : Nat) (v : α) :
    (i < xs.length ∧ ∃ ys, Lst.set xs i v = some ys ∧ ys.length = xs.length ∧ ∀ j, Lst.get ys j = if j = i then some v else Lst.get xs j) ∨
    (xs.length ≤ i ∧ Lst.set xs i v = none) := by
  unfold Lst.set
  by_cases h : i < xs.length
  · left
    refine ⟨h, _, if_pos h, by simp, ?_⟩
    intro j
    have hget : ∀ (l : List α) (n : Nat), Lst.get l n = l[n]? := by
      intro l n; unfold Lst.get
      by_cases hn : n < l.length
      · rw [if_pos hn]
      · rw [if_neg hn, List.getElem?_eq_none (by omega)]
    rw [hget, hget, List.getElem?_set]
    by_cases hj : j = i
    · subst hj; simp [h]
    · rw [if_neg (fun e => hj e.symm), if_neg hj]
  · exact .inr ⟨by omega, if_neg h⟩

/-- Adding appends. -/
theorem list_add (xs : List α) (v : α) : (Lst.add xs v).length = xs.length + 1 ∧
    ∀ j, Lst.get (Lst.add xs v) j = if j = xs.length then some v else Lst.get xs j := by
  refine ⟨by simp [Lst.add], ?_⟩
  intro j
  unfold Lst.get Lst.add
  by_cases h1 : j = xs.length
  · subst h1; simp
  · rw [if_neg h1]
    by_cases h2 : j < xs.length
    · rw [if_pos h2, if_pos (by simp; omega), List.getElem?_append_left h2]
    · rw [if_neg h2, if_neg (by simp; omega)]

/-- `Get` throws exactly where `TryGet` says false, and both have the element otherwise. -/
theorem list_get (xs : List α) (i : Nat) : Lst.tryGet xs i = Lst.get xs i ∧ ((Lst.get xs i).isSome = true ↔ i < xs.length) := by
  unfold Lst.tryGet Lst.get
  by_cases h : i < xs.length
  · rw [if_pos h, if_neg (by omega)]; simp [h]
  · rw [if_neg h, if_pos (by omega)]; simp [h]

/-- `IndexOf` is the first occurrence; `Contains` says whether there is one; `Remove` takes that one away. -/
theorem list_indexOf [DecidableEq α] (xs : List α) (v : α) :
    (v ∉ xs ∧ Lst.indexOf xs v = none ∧ Lst.contains xs v = false ∧ Lst.remove xs v = none) ∨
    (∃ pre post, xs = pre ++ v :: post ∧ v ∉ pre ∧ Lst.indexOf xs v = some pre.length ∧ Lst.contains xs v = true ∧ Lst.remove xs v = some (pre ++ post)) := by
  have key : (v ∉ xs ∧ xs.findIdx? (fun x => decide (x = v)) = none) ∨
      ∃ pre post, xs = pre ++ v :: post ∧ v ∉ pre ∧ xs.findIdx? (fun x => decide (x = v)) = some pre.length := by
    induction xs with
    | nil => exact .inl ⟨by simp, rfl⟩
    | cons x xs ih =>
      rw [List.findIdx?_cons]
      by_cases hx : x = v
      · exact .inr ⟨[], xs, by rw [hx]; rfl, by simp, by simp [hx]⟩
      · rcases ih with ⟨h1, h2⟩ | ⟨pre, post, h1, h2, h3⟩
        · exact .inl ⟨by simp only [List.mem_cons, not_or]; exact ⟨fun e => hx e.symm, h1⟩, by simp [hx, h2]⟩
        · exact .inr ⟨x :: pre, post, by rw [h1]; rfl, by simp only [List.mem_cons, not_or]; exact ⟨fun e => hx e.symm, h2⟩, by simp [hx, h3]⟩
  unfold Lst.remove Lst.contains Lst.indexOf
  rcases key with ⟨h1, h2⟩ | ⟨pre, post, h1, h2, h3⟩
  · exact .inl ⟨h1, h2, by rw [h2]; rfl, by rw [h2]⟩
  · refine .inr ⟨pre, post, h1, h2, h3, by rw [h3]; rfl, ?_⟩
    rw [h3]
    simp only []
    rw [h1, List.eraseIdx_append_of_length_le (by omega)]
    simp

/-! RemoveAll -/

theorem removeIfLoop_spec (p : α → Bool) (gone : α → α) : ∀ (n : Nat) (kept hole rest : List α), n = rest.length → hole ≠ [] →
    ∃ tail, Lst.removeIfLoop (fun x => some (p x)) gone n (kept.length + hole.length) kept.length (kept ++ hole ++ rest)
        = (kept ++ rest.filter (fun x => !p x) ++ tail, some (kept.length + (rest.filter (fun x => !p x)).length)) ∧
      tail.length = hole.length + (rest.filter p).length := by
  intro n
  induction n with
  | zero =>
    intro kept hole rest hn _
    have : rest = [] := List.length_eq_zero_iff.mp hn.symm
    subst this
    exact ⟨hole, by simp [Lst.removeIfLoop], by simp⟩
  | succ n ih =>
    intro kept hole rest hn hh
    cases rest with
    | nil => simp at hn
    | cons x rest =>
      have hi : (kept ++ hole ++ x :: rest)[kept.length + hole.length]? = some x := by
        rw [List.getElem?_append_right (by simp)]; simp
      simp only [Lst.removeIfLoop, hi]
      cases hp : p x with
      | true =>
        simp only []
        have := ih kept (hole ++ [x]) rest (by simpa using hn) (by simp)
        obtain ⟨tail, h1, h2⟩ := this
        refine ⟨tail, ?_, ?_⟩
        · have e1 : kept.length + (hole ++ [x]).length = kept.length + hole.length + 1 := by simp; omega
          have e2 : kept ++ (hole ++ [x]) ++ rest = kept ++ hole ++ x :: rest := by simp
          rw [e1, e2] at h1
          rw [h1, List.filter_cons_of_neg (by simp [hp])]
        · rw [h2, List.filter_cons_of_pos hp]; simp; omega
      | false =>
        simp only []
        cases hole with
        | nil => exact absurd rfl hh
        | cons y hole =>
          have e3 : ((kept ++ (y :: hole) ++ x :: rest).set kept.length x).set (kept.length + (y :: hole).length) (gone x) = (kept ++ [x]) ++ (hole ++ [gone x]) ++ rest := by
            have : kept ++ (y :: hole) ++ x :: rest = kept ++ (y :: (hole ++ x :: rest)) := by simp
            rw [this, List.set_append_right _ _ (by omega)]
            simp only [Nat.sub_self, List.set_cons_zero]
            have : kept ++ x :: (hole ++ x :: rest) = (kept ++ x :: hole) ++ x :: rest := by simp
            rw [this, List.set_append_right _ _ (by simp)]
            simp
          rw [e3]
          obtain ⟨tail, h1, h2⟩ := ih (kept ++ [x]) (hole ++ [gone x]) rest (by simpa using hn) (by simp)
          have e4 : (kept ++ [x]).length + (hole ++ [gone x]).length = kept.length + (y :: hole).length + 1 := by simp; omega
          have e5 : (kept ++ [x]).length = kept.length + 1 := by simp
          rw [e4, e5] at h1
          refine ⟨tail, ?_, ?_⟩
          · rw [h1, List.filter_cons_of_pos (by simp [hp])]
            simp; omega
          · rw [h2, List.filter_cons_of_neg (by simp [hp])]; simp

theorem removeIf_spec (p : α → Bool) (gone : α → α) : ∀ (n : Nat) (kept rest : List α), n = rest.length →
    ∃ tail, Lst.removeIf (fun x => some (p x)) gone n kept.length (kept ++ rest)
        = (kept ++ rest.filter (fun x => !p x) ++ tail, some (kept.length + (rest.filter (fun x => !p x)).length)) ∧
      tail.length = (rest.filter p).length := by
  intro n
  induction n with
  | zero =>
    intro kept rest hn
    have : rest = [] := List.length_eq_zero_iff.mp hn.symm
    subst this
    exact ⟨[], by simp [Lst.removeIf], by simp⟩
  | succ n ih =>
    intro kept rest hn
    cases rest with
    | nil => simp at hn
    | cons x rest =>
      have hi : (kept ++ x :: rest)[kept.length]? = some x := by
        rw [List.getElem?_append_right (by simp)]; simp
      simp only [Lst.removeIf, hi]
      cases hp : p x with
      | true =>
        simp only []
        obtain ⟨tail, h1, h2⟩ := removeIfLoop_spec p gone n kept [x] rest (by simpa using hn) (by simp)
        refine ⟨tail, ?_, ?_⟩
        · have e2 : kept ++ [x] ++ rest = kept ++ x :: rest := by simp
          rw [e2] at h1
          simp only [List.length_singleton] at h1
          rw [h1, List.filter_cons_of_neg (by simp [hp])]
        · rw [h2, List.filter_cons_of_pos hp]; simp; omega
      | false =>
        simp only []
        obtain ⟨tail, h1, h2⟩ := ih (kept ++ [x]) rest (by simpa using hn)
        have e5 : (kept ++ [x]).length = kept.length + 1 := by simp
        have e6 : kept ++ [x] ++ rest = kept ++ x :: rest := by simp
        rw [e5, e6] at h1
        refine ⟨tail, ?_, ?_⟩
        · rw [h1, List.filter_cons_of_pos (by simp [hp])]
          simp; omega
        · rw [h2, List.filter_cons_of_neg (by simp [hp])]

/-- RemoveAll with a predicate that does not throw: exactly the elements in question go, the others keep their order, the result is the number of those removed. -/
theorem list_removeAll_partial (p : α → Bool) (gone : α → α) (xs : List α) :
    Lst.removeAll (fun x => some (p x)) gone xs = (xs.filter (fun x => !p x), some (xs.countP p)) := by
  unfold Lst.removeAll
  obtain ⟨tail, h1, h2⟩ := removeIf_spec p gone xs.length [] xs rfl
  simp only [List.length_nil, List.nil_append, Nat.zero_add] at h1
  rw [h1]
  simp only []
  rw [List.take_left, List.length_append, Nat.add_sub_cancel_left, h2, List.countP_eq_length_filter]

/-- A predicate that throws on the way leaves a list that is neither the old one nor the old one with elements removed: an element is there twice. -/
theorem list_removeAll_violated :
    Lst.removeAll (fun x : Nat => if x = 3 then none else some (decide (x = 1))) id [1, 2, 3] = ([2, 2, 3], none) := by decide

/-- With elements that are emptied by being moved (strings, shared pointers) it is the moved-from value that remains. -/
theorem list_removeAll_moved_violated :
    Lst.removeAll (fun x : Option Nat => if x = some 3 then none else some (decide (x = some 1))) (fun _ => none) [some 1, some 2, some 3] = ([some 2, none, some 3], none) := by decide

example : Lst.removeAll (fun x : Nat => some (decide (x % 2 = 0))) (fun _ => 0) [1, 2, 3, 4, 5, 6, 7] = ([1, 3, 5, 7], some 3) := by decide
example : Lst.insert [1, 2, 3] 1 9 = some [1, 9, 2, 3] ∧ Lst.insert [1, 2, 3] 4 9 = none ∧ Lst.removeAt [1, 2, 3] 0 = some [2, 3] ∧ Lst.set [1, 2, 3] 2 7 = some [1, 2, 7] ∧ Lst.remove [1, 2, 1, 2] 2 = some [1, 1, 2] := by decide

end Verif.Coll

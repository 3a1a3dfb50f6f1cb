/-
Strict weak orderings given as a `Bool` comparer, strictly sorted sequences and `std::lower_bound` (library contract: the first position whose
element does not precede the key; on a sorted sequence this is what the binary search returns). Shared by the models of the sorted containers.
-/
namespace Verif.Order

/-- What the C++ library requires from a comparer.  For flat_map.h 126-292 and TransactionalSet.h 119-405. -/
structure StrictWeak {κ : Type} (lt : κ → κ → Bool) : Prop where
  irrefl : ∀ a, lt a a = false
  trans : ∀ a b c, lt a b = true → lt b c = true → lt a c = true
  incomp : ∀ a b c, lt a c = true → lt a b = true ∨ lt b c = true

section
variable {κ ε : Type}

/-- Keys that the comparer does not distinguish.  For flat_map.h 126-292 and TransactionalSet.h 119-405. -/
def equiv (lt : κ → κ → Bool) (a b : κ) : Bool := !lt a b && !lt b a

/-- `std::lower_bound` on entries with key function `f`.  For flat_map.h 126-292 and TransactionalSet.h 119-405. -/
def lowerBound (lt : κ → κ → Bool) (f : ε → κ) (l : List ε) (k : κ) : Nat := (l.takeWhile (fun e => lt (f e) k)).length

/-- Strictly ascending.  For flat_map.h 126-292 and TransactionalSet.h 119-405. -/
def Sorted (lt : κ → κ → Bool) (f : ε → κ) (l : List ε) : Prop := l.Pairwise (fun a b => lt (f a) (f b) = true)

theorem StrictWeak.asymm {lt : κ → κ → Bool} (h : StrictWeak lt) {a b : κ} (hab : lt a b = true) : lt b a = false := by
  cases hba : lt b a with
  | false => rfl
  | true => have := h.trans _ _ _ hab hba; rw [h.irrefl] at this; cases this

theorem equiv_iff {lt : κ → κ → Bool} {a b : κ} : equiv lt a b = true ↔ lt a b = false ∧ lt b a = false := by
  unfold equiv; cases lt a b <;> cases lt b a <;> simp

theorem equiv_comm {lt : κ → κ → Bool} (a b : κ) : equiv lt a b = equiv lt b a := by
  unfold equiv; cases lt a b <;> cases lt b a <;> rfl

theorem equiv_refl {lt : κ → κ → Bool} (h : StrictWeak lt) (a : κ) : equiv lt a a = true := by
  unfold equiv; rw [h.irrefl]; rfl

/-- Equivalent keys compare alike. -/
theorem StrictWeak.lt_of_equiv_left {lt : κ → κ → Bool} (h : StrictWeak lt) {a b c : κ} (he : equiv lt a b = true) (hbc : lt b c = true) :
    lt a c = true := by
  rw [equiv_iff] at he
  rcases h.incomp b a c hbc with h1 | h1
  · rw [he.2] at h1; cases h1
  · exact h1

theorem StrictWeak.lt_of_equiv_right {lt : κ → κ → Bool} (h : StrictWeak lt) {a b c : κ} (he : equiv lt b c = true) (hab : lt a b = true) :
    lt a c = true := by
  rw [equiv_iff] at he
  rcases h.incomp a c b hab with h1 | h1
  · exact h1
  · rw [he.2] at h1; cases h1

theorem equiv_trans {lt : κ → κ → Bool} (h : StrictWeak lt) {a b c : κ} (h1 : equiv lt a b = true) (h2 : equiv lt b c = true) : equiv lt a c = true := by
  rw [equiv_iff]
  constructor
  · cases hx : lt a c with
    | false => rfl
    | true =>
      have := h.lt_of_equiv_left (by rw [equiv_comm]; exact h1) hx
      rw [(equiv_iff.mp h2).1] at this; cases this
  · cases hx : lt c a with
    | false => rfl
    | true =>
      have := h.lt_of_equiv_left h2 hx
      rw [(equiv_iff.mp h1).2] at this; cases this

variable {lt : κ → κ → Bool} {f : ε → κ}

theorem lowerBound_le (l : List ε) (k : κ) : lowerBound lt f l k ≤ l.length := by
  unfold lowerBound
  exact (List.takeWhile_sublist _).length_le

theorem take_lowerBound (l : List ε) (k : κ) : l.take (lowerBound lt f l k) = l.takeWhile (fun e => lt (f e) k) := by
  exact (List.prefix_iff_eq_take.mp (List.takeWhile_prefix _)).symm

theorem drop_lowerBound (l : List ε) (k : κ) : l.drop (lowerBound lt f l k) = l.dropWhile (fun e => lt (f e) k) := by
  have h := List.takeWhile_append_dropWhile (p := fun e => lt (f e) k) (l := l)
  rw [← take_lowerBound] at h
  have h2 := List.take_append_drop (lowerBound lt f l k) l
  exact List.append_cancel_left (h2.trans h.symm)

theorem mem_takeWhile {p : ε → Bool} : ∀ {l : List ε} {x : ε}, x ∈ l.takeWhile p → p x = true
  | [], x, h => by cases h
  | a :: l, x, h => by
    rw [List.takeWhile_cons] at h
    split at h
    · rename_i ha
      rcases List.mem_cons.mp h with rfl | h
      · exact ha
      · exact mem_takeWhile h
    · cases h

theorem dropWhile_head {p : ε → Bool} : ∀ {l r : List ε} {x : ε}, l.dropWhile p = x :: r → p x = false
  | [], r, x, h => by cases h
  | a :: l, r, x, h => by
    rw [List.dropWhile_cons] at h
    split at h
    · exact dropWhile_head h
    · rename_i ha
      cases h
      simpa using ha

theorem getElem?_lowerBound (l : List ε) (k : κ) : l[lowerBound lt f l k]? = (l.dropWhile (fun e => lt (f e) k)).head? := by
  rw [← drop_lowerBound, List.head?_drop]

/-- At the lower bound there is no entry, or one after the key: then no entry is equivalent to the key, and inserting keeps the order. -/
theorem lowerBound_absent (h : StrictWeak lt) (l : List ε) (hs : Sorted lt f l) (k : κ)
    (hc : ∀ e, l[lowerBound lt f l k]? = some e → lt k (f e) = true) :
    (∀ e ∈ l, equiv lt (f e) k = false) ∧
    ∀ x : ε, f x = k → Sorted lt f (l.take (lowerBound lt f l k) ++ x :: l.drop (lowerBound lt f l k)) := by
  have hafter : ∀ e ∈ l.dropWhile (fun e => lt (f e) k), lt k (f e) = true := by
    rw [getElem?_lowerBound] at hc
    intro e he
    cases hd : l.dropWhile (fun e => lt (f e) k) with
    | nil => rw [hd] at he; cases he
    | cons y r =>
      rw [hd] at he hc
      have hy := hc y rfl
      rcases List.mem_cons.mp he with rfl | he
      · exact hy
      · have hsub : Sorted lt f (y :: r) := by
          rw [← hd]; exact List.Pairwise.sublist (List.dropWhile_sublist _) hs
        exact h.trans _ _ _ hy (List.rel_of_pairwise_cons hsub he)
  constructor
  · intro e he
    rw [← List.takeWhile_append_dropWhile (p := fun e => lt (f e) k) (l := l), List.mem_append] at he
    unfold equiv
    rcases he with he | he
    · rw [mem_takeWhile he]; rfl
    · rw [hafter e he]; simp
  · intro x hx
    rw [take_lowerBound, drop_lowerBound]
    unfold Sorted
    rw [List.pairwise_append]
    refine ⟨List.Pairwise.sublist (List.takeWhile_sublist _) hs, ?_, ?_⟩
    · rw [List.pairwise_cons]
      exact ⟨fun e he => by rw [hx]; exact hafter e he, List.Pairwise.sublist (List.dropWhile_sublist _) hs⟩
    · intro a ha b hb
      have h1 := mem_takeWhile ha
      rcases List.mem_cons.mp hb with rfl | hb
      · rw [hx]; exact h1
      · exact h.trans _ _ _ h1 (hafter b hb)

/-- At the lower bound there is an entry that is not after the key: it is equivalent to the key. -/
theorem lowerBound_present (l : List ε) (k : κ) (e : ε) (he : l[lowerBound lt f l k]? = some e) (hk : lt k (f e) = false) :
    e ∈ l ∧ equiv lt (f e) k = true := by
  rw [getElem?_lowerBound] at he
  cases hd : l.dropWhile (fun e => lt (f e) k) with
  | nil => rw [hd] at he; cases he
  | cons y r =>
    rw [hd] at he
    cases he
    refine ⟨?_, equiv_iff.mpr ⟨dropWhile_head (p := fun e => lt (f e) k) hd, hk⟩⟩
    apply (List.dropWhile_sublist (fun e => lt (f e) k)).subset
    rw [hd]; exact List.mem_cons_self

/-- In a strictly sorted sequence equivalent keys belong to the same position. -/
theorem sorted_unique (h : StrictWeak lt) : ∀ {l : List ε}, Sorted lt f l → ∀ {i j : Nat} {a b : ε}, l[i]? = some a → l[j]? = some b →
    equiv lt (f a) (f b) = true → i = j := by
  intro l hs i j a b hi hj he
  have key : ∀ {i j : Nat} {a b : ε}, l[i]? = some a → l[j]? = some b → i < j → lt (f a) (f b) = true := by
    intro i j a b hi hj hij
    obtain ⟨hi', rfl⟩ := List.getElem?_eq_some_iff.mp hi
    obtain ⟨hj', rfl⟩ := List.getElem?_eq_some_iff.mp hj
    exact List.pairwise_iff_getElem.mp hs i j hi' hj' hij
  rw [equiv_iff] at he
  rcases Nat.lt_trichotomy i j with hij | hij | hij
  · have := key hi hj hij; rw [he.1] at this; cases this
  · exact hij
  · have := key hj hi hij; rw [he.2] at this; cases this

end

theorem strictWeak_nat : StrictWeak (fun a b : Nat => decide (a < b)) :=
  ⟨by simp, by simp; omega, by simp; omega⟩

/-- A comparer that does not distinguish keys equal modulo 10. -/
theorem strictWeak_mod : StrictWeak (fun a b : Nat => decide (a % 10 < b % 10)) :=
  ⟨by simp, by simp; omega, by simp; omega⟩

end Verif.Order

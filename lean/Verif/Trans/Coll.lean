import Verif.Order.Basic
import Verif.Common
/-
`std::set` / `std::map` as strictly ascending lists of entries with a key function (`f = id` for sets, `f = Prod.fst` for maps), and facts about them
for comparers whose equivalence is equality.
-/
namespace Verif.Trans
open Verif.Order

section
variable {κ ε : Type}

/-- `find(key)` of `std::set`/`std::map`.  For TransactionalSet.h 119-405 and TransactionalDictionary.h 184-510. -/
def find (lt : κ → κ → Bool) (f : ε → κ) (l : List ε) (k : κ) : Option ε := l.find? (fun e => equiv lt (f e) k)

/-- `count(key) != 0`.  Of TransactionalSet.h 119-405 and TransactionalDictionary.h 184-510. -/
def has (lt : κ → κ → Bool) (f : ε → κ) (l : List ε) (k : κ) : Bool := (find lt f l k).isSome

/-- `insert`/`emplace`: nothing happens if the key is present.  For TransactionalSet.h 119-405 and TransactionalDictionary.h 184-510. -/
def insert (lt : κ → κ → Bool) (f : ε → κ) (l : List ε) (e : ε) : List ε :=
  if has lt f l (f e) then l else l.take (lowerBound lt f l (f e)) ++ e :: l.drop (lowerBound lt f l (f e))

/-- `erase(key)`.  For TransactionalSet.h 119-405 and TransactionalDictionary.h 184-510. -/
def erase (lt : κ → κ → Bool) (f : ε → κ) (l : List ε) (k : κ) : List ε := l.filter (fun e => !equiv lt (f e) k)

/-- From `lower_bound(key)` to `end()`.  For TransactionalSet.h 119-405 and TransactionalDictionary.h 184-510. -/
def fromLower (lt : κ → κ → Bool) (f : ε → κ) (l : List ε) (k : κ) : List ε := l.drop (lowerBound lt f l k)

/-- The comparer distinguishes all different keys.  For TransactionalSet.h 119-405 and TransactionalDictionary.h 184-510. -/
def Total (lt : κ → κ → Bool) : Prop := ∀ a b, equiv lt a b = true → a = b

variable {lt : κ → κ → Bool} {f : ε → κ}

theorem equiv_eq (h : StrictWeak lt) (ht : Total lt) {a b : κ} : equiv lt a b = true ↔ a = b :=
  ⟨ht a b, fun e => by rw [e]; exact equiv_refl h b⟩

theorem sorted_lt_or (h : StrictWeak lt) (ht : Total lt) (a b : κ) (hne : a ≠ b) : lt a b = true ∨ lt b a = true := by
  cases h1 : lt a b with
  | true => exact Or.inl rfl
  | false =>
    cases h2 : lt b a with
    | true => exact Or.inr rfl
    | false => exact absurd (ht a b (equiv_iff.mpr ⟨h1, h2⟩)) hne

theorem key_inj (h : StrictWeak lt) {l : List ε} (hs : Sorted lt f l) {a b : ε} (ha : a ∈ l) (hb : b ∈ l) (he : f a = f b) : a = b := by
  obtain ⟨i, hi, rfl⟩ := List.getElem_of_mem ha
  obtain ⟨j, hj, rfl⟩ := List.getElem_of_mem hb
  have := sorted_unique h hs (List.getElem?_eq_getElem hi) (List.getElem?_eq_getElem hj) (by rw [he]; exact equiv_refl h _)
  subst this; rfl

theorem find_some_iff (h : StrictWeak lt) (ht : Total lt) {l : List ε} (hs : Sorted lt f l) {k : κ} {e : ε} :
    find lt f l k = some e ↔ e ∈ l ∧ f e = k := by
  unfold find
  constructor
  · intro hf
    exact ⟨List.mem_of_find?_eq_some hf, ht _ _ (by simpa using List.find?_some hf)⟩
  · rintro ⟨hm, rfl⟩
    cases hf : l.find? (fun e' => equiv lt (f e') (f e)) with
    | none =>
      have := List.find?_eq_none.mp hf e hm
      rw [equiv_refl h] at this; exact absurd rfl this
    | some e' =>
      have h1 := List.mem_of_find?_eq_some hf
      have h2 := ht _ _ (by simpa using List.find?_some hf)
      rw [key_inj h hs h1 hm h2]

theorem has_iff (h : StrictWeak lt) (ht : Total lt) {l : List ε} {k : κ} : has lt f l k = true ↔ ∃ e ∈ l, f e = k := by
  unfold has find
  rw [List.find?_isSome]
  constructor
  · rintro ⟨e, hm, he⟩; exact ⟨e, hm, ht _ _ he⟩
  · rintro ⟨e, hm, rfl⟩; exact ⟨e, hm, equiv_refl h _⟩

theorem has_false (h : StrictWeak lt) (ht : Total lt) {l : List ε} {k : κ} : has lt f l k = false ↔ ∀ e ∈ l, f e ≠ k := by
  constructor
  · intro hf e hm he
    have : has lt f l k = true := (has_iff h ht).mpr ⟨e, hm, he⟩
    rw [hf] at this; cases this
  · intro hf
    cases hx : has lt f l k with
    | false => rfl
    | true =>
      obtain ⟨e, hm, he⟩ := (has_iff h ht).mp hx
      exact absurd he (hf e hm)

theorem insert_absent (h : StrictWeak lt) (ht : Total lt) {l : List ε} (hs : Sorted lt f l) {e : ε} (ha : has lt f l (f e) = false) :
    Sorted lt f (insert lt f l e) ∧ ∀ x, x ∈ insert lt f l e ↔ x ∈ l ∨ x = e := by
  have hab : ∀ y, l[lowerBound lt f l (f e)]? = some y → lt (f e) (f y) = true := by
    intro y hy
    cases hlt : lt (f e) (f y) with
    | true => rfl
    | false =>
      obtain ⟨h1, h2⟩ := lowerBound_present l (f e) y hy hlt
      exact absurd (ht _ _ h2) ((has_false h ht).mp ha y h1)
  have hb := lowerBound_absent h l hs (f e) hab
  unfold insert
  rw [ha]
  refine ⟨hb.2 e rfl, ?_⟩
  intro x
  simp only [Bool.false_eq_true, if_false, List.mem_append, List.mem_cons]
  constructor
  · rintro (hx | rfl | hx)
    · exact Or.inl (List.mem_of_mem_take hx)
    · exact Or.inr rfl
    · exact Or.inl (List.mem_of_mem_drop hx)
  · rintro (hx | rfl)
    · rw [← List.take_append_drop (lowerBound lt f l (f e)) l, List.mem_append] at hx
      rcases hx with hx | hx
      · exact Or.inl hx
      · exact Or.inr (Or.inr hx)
    · exact Or.inr (Or.inl rfl)

theorem sorted_insert (h : StrictWeak lt) (ht : Total lt) {l : List ε} (hs : Sorted lt f l) (e : ε) : Sorted lt f (insert lt f l e) := by
  cases ha : has lt f l (f e) with
  | true => unfold insert; rw [ha]; exact hs
  | false => exact (insert_absent h ht hs ha).1

theorem sorted_erase {l : List ε} (hs : Sorted lt f l) (k : κ) : Sorted lt f (erase lt f l k) := List.Pairwise.sublist List.filter_sublist hs

theorem sorted_filter {l : List ε} (hs : Sorted lt f l) (p : ε → Bool) : Sorted lt f (l.filter p) := List.Pairwise.sublist List.filter_sublist hs

theorem mem_erase (h : StrictWeak lt) (ht : Total lt) {l : List ε} {k : κ} {x : ε} : x ∈ erase lt f l k ↔ x ∈ l ∧ f x ≠ k := by
  unfold erase
  rw [List.mem_filter]
  constructor
  · rintro ⟨h1, h2⟩
    refine ⟨h1, fun e => ?_⟩
    rw [e, equiv_refl h] at h2; cases h2
  · rintro ⟨h1, h2⟩
    refine ⟨h1, ?_⟩
    cases he : equiv lt (f x) k with
    | false => rfl
    | true => exact absurd (ht _ _ he) h2

theorem sorted_nodup (h : StrictWeak lt) {l : List ε} (hs : Sorted lt f l) : l.Nodup := by
  refine List.Pairwise.imp ?_ hs
  intro a b hab e
  rw [e, h.irrefl] at hab; cases hab

/-- Strictly ascending lists with the same elements are the same. -/
theorem sorted_ext (h : StrictWeak lt) : ∀ {l m : List ε}, Sorted lt f l → Sorted lt f m → (∀ x, x ∈ l ↔ x ∈ m) → l = m
  | [], [], _, _, _ => rfl
  | [], b :: m, _, _, hx => by have := (hx b).mpr (by simp); cases this
  | a :: l, [], _, _, hx => by have := (hx a).mp (by simp); cases this
  | a :: l, b :: m, hl, hm, hx => by
    have hab : a = b := by
      rcases List.mem_cons.mp ((hx a).mp (by simp)) with e | e
      · exact e
      · rcases List.mem_cons.mp ((hx b).mpr (by simp)) with e' | e'
        · exact e'.symm
        · have h1 := List.rel_of_pairwise_cons hm e
          have h2 := List.rel_of_pairwise_cons hl e'
          have := h.asymm h1
          rw [h2] at this; cases this
    subst hab
    congr 1
    refine sorted_ext h (List.Pairwise.of_cons hl) (List.Pairwise.of_cons hm) ?_
    intro x
    constructor
    · intro hxl
      rcases List.mem_cons.mp ((hx x).mp (List.mem_cons_of_mem _ hxl)) with e | e
      · have := List.rel_of_pairwise_cons hl hxl
        rw [e, h.irrefl] at this; cases this
      · exact e
    · intro hxm
      rcases List.mem_cons.mp ((hx x).mpr (List.mem_cons_of_mem _ hxm)) with e | e
      · have := List.rel_of_pairwise_cons hm hxm
        rw [e, h.irrefl] at this; cases this
      · exact e

/-- The reversed comparer. -/
theorem strictWeak_flip (h : StrictWeak lt) : StrictWeak (fun a b => lt b a) :=
  ⟨h.irrefl, fun a b c h1 h2 => h.trans c b a h2 h1, fun a b c h1 => (h.incomp c b a h1).symm⟩

theorem sorted_reverse {l : List ε} (hs : Sorted lt f l) : Sorted (fun a b => lt b a) f l.reverse := by
  unfold Sorted at hs ⊢
  rw [List.pairwise_reverse]; exact hs

/-- What is from the lower bound on. -/
theorem mem_fromLower (h : StrictWeak lt) {l : List ε} (hs : Sorted lt f l) (k : κ) (x : ε) : x ∈ fromLower lt f l k ↔ x ∈ l ∧ lt (f x) k = false := by
  unfold fromLower
  rw [drop_lowerBound]
  constructor
  · intro hx
    refine ⟨(List.dropWhile_sublist _).subset hx, ?_⟩
    cases hd : l.dropWhile (fun e => lt (f e) k) with
    | nil => rw [hd] at hx; cases hx
    | cons y r =>
      have hy := dropWhile_head (p := fun e => lt (f e) k) hd
      have hsub : Sorted lt f (y :: r) := by rw [← hd]; exact List.Pairwise.sublist (List.dropWhile_sublist _) hs
      rw [hd] at hx
      rcases List.mem_cons.mp hx with rfl | hx
      · exact hy
      · have h1 := List.rel_of_pairwise_cons hsub hx
        cases h2 : lt (f x) k with
        | false => rfl
        | true => have h3 : lt (f y) k = true := h.trans _ _ _ h1 h2
                  rw [hy] at h3; cases h3
  · rintro ⟨h1, h2⟩
    rw [← List.takeWhile_append_dropWhile (p := fun e => lt (f e) k) (l := l), List.mem_append] at h1
    rcases h1 with h1 | h1
    · have := mem_takeWhile (p := fun e => lt (f e) k) h1
      rw [h2] at this; cases this
    · exact h1

theorem sorted_fromLower {l : List ε} (hs : Sorted lt f l) (k : κ) : Sorted lt f (fromLower lt f l k) := List.Pairwise.sublist (List.drop_sublist _ _) hs

/-- Number of elements of sorted lists with the same elements up to exchange: `cur` is `items` without `removed`, with `added`. -/
theorem length_of_mem (h : StrictWeak lt) {items added removed cur : List ε} (hi : Sorted lt f items) (ha : Sorted lt f added) (hr : Sorted lt f removed)
    (hc : Sorted lt f cur) (hsub : ∀ e ∈ removed, e ∈ items) (hnew : ∀ e ∈ added, e ∉ items) [DecidableEq ε]
    (hm : ∀ e, e ∈ cur ↔ e ∈ added ∨ (e ∈ items ∧ e ∉ removed)) : cur.length + removed.length = items.length + added.length := by
  have hp : (cur ++ removed).Perm (items ++ added) := by
    rw [List.perm_iff_count]
    intro a
    rw [List.count_append, List.count_append]
    rw [(sorted_nodup h hc).count, (sorted_nodup h hr).count, (sorted_nodup h hi).count, (sorted_nodup h ha).count]
    have h1 := hm a
    have h2 := hsub a
    have h3 := hnew a
    by_cases c1 : a ∈ cur <;> by_cases c2 : a ∈ removed <;> by_cases c3 : a ∈ items <;> by_cases c4 : a ∈ added <;>
      simp only [c1, c2, c3, c4, if_true, if_false] <;> simp [c1, c2, c3, c4] at h1 h2 h3
  have := hp.length_eq
  simpa using this

end
end Verif.Trans

import Verif.Trans.Spec
/- The merged enumerator and the diff enumerator. -/
namespace Verif.Trans
open Verif.Order

section
variable {κ ε : Type} {lt : κ → κ → Bool} {f : ε → κ}

/-- The rest of an enumeration from a cursor, before `UpdateEntryType()`.  For TransactionHelpers.h 33-215. -/
def cont (lt : κ → κ → Bool) (f : ε → κ) (k K n : Nat) (c : Cursor ε) : Option (List ε) :=
  match update lt f c with
  | none => none
  | some .removed => (next lt f k c .removed).bind (fun r => collect lt f K n r.1 r.2)
  | some e => collect lt f K n c e

theorem next_bind (k K n : Nat) (c c' : Cursor ε) (e : Entry) (ha : advance c e = some c') :
    (next lt f (k + 1) c e).bind (fun r => collect lt f K n r.1 r.2) = cont lt f k K n c' := by
  simp only [next, ha, cont]
  cases update lt f c' with
  | none => rfl
  | some e' => cases e' <;> rfl

theorem collect_valid (K n : Nat) (c c' : Cursor ε) (e : Entry) (x : ε) (he : e = .items ∨ e = .added) (ha : advance c e = some c') (hg : get c e = some x) :
    collect lt f (K + 1) (n + 1) c e = (cont lt f K (K + 1) n c').map (x :: ·) := by
  rw [← next_bind K (K + 1) n c c' e ha]
  simp only [collect, if_pos he, hg]
  cases next lt f (K + 1) c e <;> rfl

theorem sorted_head_le (h : StrictWeak lt) {i x : ε} {l : List ε} (hs : Sorted lt f (i :: l)) (hx : x ∈ i :: l) : lt (f x) (f i) = false := by
  rcases List.mem_cons.mp hx with e | hx
  · rw [e]; exact h.irrefl _
  · exact h.asymm (List.rel_of_pairwise_cons hs hx)

theorem not_lt_trans (h : StrictWeak lt) {a b c : κ} (h1 : lt a b = true) (h2 : lt c b = false) : lt a c = true := by
  rcases h.incomp a c b h1 with h3 | h3
  · exact h3
  · rw [h2] at h3; cases h3

/-- Equivalent entries of a strictly ascending list are the same. -/
theorem equiv_inj (h : StrictWeak lt) {l : List ε} (hs : Sorted lt f l) {a b : ε} (ha : a ∈ l) (hb : b ∈ l) (he : equiv lt (f a) (f b) = true) : a = b := by
  obtain ⟨i, hi, rfl⟩ := List.getElem_of_mem ha
  obtain ⟨j, hj, rfl⟩ := List.getElem_of_mem hb
  have := sorted_unique h hs (List.getElem?_eq_getElem hi) (List.getElem?_eq_getElem hj) he
  subst this; rfl

theorem cont_spec (h : StrictWeak lt) : ∀ (m : Nat) (its adds rems : List ε) (k K n : Nat), its.length + adds.length ≤ m →
    its.length ≤ k → its.length + 1 ≤ K → m + 1 ≤ n →
    Sorted lt f its → Sorted lt f adds → Sorted lt f rems → (∀ e ∈ rems, e ∈ its) → (∀ a ∈ adds, ∀ i ∈ its, equiv lt (f a) (f i) = true → i ∈ rems) →
    ∃ out, cont lt f k K n ⟨its, adds, rems⟩ = some out ∧ Sorted lt f out ∧ ∀ e, e ∈ out ↔ e ∈ adds ∨ (e ∈ its ∧ e ∉ rems) := by
  intro m
  induction m with
  | zero =>
    intro its adds rems k K n hm hk hK hn _ _ _ _ _
    have h1 : its = [] := List.length_eq_zero_iff.mp (by omega)
    have h2 : adds = [] := List.length_eq_zero_iff.mp (by omega)
    subst h1 h2
    obtain ⟨n, rfl⟩ : ∃ n', n = n' + 1 := ⟨n - 1, by omega⟩
    exact ⟨[], by simp [cont, update, collect], List.Pairwise.nil, by simp⟩
  | succ m ih =>
    intro its adds rems k K n hm hk hK hn hi ha hr hsub hdis
    obtain ⟨n, rfl⟩ : ∃ n', n = n' + 1 := ⟨n - 1, by omega⟩
    obtain ⟨K, rfl⟩ : ∃ K', K = K' + 1 := ⟨K - 1, by omega⟩
    -- taking from `adds`
    have takeAdded : ∀ a adds', adds = a :: adds' → (∀ i ∈ its, lt (f a) (f i) = true) → update lt f ⟨its, adds, rems⟩ = some .added →
        ∃ out, cont lt f k (K + 1) (n + 1) ⟨its, adds, rems⟩ = some out ∧ Sorted lt f out ∧ ∀ e, e ∈ out ↔ e ∈ adds ∨ (e ∈ its ∧ e ∉ rems) := by
      intro a adds' hadds hlt hu
      subst hadds
      obtain ⟨out, h1, h2, h3⟩ := ih its adds' rems K (K + 1) n (by simp only [List.length_cons] at hm; omega) (by omega) hK (by omega) hi
        (List.Pairwise.of_cons ha) hr hsub (fun x hx => hdis x (List.mem_cons_of_mem _ hx))
      refine ⟨a :: out, ?_, ?_, ?_⟩
      · simp only [cont, hu]
        rw [collect_valid K n _ ⟨its, adds', rems⟩ .added a (Or.inr rfl) rfl rfl, h1]; rfl
      · refine List.pairwise_cons.mpr ⟨?_, h2⟩
        intro x hx
        rcases (h3 x).mp hx with hx | hx
        · exact List.rel_of_pairwise_cons ha hx
        · exact hlt x hx.1
      · intro e
        rw [List.mem_cons, h3, List.mem_cons, or_assoc]
    cases its with
    | nil =>
      cases adds with
      | nil =>
        exact ⟨[], by simp [cont, update, collect], List.Pairwise.nil, by simp⟩
      | cons a adds => exact takeAdded a adds rfl (by intro i hi; cases hi) rfl
    | cons i its =>
      -- is the first added entry smaller?
      by_cases hadd : addedFirst lt f adds i = true
      · cases adds with
        | nil => cases hadd
        | cons a adds =>
          have hadd : lt (f a) (f i) = true := hadd
          refine takeAdded a adds rfl ?_ (by simp [update, addedFirst, hadd])
          intro x hx
          exact not_lt_trans h hadd (sorted_head_le h hi hx)
      · have hadd' : addedFirst lt f adds i = false := Bool.eq_false_iff.mpr hadd
        have hage : ∀ a ∈ adds, lt (f a) (f i) = false := by
          intro a hain
          cases adds with
          | nil => cases hain
          | cons b adds =>
            have hadd' : lt (f b) (f i) = false := hadd'
            cases hx : lt (f a) (f i) with
            | false => rfl
            | true =>
              rcases List.mem_cons.mp hain with e | hm'
              · rw [← e, hx] at hadd'; cases hadd'
              · have := h.trans _ _ _ (List.rel_of_pairwise_cons ha hm') hx
                rw [hadd'] at this; cases this
        -- taking from `its`
        have takeItem : (∀ r ∈ rems, lt (f i) (f r) = true) → update lt f ⟨i :: its, adds, rems⟩ = some .items →
            ∃ out, cont lt f k (K + 1) (n + 1) ⟨i :: its, adds, rems⟩ = some out ∧ Sorted lt f out ∧ ∀ e, e ∈ out ↔ e ∈ adds ∨ (e ∈ i :: its ∧ e ∉ rems) := by
          intro hlt hu
          have hin : i ∉ rems := by
            intro hm'; have := hlt i hm'; rw [h.irrefl] at this; cases this
          have hsub' : ∀ e ∈ rems, e ∈ its := by
            intro e he
            rcases List.mem_cons.mp (hsub e he) with e' | e'
            · rw [e'] at he; exact absurd he hin
            · exact e'
          obtain ⟨out, h1, h2, h3⟩ := ih its adds rems K (K + 1) n (by simp only [List.length_cons] at hm; omega) (by simp only [List.length_cons] at hK; omega)
            (by simp only [List.length_cons] at hK; omega) (by omega) (List.Pairwise.of_cons hi) ha hr hsub'
            (fun x hx y hy => hdis x hx y (List.mem_cons_of_mem _ hy))
          refine ⟨i :: out, ?_, ?_, ?_⟩
          · simp only [cont, hu]
            rw [collect_valid K n _ ⟨its, adds, rems⟩ .items i (Or.inl rfl) rfl rfl, h1]; rfl
          · refine List.pairwise_cons.mpr ⟨?_, h2⟩
            intro x hx
            rcases (h3 x).mp hx with hx | hx
            · cases hlt' : lt (f i) (f x) with
              | true => rfl
              | false => exact absurd (hdis x hx i (by simp) (equiv_iff.mpr ⟨hage x hx, hlt'⟩)) hin
            · exact List.rel_of_pairwise_cons hi hx.1
          · intro e
            rw [List.mem_cons, h3, List.mem_cons]
            constructor
            · rintro (e' | e' | e')
              · exact Or.inr ⟨Or.inl e', by rw [e']; exact hin⟩
              · exact Or.inl e'
              · exact Or.inr ⟨Or.inr e'.1, e'.2⟩
            · rintro (e' | ⟨e' | e', e''⟩)
              · exact Or.inr (Or.inl e')
              · exact Or.inl e'
              · exact Or.inr (Or.inr ⟨e', e''⟩)
        cases rems with
        | nil => exact takeItem (by intro r hr; cases hr) (by simp only [update, hadd', Bool.false_eq_true, if_false])
        | cons r rems =>
          have hri : lt (f r) (f i) = false := sorted_head_le h hi (hsub r (by simp))
          cases hir : lt (f i) (f r) with
          | true =>
            refine takeItem ?_ (by simp only [update, hadd', hir, Bool.false_eq_true, if_false, if_true])
            intro x hx
            rcases List.mem_cons.mp hx with e | hx
            · rw [e]; exact hir
            · exact h.trans _ _ _ hir (List.rel_of_pairwise_cons hr hx)
          | false =>
            have hre : r = i := equiv_inj h hi (hsub r (by simp)) (by simp) (equiv_iff.mpr ⟨hri, hir⟩)
            subst hre
            have hu : update lt f ⟨r :: its, adds, r :: rems⟩ = some .removed := by
              simp only [update, hadd', hir, Bool.false_eq_true, if_false]
            obtain ⟨k, rfl⟩ : ∃ k', k = k' + 1 := ⟨k - 1, by simp only [List.length_cons] at hk; omega⟩
            have hrr : r ∉ rems := by
              intro hm'; have := List.rel_of_pairwise_cons hr hm'; rw [h.irrefl] at this; cases this
            have hri' : r ∉ its := by
              intro hm'; have := List.rel_of_pairwise_cons hi hm'; rw [h.irrefl] at this; cases this
            obtain ⟨out, h1, h2, h3⟩ := ih its adds rems k (K + 1) (n + 1) (by simp only [List.length_cons] at hm; omega) (by simp only [List.length_cons] at hk; omega)
              (by simp only [List.length_cons] at hK; omega) (by omega) (List.Pairwise.of_cons hi) ha (List.Pairwise.of_cons hr)
              (by intro e he
                  rcases List.mem_cons.mp (hsub e (List.mem_cons_of_mem _ he)) with e' | e'
                  · rw [e'] at he; exact absurd he hrr
                  · exact e')
              (by intro x hx y hy he
                  rcases List.mem_cons.mp (hdis x hx y (List.mem_cons_of_mem _ hy) he) with e' | e'
                  · rw [e'] at hy; exact absurd hy hri'
                  · exact e')
            refine ⟨out, ?_, h2, ?_⟩
            · rw [← h1]
              conv => lhs; unfold cont
              rw [hu]
              exact next_bind k (K + 1) (n + 1) _ _ .removed rfl
            · intro e
              rw [h3]
              constructor
              · rintro (e' | ⟨e', e''⟩)
                · exact Or.inl e'
                · refine Or.inr ⟨List.mem_cons_of_mem _ e', fun hm' => ?_⟩
                  rcases List.mem_cons.mp hm' with e3 | e3
                  · rw [e3] at e'; exact hri' e'
                  · exact e'' e3
              · rintro (e' | ⟨e', e''⟩)
                · exact Or.inl e'
                · rcases List.mem_cons.mp e' with e3 | e3
                  · rw [e3] at e''; exact absurd (List.mem_cons_self) e''
                  · exact Or.inr ⟨e3, fun hm' => e'' (List.mem_cons_of_mem _ hm')⟩

/-- Exhausting the merged enumerator. -/
theorem enumerate_spec (h : StrictWeak lt) {its adds rems : List ε} (hi : Sorted lt f its) (ha : Sorted lt f adds) (hr : Sorted lt f rems)
    (hsub : ∀ e ∈ rems, e ∈ its) (hdis : ∀ a ∈ adds, ∀ i ∈ its, equiv lt (f a) (f i) = true → i ∈ rems) :
    ∃ out, enumerate lt f its adds rems = some out ∧ Sorted lt f out ∧ ∀ e, e ∈ out ↔ e ∈ adds ∨ (e ∈ its ∧ e ∉ rems) := by
  obtain ⟨out, h1, h2⟩ := cont_spec h (its.length + adds.length) its adds rems (its.length + adds.length + 1) (its.length + adds.length + 1)
    (its.length + adds.length + 1) (Nat.le_refl _) (by omega) (by omega) (Nat.le_refl _) hi ha hr hsub hdis
  refine ⟨out, ?_, h2⟩
  rw [← h1]
  unfold enumerate cont
  cases update lt f ⟨its, adds, rems⟩ with
  | none => rfl
  | some e =>
    cases e with
    | removed => cases next lt f (its.length + adds.length + 1) ⟨its, adds, rems⟩ .removed <;> rfl
    | none => rfl
    | items => rfl
    | added => rfl

/-- The elements a backward search starts with. -/
theorem revUpTo_spec (h : StrictWeak lt) {l : List ε} (hs : Sorted lt f l) (k : κ) :
    revUpTo lt f l k = (l.filter (fun e => !lt k (f e))).reverse := by
  have htake : ∀ n, (∀ e ∈ l.take n, lt k (f e) = false) → (∀ e ∈ l.drop n, lt k (f e) = true) → l.filter (fun e => !lt k (f e)) = l.take n := by
    intro n h1 h2
    conv => lhs; rw [← List.take_append_drop n l]
    rw [List.filter_append, List.filter_eq_self.mpr, List.filter_eq_nil_iff.mpr, List.append_nil]
    · intro e he; rw [h2 e he]; simp
    · intro e he; rw [h1 e he]; simp
  have hlow : ∀ e ∈ l.take (lowerBound lt f l k), lt k (f e) = false := by
    intro e he
    rw [take_lowerBound] at he
    exact h.asymm (mem_takeWhile (p := fun e => lt (f e) k) he)
  unfold revUpTo
  cases hx : l[lowerBound lt f l k]? with
  | none =>
    simp only
    rw [htake (lowerBound lt f l k) hlow]
    intro e he
    rw [List.drop_eq_nil_of_le (List.getElem?_eq_none_iff.mp hx)] at he; cases he
  | some y =>
    obtain ⟨hlen, hy⟩ := List.getElem?_eq_some_iff.mp hx
    have hd : l.drop (lowerBound lt f l k) = y :: l.drop (lowerBound lt f l k + 1) := by
      rw [← hy]; exact List.drop_eq_getElem_cons hlen
    have hsd : Sorted lt f (y :: l.drop (lowerBound lt f l k + 1)) := by rw [← hd]; exact List.Pairwise.sublist (List.drop_sublist _ _) hs
    have hyk : lt (f y) k = false := by
      have := (mem_fromLower h hs k y).mp (by unfold fromLower; rw [hd]; simp)
      exact this.2
    cases hk : lt k (f y) with
    | true =>
      simp only [hk, if_true]
      rw [htake (lowerBound lt f l k) hlow]
      intro e he
      rw [hd] at he
      rcases List.mem_cons.mp he with e' | he
      · rw [e']; exact hk
      · exact h.trans _ _ _ hk (List.rel_of_pairwise_cons hsd he)
    | false =>
      simp only [hk, Bool.false_eq_true, if_false]
      rw [htake (lowerBound lt f l k + 1)]
      · intro e he
        rw [List.take_add_one, hx] at he
        rcases List.mem_append.mp he with he | he
        · exact hlow e he
        · simp only [Option.toList_some, List.mem_singleton] at he
          rw [he]; exact hk
      · intro e he
        have h1 := List.rel_of_pairwise_cons hsd he
        exact h.lt_of_equiv_left (equiv_iff.mpr ⟨hk, hyk⟩) h1

theorem dcollect_spec (h : StrictWeak lt) (ht : Total lt) : ∀ (n : Nat) (adds rems : List ε), adds.length + rems.length ≤ n →
    Sorted lt f adds → Sorted lt f rems →
    (∀ e, (DiffOp.added, e) ∈ dcollect lt f n adds rems ↔ e ∈ adds) ∧ (∀ e, (DiffOp.removed, e) ∈ dcollect lt f n adds rems ↔ e ∈ rems) ∧
    (dcollect lt f n adds rems).Pairwise (fun x y => lt (f x.2) (f y.2) = true ∨ (f x.2 = f y.2 ∧ x.1 = .removed ∧ y.1 = .added)) := by
  intro n
  induction n with
  | zero =>
    intro adds rems hn _ _
    have h1 : adds = [] := List.length_eq_zero_iff.mp (by omega)
    have h2 : rems = [] := List.length_eq_zero_iff.mp (by omega)
    subst h1 h2
    simp [dcollect]
  | succ n ih =>
    intro adds rems hn ha hr
    have takeA : ∀ a adds', adds = a :: adds' → (∀ r ∈ rems, lt (f a) (f r) = true) → dupdate lt f adds rems = some .added →
        (∀ e, (DiffOp.added, e) ∈ dcollect lt f (n + 1) adds rems ↔ e ∈ adds) ∧ (∀ e, (DiffOp.removed, e) ∈ dcollect lt f (n + 1) adds rems ↔ e ∈ rems) ∧
        (dcollect lt f (n + 1) adds rems).Pairwise (fun x y => lt (f x.2) (f y.2) = true ∨ (f x.2 = f y.2 ∧ x.1 = .removed ∧ y.1 = .added)) := by
      intro a adds' hadds hlt hu
      subst hadds
      obtain ⟨h1, h2, h3⟩ := ih adds' rems (by simp only [List.length_cons] at hn; omega) (List.Pairwise.of_cons ha) hr
      simp only [dcollect, hu]
      refine ⟨?_, ?_, ?_⟩
      · intro e; simp only [List.mem_cons, Prod.mk.injEq, true_and]; rw [h1]
      · intro e; simp only [List.mem_cons, Prod.mk.injEq, reduceCtorEq, false_and, false_or]; rw [h2]
      · refine List.pairwise_cons.mpr ⟨?_, h3⟩
        rintro ⟨o, x⟩ hx
        left
        cases o with
        | added => exact List.rel_of_pairwise_cons ha ((h1 x).mp hx)
        | removed => exact hlt x ((h2 x).mp hx)
    cases rems with
    | nil =>
      cases adds with
      | nil => simp [dcollect, dupdate]
      | cons a adds => exact takeA a adds rfl (by intro r hr; cases hr) rfl
    | cons r rems =>
      have takeR : (∀ a ∈ adds, lt (f a) (f r) = false) → dupdate lt f adds (r :: rems) = some .removed →
        (∀ e, (DiffOp.added, e) ∈ dcollect lt f (n + 1) adds (r :: rems) ↔ e ∈ adds) ∧ (∀ e, (DiffOp.removed, e) ∈ dcollect lt f (n + 1) adds (r :: rems) ↔ e ∈ r :: rems) ∧
        (dcollect lt f (n + 1) adds (r :: rems)).Pairwise (fun x y => lt (f x.2) (f y.2) = true ∨ (f x.2 = f y.2 ∧ x.1 = .removed ∧ y.1 = .added)) := by
        intro hge hu
        obtain ⟨h1, h2, h3⟩ := ih adds rems (by simp only [List.length_cons] at hn; omega) ha (List.Pairwise.of_cons hr)
        simp only [dcollect, hu]
        refine ⟨?_, ?_, ?_⟩
        · intro e; simp only [List.mem_cons, Prod.mk.injEq, reduceCtorEq, false_and, false_or]; rw [h1]
        · intro e; simp only [List.mem_cons, Prod.mk.injEq, true_and]; rw [h2]
        · refine List.pairwise_cons.mpr ⟨?_, h3⟩
          rintro ⟨o, x⟩ hx
          cases o with
          | added =>
            have hxa := (h1 x).mp hx
            cases hlt : lt (f r) (f x) with
            | true => exact Or.inl rfl
            | false => exact Or.inr ⟨ht _ _ (equiv_iff.mpr ⟨hlt, hge x hxa⟩), rfl, rfl⟩
          | removed => exact Or.inl (List.rel_of_pairwise_cons hr ((h2 x).mp hx))
      cases adds with
      | nil => exact takeR (by intro a ha; cases ha) rfl
      | cons a adds =>
        cases hlt : lt (f a) (f r) with
        | true =>
          refine takeA a adds rfl ?_ (by simp [dupdate, hlt])
          intro x hx
          rcases List.mem_cons.mp hx with e | hx
          · rw [e]; exact hlt
          · exact h.trans _ _ _ hlt (List.rel_of_pairwise_cons hr hx)
        | false =>
          refine takeR ?_ (by simp [dupdate, hlt])
          intro x hx
          rcases List.mem_cons.mp hx with e | hx
          · rw [e]; exact hlt
          · cases hx' : lt (f x) (f r) with
            | false => rfl
            | true =>
              have := h.trans _ _ _ (List.rel_of_pairwise_cons ha hx) hx'
              rw [hlt] at this; cases this

end
end Verif.Trans

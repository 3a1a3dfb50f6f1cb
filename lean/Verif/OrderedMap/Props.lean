import Verif.OrderedMap.Lemmas
/-
Properties of `ordered_map` / `ordered_set` (ν = Unit): for every key and value type, every strict weak ordering and every history.
-/
namespace Verif.OrderedMap
open Verif.Order

section
variable {κ ν : Type}

/-- C17. Every history on a fresh container gives exactly the results and the iteration order of the insertion-ordered list of the
specification (new keys appended, existing keys left in place, erasures by removal), and is undefined exactly when the specification is
(an iterator that does not fit the call). -/
theorem ordered_map_refines (lt : κ → κ → Bool) (h : StrictWeak lt) (dflt : ν) (ops : List (Op κ ν)) :
    (run lt dflt empty ops).map (fun r => (contents r.1, r.2)) = Spec.run lt dflt [] ops := by
  rcases run_spec h dflt ops inv_empty with ⟨s', outs, h1, -, h3⟩ | ⟨h1, h2⟩
  · rw [h1]; exact h3.symm
  · rw [h1]; exact h2.symm

/-- C17. After every history: no two keys visited by iteration are equivalent, `find` returns the position at which iteration visits the
key's pair and `end()` exactly when no visited key is equivalent, and `count` says so too. -/
theorem ordered_map_find_agrees (lt : κ → κ → Bool) (h : StrictWeak lt) (dflt : ν) (ops : List (Op κ ν)) (s : State κ ν) (outs : List (Out ν))
    (hr : run lt dflt empty ops = some (s, outs)) :
    (contents s).Pairwise (fun a b => equiv lt a.1 b.1 = false) ∧
    (∀ k i, i < (contents s).length → (find lt s k = i ↔ ∃ x, (contents s)[i]? = some x ∧ equiv lt x.1 k = true)) ∧
    (∀ k, find lt s k = (contents s).length ↔ ∀ x ∈ contents s, equiv lt x.1 k = false) ∧
    (∀ k, count lt s k = 1 ↔ ∃ x ∈ contents s, equiv lt x.1 k = true) := by
  have hi : Inv lt s := by
    rcases run_spec h dflt ops (inv_empty (lt := lt) (κ := κ) (ν := ν)) with ⟨s', outs', h1, h2, -⟩ | ⟨h1, -⟩
    · rw [hr] at h1; cases h1; exact h2
    · rw [hr] at h1; cases h1
  refine ⟨?_, ?_, ?_, ?_⟩
  · have := key_unique h hi
    unfold contents; rw [List.pairwise_map]; exact this
  · intro k i hlt
    rw [find_spec h hi]
    rw [contents_length] at hlt
    rcases lookup_spec h hi k with ⟨-, -, h3, h4⟩ | ⟨p, n, e, -, -, h3, h4, h5, -, h7, h8⟩
    · rw [h3]
      constructor
      · intro he; omega
      · rintro ⟨x, hx, hk⟩
        rw [h4 x (List.mem_of_getElem? hx)] at hk; cases hk
    · rw [h7]
      constructor
      · rintro rfl; exact ⟨(e.key, e.val), by rw [contents_get, h3]; rfl, h4⟩
      · rintro ⟨x, hx, hk⟩; exact (h8 i x hx hk).symm
  · intro k
    rw [find_spec h hi, contents_length]
    rcases lookup_spec h hi k with ⟨-, -, h3, h4⟩ | ⟨p, n, e, -, -, h3, h4, h5, -, h7, h8⟩
    · rw [h3]; exact ⟨fun _ => h4, fun _ => rfl⟩
    · rw [h7]
      constructor
      · intro he; omega
      · intro hall
        have := hall (e.key, e.val) (List.mem_map_of_mem (List.mem_of_getElem? h3))
        rw [h4] at this; cases this
  · intro k
    rw [count_spec h hi]
    unfold Spec.has
    cases ha : (contents s).any (fun e => equiv lt e.1 k) with
    | true => simpa using ha
    | false =>
      rw [List.any_eq_false] at ha
      simp only [Bool.false_eq_true, if_false, Nat.zero_ne_one, false_iff]
      rintro ⟨x, hx, hk⟩; exact ha x hx hk

/-- C17, in terms of the history only: after inserting a sequence of pairs into an empty container, iteration visits exactly the pairs whose
key is not equivalent to an earlier one, in the order of insertion. -/
theorem ordered_map_insertion_order (lt : κ → κ → Bool) (h : StrictWeak lt) (l : List (κ × ν)) :
    contents (insertAll lt empty l) = l.foldl (fun acc x => if acc.any (fun e => equiv lt e.1 x.1) then acc else acc ++ [x]) [] ∧
    (contents (insertAll lt empty l)).Sublist l ∧ ∀ x ∈ l, ∃ y ∈ contents (insertAll lt empty l), equiv lt y.1 x.1 = true := by
  have h1 := (insertAll_spec h l (inv_empty (lt := lt) (κ := κ) (ν := ν))).2
  have h2 : contents (empty : State κ ν) = [] := rfl
  rw [h1, h2]
  refine ⟨rfl, ?_, ?_⟩
  · have gen : ∀ (l acc pre : List (κ × ν)), acc.Sublist pre → (Spec.insertAll lt acc l).Sublist (pre ++ l) := by
      intro l
      induction l with
      | nil => intro acc pre hs; simpa [Spec.insertAll] using hs
      | cons x l ih =>
        intro acc pre hs
        have : pre ++ x :: l = (pre ++ [x]) ++ l := by simp
        rw [this]
        change (Spec.insertAll lt (Spec.insert lt acc x.1 x.2) l).Sublist _
        apply ih
        unfold Spec.insert
        split
        · exact hs.trans (List.sublist_append_left _ _)
        · exact hs.append (List.Sublist.refl _)
    exact gen l [] [] (List.Sublist.refl _)
  · have mono : ∀ (l acc : List (κ × ν)) y, y ∈ acc → y ∈ Spec.insertAll lt acc l := by
      intro l
      induction l with
      | nil => intro acc y hy; exact hy
      | cons x l ih =>
        intro acc y hy
        change y ∈ Spec.insertAll lt (Spec.insert lt acc x.1 x.2) l
        apply ih
        unfold Spec.insert
        split
        · exact hy
        · simp [hy]
    have gen : ∀ (l acc : List (κ × ν)), ∀ x ∈ l, ∃ y ∈ Spec.insertAll lt acc l, equiv lt y.1 x.1 = true := by
      intro l
      induction l with
      | nil => intro acc x hx; cases hx
      | cons z l ih =>
        intro acc x hx
        rcases List.mem_cons.mp hx with rfl | hx
        · cases ha : Spec.has lt acc x.1 with
          | true =>
            obtain ⟨y, hy, hk⟩ := List.any_eq_true.mp ha
            refine ⟨y, ?_, hk⟩
            change y ∈ Spec.insertAll lt (Spec.insert lt acc x.1 x.2) l
            apply mono
            unfold Spec.insert; rw [ha]; exact hy
          | false =>
            refine ⟨x, ?_, equiv_refl h _⟩
            change x ∈ Spec.insertAll lt (Spec.insert lt acc x.1 x.2) l
            apply mono
            unfold Spec.insert; rw [ha]; simp
        · exact ih _ x hx
    exact gen l []

/-- C47. A copy made with the comparer of the original has the contents and iteration order of the original; so has the target of an assignment
from a different container, whatever it held before.  Missing from the full claim: self-assignment, and copies when `Compare()` differs from the
comparer in use (both refuted below). -/
theorem ordered_map_copy_partial (lt : κ → κ → Bool) (h : StrictWeak lt) (dflt : ν) (ops : List (Op κ ν)) (s t : State κ ν) (outs : List (Out ν))
    (hr : run lt dflt empty ops = some (s, outs)) :
    contents (copy lt s) = contents s ∧ contents (assign lt t (contents s)) = contents s := by
  have hi : Inv lt s := by
    rcases run_spec h dflt ops (inv_empty (lt := lt) (κ := κ) (ν := ν)) with ⟨s', outs', h1, h2, -⟩ | ⟨h1, -⟩
    · rw [hr] at h1; cases h1; exact h2
    · rw [hr] at h1; cases h1
  have hp : (contents s).Pairwise (fun a b => equiv lt a.1 b.1 = false) := by
    unfold contents; rw [List.pairwise_map]; exact key_unique h hi
  have gen : ∀ (l acc : List (κ × ν)), (acc ++ l).Pairwise (fun a b => equiv lt a.1 b.1 = false) → Spec.insertAll lt acc l = acc ++ l := by
    intro l
    induction l with
    | nil => intro acc _; simp [Spec.insertAll]
    | cons x l ih =>
      intro acc hacc
      have hx : Spec.has lt acc x.1 = false := by
        unfold Spec.has
        rw [List.any_eq_false]
        intro y hy
        rw [List.pairwise_append] at hacc
        rw [hacc.2.2 y hy x List.mem_cons_self]; simp
      have : Spec.insertAll lt acc (x :: l) = Spec.insertAll lt (acc ++ [x]) l := by
        change Spec.insertAll lt (Spec.insert lt acc x.1 x.2) l = _
        unfold Spec.insert; rw [hx]; rfl
      rw [this, ih _ (by simpa using hacc)]; simp
  constructor
  · unfold copy
    rw [(insertAll_spec h _ inv_empty).2]; exact gen _ [] hp
  · unfold assign
    rw [(insertAll_spec h _ (inv_clear (lt := lt) t)).2]; exact gen _ [] hp

end

/-- Comparers of the examples. -/
abbrev natLt : Nat → Nat → Bool := fun a b => decide (a < b)
abbrev mod10Lt : Nat → Nat → Bool := fun a b => decide (a % 10 < b % 10)

/-- C47, refuted: assigning a container to itself empties it. -/
theorem ordered_map_self_assign_violated :
    ∃ (ops : List (Op Nat Nat)) (s : State Nat Nat) (outs : List (Out Nat)), run natLt 0 empty ops = some (s, outs) ∧
      contents s = [(3, 30), (1, 10)] ∧ contents (assignSelf natLt s) = [] :=
  ⟨[.insert 3 30, .insert 1 10], ⟨[⟨0, 3, 30⟩, ⟨1, 1, 10⟩], [⟨1, 1⟩, ⟨0, 3⟩], 2⟩, [.ins 0 true, .ins 1 true],
    by decide +kernel, by decide +kernel, by decide +kernel⟩

/-- C47, refuted: the copy constructor does not take over the comparer, so a copy of a container that uses another comparer than `Compare()`
can lose elements. -/
theorem ordered_map_copy_comparer_violated :
    ∃ (ops : List (Op Nat Nat)) (s : State Nat Nat) (outs : List (Out Nat)), run natLt 0 empty ops = some (s, outs) ∧
      contents s = [(13, 30), (3, 10)] ∧ contents (copy mod10Lt s) = [(13, 30)] :=
  ⟨[.insert 13 30, .insert 3 10], ⟨[⟨0, 13, 30⟩, ⟨1, 3, 10⟩], [⟨1, 3⟩, ⟨0, 13⟩], 2⟩, [.ins 0 true, .ins 1 true],
    by decide +kernel, by decide +kernel, by decide +kernel⟩

/-! Non-vacuity. -/

/-- A history with a rejected duplicate, a hinted insertion, an update in place, erasure and re-insertion at the end. -/
example : ∃ s outs, run natLt 0 empty [.insert 5 50, .insert 2 20, .insert 5 99, .insertHint 1 9 90, .indexSet 2 21, .eraseKey 5, .insert 5 55,
      .eraseAt 0, .find 5, .count 9, .at 2, .indexGet 7] = some (s, outs) ∧ contents s = [(2, 21), (5, 55), (7, 0)] ∧
      outs = [.ins 0 true, .ins 1 true, .ins 0 false, .pos 1, .unit, .num 1, .ins 2 true, .pos 0, .pos 1, .num 0, .val (some 21), .val (some 0)] :=
  ⟨⟨[⟨1, 2, 21⟩, ⟨3, 5, 55⟩, ⟨4, 7, 0⟩], [⟨1, 2⟩, ⟨3, 5⟩, ⟨4, 7⟩], 5⟩, _, by with_unfolding_all rfl, by decide +kernel, by decide +kernel⟩

example : StrictWeak natLt := strictWeak_nat
example : StrictWeak mod10Lt := strictWeak_mod

/-- Keys equal for the comparer but different. -/
example : contents (insertAll mod10Lt empty [(14, 'a'), (3, 'b'), (24, 'c'), (7, 'd')]) = [(14, 'a'), (3, 'b'), (7, 'd')] := by decide +kernel

end Verif.OrderedMap

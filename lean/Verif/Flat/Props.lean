import Verif.Flat.Lemmas
/- Properties of `flat_map` / `flat_set` (ν = Unit): every key and value type, every strict weak ordering, every history, every hint. -/
namespace Verif.Flat
open Verif.Order

section
variable {κ ν : Type}

/-- C18. Every history on a fresh container (with arbitrary hints) gives the results of the abstract map; afterwards the vector is strictly
ascending and holds exactly the pairs of the abstract map; it is undefined exactly when an iterator does not fit the call. -/
theorem flat_map_refines (lt : κ → κ → Bool) (h : StrictWeak lt) (dflt : ν) (ops : List (Op κ ν)) :
    (∃ c l outs, run lt dflt [] ops = some (c, outs) ∧ Spec.run lt dflt [] ops = some (l, outs) ∧ c.Perm l ∧
      c.Pairwise (fun a b => lt a.1 b.1 = true)) ∨
    (run lt dflt [] ops = none ∧ Spec.run lt dflt [] ops = none) := by
  rcases run_spec (c := []) (l := []) h dflt ops ⟨List.Pairwise.nil, List.Perm.nil⟩ with ⟨c, l, outs, h1, h2, h3⟩ | h1
  · exact .inl ⟨c, l, outs, h1, h2, h3.perm, h3.srt⟩
  · exact .inr h1

/-- C18. A hint never changes what an insertion does: whatever position is given, the container and the position returned are those of an
insertion without hint. -/
theorem flat_map_hint_irrelevant (lt : κ → κ → Bool) (h : StrictWeak lt) (dflt : ν) (ops : List (Op κ ν)) (c : List (κ × ν)) (outs : List (Out ν))
    (hr : run lt dflt [] ops = some (c, outs)) (i : Nat) (hi : i ≤ c.length) (k : κ) (v : ν) :
    ∃ p fresh, step lt dflt c (.insertHint i k v) = some ((insert lt c k v).1, .pos p) ∧
      step lt dflt c (.insert k v) = some ((insert lt c k v).1, .ins p fresh) := by
  rcases run_spec (c := []) (l := []) h dflt ops ⟨List.Pairwise.nil, List.Perm.nil⟩ with ⟨c', l, outs', h1, h2, h3⟩ | ⟨h1, -⟩
  · rw [hr] at h1; cases h1
    refine ⟨_, _, ?_, rfl⟩
    simp only [step, insertHint_spec h h3 i hi k v]
    rw [if_neg (by omega)]
  · rw [hr] at h1; cases h1

end

abbrev natLt : Nat → Nat → Bool := fun a b => decide (a < b)
abbrev gtLt : Nat → Nat → Bool := fun a b => decide (b < a)
abbrev mod10Lt : Nat → Nat → Bool := fun a b => decide (a % 10 < b % 10)

/-- C47, refuted for the copy with an allocator (flat_map.h:101-103, flat_set.h:72-74): it takes the vector over but resets the comparer to
`Compare()`, so a lookup in the copy can miss a key that the copy holds. (The vector
is then not sorted for the comparer in use; a bisecting search ends at the same position as the contract's definition for this witness.) -/
theorem flat_map_copy_alloc_violated :
    ∃ (ops : List (Op Nat Nat)) (c : List (Nat × Nat)) (outs : List (Out Nat)), run gtLt 0 [] ops = some (c, outs) ∧
      (1, 10) ∈ c ∧ count gtLt c 1 = 1 ∧ count natLt c 1 = 0 :=
  ⟨[.insert 1 10, .insert 3 30, .insert 2 20], [(3, 30), (2, 20), (1, 10)], [.ins 0 true, .ins 0 true, .ins 1 true],
    by decide +kernel, by decide +kernel, by decide +kernel, by decide +kernel⟩

/-! Non-vacuity. -/

example : ∃ c outs, run natLt 0 [] [.insert 5 50, .insert 2 20, .insert 5 99, .insertHint 0 9 90, .insertHint 1 3 30, .indexSet 2 21, .upper 3,
      .eraseKey 5, .find 9, .eraseAt 0, .at 3, .indexGet 7, .eraseRange 0 1] = some (c, outs) ∧ c = [(7, 0), (9, 90)] ∧
      outs = [.ins 0 true, .ins 0 true, .ins 1 false, .pos 2, .pos 1, .unit, .pos 2, .num 1, .pos 2, .pos 0, .val (some 30), .val (some 0), .pos 0] :=
  ⟨_, _, by with_unfolding_all rfl, by decide +kernel, by decide +kernel⟩

example : StrictWeak mod10Lt := strictWeak_mod
example : (run mod10Lt 'z' [] [.insertAll [(14, 'a'), (3, 'b'), (24, 'c'), (7, 'd')]]) = some ([(3, 'b'), (14, 'a'), (7, 'd')], [.unit]) := by decide +kernel

end Verif.Flat

import Verif.Inplace.Lemmas
/- Properties of `inplace_vector`: every element type, every inline capacity, every history on any number of vectors. -/
namespace Verif.Inplace

section
variable {α : Type}

/-- C19. Every history over any number of vectors without assignment of a vector to itself runs without undefined behaviour (no object is
constructed over another, none is read or destroyed that does not exist) and returns exactly what plain sequences return; in particular the
boundary between inline and dynamic storage is not observable. Missing from the full claim: assignment of a vector to itself (refuted below). -/
theorem inplace_vector_refines_partial (cap : Nat) (ops : List (Op α)) (hn : ∀ op ∈ ops, Spec.noSelf op) :
    ∃ w, run cap (fun _ => fresh cap) ops = some (w, (Spec.run (fun _ => []) ops).2) := by
  obtain ⟨w, h1, -⟩ := run_spec (cap := cap) ops (w := fun _ => fresh cap) (a := fun _ => []) (fun _ => rep_fresh cap) hn
  exact ⟨w, h1⟩

/-- C19. What the program leaves alive: after any such history every cell of every inline storage holds an object exactly if it belongs to the
sequence (nothing leaks, nothing is destroyed twice), the inline part is filled first. -/
theorem inplace_vector_lifetimes (cap : Nat) (ops : List (Op α)) (hn : ∀ op ∈ ops, Spec.noSelf op) :
    ∃ w outs, run cap (fun _ => fresh cap) ops = some (w, outs) ∧
      ∀ i, (w i).cells = (((Spec.run (fun _ => []) ops).1 i).take cap).map some ++ List.replicate (cap - ((Spec.run (fun _ => []) ops).1 i).length) none ∧
        (w i).dyn = ((Spec.run (fun _ => []) ops).1 i).drop cap := by
  obtain ⟨w, h1, h2⟩ := run_spec (cap := cap) ops (w := fun _ => fresh cap) (a := fun _ => []) (fun _ => rep_fresh cap) hn
  exact ⟨w, _, h1, fun i => ⟨(h2 i).cells, (h2 i).dyn⟩⟩

end

/-- C19, refuted for self-assignment: `v = v` empties the vector. -/
theorem inplace_vector_self_assign_violated :
    ∃ w, run 2 (fun _ => fresh 2) [Op.push 0 'a', .push 0 'b', .push 0 'c', .copy 0 0, .size 0] =
      some (w, [.unit, .unit, .unit, .unit, .num 0]) ∧
      (Spec.run (fun _ => []) [Op.push 0 'a', .push 0 'b', .push 0 'c', .copy 0 0, .size 0]).2 = [.unit, .unit, .unit, .unit, .num 3] :=
  ⟨_, by with_unfolding_all rfl, by with_unfolding_all rfl⟩

/-! Non-vacuity: a history across the inline boundary, with copy, move and an index error. -/
example : ∃ w, run 2 (fun _ => fresh 2) [Op.push 0 'a', .push 0 'b', .push 0 'c', .copy 1 0, .setAt 1 2 'z', .move 2 0, .size 0, .iterate 2, .at 1 2,
      .at 1 3, .assign 0 ['q'], .iterate 0] =
    some (w, [.unit, .unit, .unit, .unit, .done true, .unit, .num 0, .all [some 'a', some 'b', some 'c'], .val (some 'z'), .val none, .unit, .all [some 'q']]) :=
  ⟨_, by with_unfolding_all rfl⟩

example : ∀ op ∈ [Op.push 0 'a', .copy 1 0, .move 2 0], Spec.noSelf op := by
  intro op h
  simp only [List.mem_cons, List.not_mem_nil, or_false] at h
  rcases h with rfl | rfl | rfl <;> simp [Spec.noSelf]

end Verif.Inplace

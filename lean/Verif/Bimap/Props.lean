import Verif.Bimap.Model
/- Specification (one set of pairs), simulation and properties of `bimap`. -/
set_option linter.unusedSectionVars false
namespace Verif.Bimap

namespace Spec
section
variable {α β : Type} [DecidableEq α] [DecidableEq β]

/-- The bimap as one set of pairs. -/
def step (l : List (α × β)) : Op α β → List (α × β) × Out α β
  | .leftInsert k v => (if (k, v) ∈ l then l else l ++ [(k, v)], .unit)
  | .rightInsert v k => (if (k, v) ∈ l then l else l ++ [(k, v)], .unit)
  | .leftErase k => (l.filter (fun p => decide (p.1 ≠ k)), .unit)
  | .rightErase v => (l.filter (fun p => decide (p.2 ≠ v)), .unit)
  | .leftFind k => (l, .right ((l.find? (fun p => decide (p.1 = k))).map (·.2)))
  | .rightFind v => (l, .left ((l.find? (fun p => decide (p.2 = v))).map (·.1)))
  | .size => (l, .num l.length)
  | .clear => ([], .unit)

def run : List (α × β) → List (Op α β) → List (α × β) × List (Out α β)
  | l, [] => (l, [])
  | l, op :: ops => ((run (step l op).1 ops).1, (step l op).2 :: (run (step l op).1 ops).2)

/-- An insertion that does not collide on one side only: each side of the new pair is unused, or used for exactly this pair. -/
def fits (l : List (α × β)) : Op α β → Prop
  | .leftInsert k v => ∀ p ∈ l, p.1 = k ↔ p.2 = v
  | .rightInsert v k => ∀ p ∈ l, p.1 = k ↔ p.2 = v
  | _ => True

/-- Every insertion of the history fits when it is made. -/
def allFit : List (α × β) → List (Op α β) → Prop
  | _, [] => True
  | l, op :: ops => fits l op ∧ allFit (step l op).1 ops

/-- A set of pairs that is a bijection between its left and its right values. -/
def Bijective (l : List (α × β)) : Prop := ∀ p ∈ l, ∀ q ∈ l, p.1 = q.1 ↔ p.2 = q.2

end
end Spec

section
variable {α β : Type} [DecidableEq α] [DecidableEq β]

def swap (l : List (α × β)) : List (β × α) := l.map (fun p => (p.2, p.1))

structure Sim (s : State α β) (l : List (α × β)) : Prop where
  left : s.left = l
  right : s.right = swap l
  bij : Spec.Bijective l

theorem mfind_none {m : List (α × β)} {k : α} : mfind m k = none ↔ ∀ p ∈ m, p.1 ≠ k := by
  unfold mfind
  rw [Option.map_eq_none_iff, List.find?_eq_none]
  simp

theorem mfind_some {m : List (α × β)} {k : α} {v : β} (h : mfind m k = some v) : (k, v) ∈ m := by
  unfold mfind at h
  obtain ⟨p, hp, rfl⟩ := Option.map_eq_some_iff.mp h
  have h1 := List.mem_of_find?_eq_some hp
  have h2 := List.find?_some hp
  simp only [decide_eq_true_eq] at h2
  rw [← h2]; exact h1

theorem sim_insert {s : State α β} {l : List (α × β)} (h : Sim s l) (k : α) (v : β) (hf : ∀ p ∈ l, p.1 = k ↔ p.2 = v) :
    Sim ⟨minsert s.left k v, minsert s.right v k⟩ (if (k, v) ∈ l then l else l ++ [(k, v)]) := by
  obtain ⟨h1, h2, h3⟩ := h
  unfold minsert
  rw [h1, h2]
  by_cases hm : (k, v) ∈ l
  · rw [if_pos hm]
    have hl : (mfind l k).isSome = true := by
      rw [Option.isSome_iff_ne_none]
      intro hn; exact mfind_none.mp hn _ hm rfl
    have hr : (mfind (swap l) v).isSome = true := by
      rw [Option.isSome_iff_ne_none]
      intro hn; exact mfind_none.mp hn (v, k) (List.mem_map.mpr ⟨(k, v), hm, rfl⟩) rfl
    rw [hl, hr]; exact ⟨rfl, rfl, h3⟩
  · rw [if_neg hm]
    have hk : ∀ p ∈ l, p.1 ≠ k := by
      intro p hp he
      have := (hf p hp).mp he
      apply hm; rw [← he, ← this]; exact hp
    have hv : ∀ p ∈ l, p.2 ≠ v := fun p hp he => hk p hp ((hf p hp).mpr he)
    have hl : mfind l k = none := mfind_none.mpr hk
    have hr : mfind (swap l) v = none := mfind_none.mpr (by
      intro p hp
      obtain ⟨q, hq, rfl⟩ := List.mem_map.mp hp
      exact hv q hq)
    rw [hl, hr]
    refine ⟨rfl, by simp [swap], ?_⟩
    intro p hp q hq
    rcases List.mem_append.mp hp with hp | hp <;> rcases List.mem_append.mp hq with hq | hq
    · exact h3 p hp q hq
    · rw [List.mem_singleton.mp hq]; exact hf p hp
    · rw [List.mem_singleton.mp hp]
      have := hf q hq
      exact ⟨fun he => (this.mp he.symm).symm, fun he => (this.mpr he.symm).symm⟩
    · rw [List.mem_singleton.mp hp, List.mem_singleton.mp hq]; exact Iff.rfl.trans ⟨fun _ => rfl, fun _ => rfl⟩

theorem sim_filter {s : State α β} {l : List (α × β)} (h : Sim s l) (p : α × β → Bool) (q : β × α → Bool)
    (hpq : ∀ x ∈ l, p x = q (x.2, x.1)) : (swap l).filter q = swap (l.filter p) := by
  unfold swap
  rw [List.filter_map]
  congr 1
  apply List.filter_congr
  intro x hx
  exact (hpq x hx).symm

theorem sim_erase {s : State α β} {l : List (α × β)} (h : Sim s l) (k : α) (v : β) (hm : (k, v) ∈ l) :
    Sim ⟨merase s.left k, merase s.right v⟩ (l.filter (fun p => decide (p.1 ≠ k))) ∧
    l.filter (fun p => decide (p.1 ≠ k)) = l.filter (fun p => decide (p.2 ≠ v)) := by
  obtain ⟨h1, h2, h3⟩ := h
  have hb : ∀ x ∈ l, (x.1 = k ↔ x.2 = v) := fun x hx => h3 x hx (k, v) hm
  constructor
  · refine ⟨by simp only [merase, h1], ?_, ?_⟩
    · simp only [merase, h2]
      refine sim_filter ⟨h1, h2, h3⟩ _ _ ?_
      intro x hx
      simp only [ne_eq, hb x hx]
    · intro p hp q hq
      exact h3 p (List.mem_filter.mp hp).1 q (List.mem_filter.mp hq).1
  · apply List.filter_congr
    intro x hx
    simp only [ne_eq, hb x hx]

theorem find_swap (l : List (α × β)) (v : β) : mfind (swap l) v = (l.find? (fun p => decide (p.2 = v))).map (·.1) := by
  unfold mfind swap
  rw [List.find?_map, Option.map_map]
  rfl

theorem step_sim {s : State α β} {l : List (α × β)} (h : Sim s l) (op : Op α β) (hf : Spec.fits l op) :
    Sim (step s op).1 (Spec.step l op).1 ∧ (step s op).2 = (Spec.step l op).2 := by
  have h0 := h
  obtain ⟨h1, h2, h3⟩ := h
  cases op with
  | leftInsert k v => exact ⟨sim_insert h0 k v hf, rfl⟩
  | rightInsert v k => exact ⟨sim_insert h0 k v hf, rfl⟩
  | leftErase k =>
    refine ⟨?_, rfl⟩
    simp only [step, Spec.step, leftErase]
    rw [h1]
    cases hm : mfind l k with
    | none =>
      simp only
      rw [List.filter_eq_self.mpr (by intro p hp; simpa using mfind_none.mp hm p hp)]
      exact h0
    | some v =>
      have := (sim_erase h0 k v (mfind_some hm)).1
      rw [h1] at this
      exact this
  | rightErase v =>
    refine ⟨?_, rfl⟩
    simp only [step, Spec.step, rightErase]
    rw [h2]
    cases hm : mfind (swap l) v with
    | none =>
      simp only
      rw [List.filter_eq_self.mpr ?_]
      · exact h0
      · intro p hp
        have := mfind_none.mp hm (p.2, p.1) (List.mem_map.mpr ⟨p, hp, rfl⟩)
        simpa using this
    | some k =>
      obtain ⟨p, hp, he⟩ := List.mem_map.mp (mfind_some hm)
      simp only [Prod.mk.injEq] at he
      obtain ⟨rfl, rfl⟩ := he
      have := sim_erase h0 p.1 p.2 hp
      simp only
      rw [← h2, ← this.2]; exact this.1
  | leftFind k => exact ⟨h0, by simp only [step, Spec.step, h1]; rfl⟩
  | rightFind v => exact ⟨h0, by simp only [step, Spec.step, h2, find_swap]⟩
  | size => exact ⟨h0, by simp only [step, Spec.step, h1]⟩
  | clear => exact ⟨⟨rfl, rfl, by intro p hp; cases hp⟩, rfl⟩

theorem run_sim : ∀ (ops : List (Op α β)) {s : State α β} {l : List (α × β)}, Sim s l → Spec.allFit l ops →
    Sim (run s ops).1 (Spec.run l ops).1 ∧ (run s ops).2 = (Spec.run l ops).2
  | [], _, _, h, _ => ⟨h, rfl⟩
  | op :: ops, s, l, h, hf => by
    obtain ⟨h1, h2⟩ := step_sim h op hf.1
    obtain ⟨h3, h4⟩ := run_sim ops h1 hf.2
    exact ⟨h3, by simp only [run, Spec.run, h2, h4]⟩

/-- C20. As long as no insertion collides on one side only, the two views are the same set of pairs read in both directions, that set is a
bijection, and all results are those of the one set of pairs. Missing from the full claim: insertions with a key or a value that is in use with
another partner (refuted below). -/
theorem bimap_bijection_partial (ops : List (Op α β)) (hf : Spec.allFit [] ops) :
    (run ⟨[], []⟩ ops).1.left = (Spec.run [] ops).1 ∧ (run ⟨[], []⟩ ops).1.right = (Spec.run [] ops).1.map (fun p => (p.2, p.1)) ∧
    (∀ k v, mfind (run ⟨[], []⟩ ops).1.left k = some v ↔ mfind (run ⟨[], []⟩ ops).1.right v = some k) ∧
    (run ⟨[], []⟩ ops).2 = (Spec.run [] ops).2 := by
  obtain ⟨⟨h1, h2, h3⟩, h4⟩ := run_sim ops (s := ⟨[], []⟩) (l := []) ⟨rfl, rfl, by intro p hp; cases hp⟩ hf
  refine ⟨h1, h2, ?_, h4⟩
  intro k v
  rw [h1, h2]
  constructor
  · intro h
    have hm := mfind_some h
    cases hr : mfind (swap (Spec.run [] ops).1) v with
    | none => exact absurd rfl (mfind_none.mp hr (v, k) (List.mem_map.mpr ⟨_, hm, rfl⟩))
    | some k' =>
      obtain ⟨p, hp, he⟩ := List.mem_map.mp (mfind_some hr)
      simp only [Prod.mk.injEq] at he
      have := (h3 p hp (k, v) hm).mpr he.1
      rw [← he.2]; exact congrArg some this
  · intro h
    obtain ⟨p, hp, he⟩ := List.mem_map.mp (mfind_some h)
    simp only [Prod.mk.injEq] at he
    cases hl : mfind (Spec.run [] ops).1 k with
    | none => exact absurd he.2 (mfind_none.mp hl p hp)
    | some v' =>
      have hm := mfind_some hl
      have := (h3 (k, v') hm p hp).mp he.2.symm
      simp only at this
      rw [this, he.1]

end

/-- C20, refuted: inserting a second partner for a key leaves the old one in the left view and the new one in the right view; the views then
disagree, and erasing through the left view leaves a dangling right entry. -/
theorem bimap_collision_violated :
    (run (⟨[], []⟩ : State Nat Char) [.leftInsert 1 'a', .leftInsert 1 'b']).1 = ⟨[(1, 'a')], [('a', 1), ('b', 1)]⟩ ∧
    (run (⟨[], []⟩ : State Nat Char) [.leftInsert 1 'a', .leftInsert 1 'b', .leftErase 1, .leftFind 1, .rightFind 'b', .size]).2 =
      [.unit, .unit, .unit, .right none, .left (some 1), .num 0] := by
  decide +kernel

/-! Non-vacuity. -/
example : Spec.allFit ([] : List (Nat × Char)) [.leftInsert 1 'a', .rightInsert 'b' 2, .leftInsert 1 'a', .leftErase 1, .rightInsert 'a' 3] := by
  simp [Spec.allFit, Spec.fits, Spec.step]

example : (run (⟨[], []⟩ : State Nat Char) [.leftInsert 1 'a', .rightInsert 'b' 2, .leftErase 1, .rightInsert 'a' 3, .leftFind 3, .rightFind 'a']) =
    (⟨[(2, 'b'), (3, 'a')], [('b', 2), ('a', 3)]⟩, [.unit, .unit, .unit, .unit, .right (some 'a'), .left (some 3)]) := by decide +kernel

end Verif.Bimap

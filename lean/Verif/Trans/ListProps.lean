import Verif.Trans.ListModel
/-
Property C28.
-/
namespace Verif.Trans.TList

namespace Spec
section
variable {α : Type} [DecidableEq α]

/-- The meaning of a diff entry: a removal takes the element at the index, which must be the one named, out; an addition inserts at the index. -/
def applyEntry (l : List α) : Entry α → Option (List α)
  | (.removed, (i, v)) => if l[i]? = some v then some (l.eraseIdx i) else none
  | (.added, (i, v)) => if i ≤ l.length then some (l.insertIdx i v) else none

def replay : List α → List (Entry α) → Option (List α)
  | l, [] => some l
  | l, e :: es => (applyEntry l e).bind (replay · es)

/-- (committed list, list in the transaction) after a call. -/
def next (base cur : List α) : Op α → List α × List α
  | .add v => (base, cur ++ [v])
  | .set i v => (base, cur.set i v)
  | .insert i v => (base, if i ≤ cur.length then cur.insertIdx i v else cur)
  | .removeAt i => (base, cur.eraseIdx i)
  | .remove v => (base, cur.erase v)
  | .removeAll p => (base, cur.filter (fun x => !p x))
  | .clear => (base, [])
  | .commit => (cur, cur)
  | .revert => (base, base)
  | .renew => (base, base)
  | _ => (base, cur)

/-- The first index of a value. -/
def FirstAt (l : List α) (v : α) (i : Nat) : Prop := l[i]? = some v ∧ ∀ j < i, l[j]? ≠ some v

/-- The result of a call. -/
def out (base cur : List α) : Op α → Out α → Prop
  | .add _, o => o = .unit
  | .set i _, o => o = if i < cur.length then .unit else .throws
  | .insert i _, o => o = if i ≤ cur.length then .unit else .throws
  | .removeAt i, o => o = if i < cur.length then .unit else .throws
  | .remove v, o => o = .bool (decide (v ∈ cur))
  | .removeAll p, o => o = .num (cur.filter p).length
  | .clear, o => o = .unit
  | .get i, o => (∃ v, cur[i]? = some v ∧ o = .value v) ∨ (cur.length ≤ i ∧ o = .throws)
  | .tryGet i, o => o = .got cur[i]?
  | .indexOf v, o => (∃ i, FirstAt cur v i ∧ o = .index (some i)) ∨ (v ∉ cur ∧ o = .index none)
  | .contains v, o => o = .bool (decide (v ∈ cur))
  | .count, o => o = .num cur.length
  | .isEmpty, o => o = .bool (decide (cur = []))
  | .enumerate, o => o = .list cur
  | .reverse, o => o = .list cur.reverse
  | .diff, o => ∃ d, o = .diff d ∧ replay base d = some cur
  | .isDirty, o => ∃ b, o = .bool b ∧ (b = false → cur = base)
  | .commit, o => if cur = base then o = .changed none else ∃ d, o = .changed (some d) ∧ replay base d = some cur
  | .revert, o => o = .unit
  | .renew, o => o = .unit
  | .committed, o => o = .list base

def trace : List α → List α → List (Op α) → List (Out α) → Prop
  | _, _, [], outs => outs = []
  | base, cur, op :: ops, outs => ∃ o outs', outs = o :: outs' ∧ out base cur op o ∧ trace (next base cur op).1 (next base cur op).2 ops outs'
end
end Spec

section
variable {α : Type} [DecidableEq α] {veq : α → α → Bool}

theorem insertIdx_take_drop : ∀ (l : List α) (i : Nat) (v : α), i ≤ l.length → l.insertIdx i v = l.take i ++ v :: l.drop i
  | _, 0, _, _ => by simp
  | [], i + 1, _, h => by simp at h
  | a :: l, i + 1, v, h => by
    rw [List.insertIdx_succ_cons, insertIdx_take_drop l i v (by simpa using h)]; rfl

theorem diffLoop_replay (hv : ∀ a b, veq a b = true ↔ a = b) (old new : List α) : ∀ (n i tail : Nat), old.length + new.length ≤ n + i → tail = i - new.length →
    Spec.replay (new.take i ++ old.drop i) (diffLoop veq old new n i tail) = some new
  | 0, i, tail, hn, ht => by
    simp only [diffLoop, Spec.replay]
    rw [List.take_of_length_le (by omega), List.drop_of_length_le (by omega), List.append_nil]
  | n + 1, i, tail, hn, ht => by
    have ih := fun t ht => diffLoop_replay hv old new n (i + 1) t (by omega) ht
    unfold diffLoop
    cases ho : old[i]? with
    | none =>
      have hol : old.length ≤ i := List.getElem?_eq_none_iff.mp ho
      have hd : ∀ j, i ≤ j → old.drop j = [] := fun j hj => List.drop_of_length_le (by omega)
      cases hnw : new[i]? with
      | none =>
        have hnl : new.length ≤ i := List.getElem?_eq_none_iff.mp hnw
        simp only [Spec.replay]
        rw [List.take_of_length_le hnl, hd i (Nat.le_refl _), List.append_nil]
      | some v =>
        obtain ⟨hnl, hvv⟩ := List.getElem?_eq_some_iff.mp hnw
        have ih' := ih tail (by omega)
        rw [hd (i + 1) (by omega), List.append_nil] at ih'
        simp only [Spec.replay, Spec.applyEntry]
        rw [hd i (Nat.le_refl _), List.append_nil, if_pos (by rw [List.length_take]; omega), Option.bind_some]
        have : (new.take i).insertIdx i v = new.take (i + 1) := by
          rw [List.take_succ, hnw]
          have hl : i = (new.take i).length := by rw [List.length_take]; omega
          generalize hq : new.take i = q at hl ⊢
          rw [hl, List.insertIdx_length_self]; rfl
        rw [this]; exact ih'
    | some o =>
      obtain ⟨hol, hoo⟩ := List.getElem?_eq_some_iff.mp ho
      have hdr : old.drop i = o :: old.drop (i + 1) := by rw [List.drop_eq_getElem_cons hol, hoo]
      cases hnw : new[i]? with
      | none =>
        have hnl : new.length ≤ i := List.getElem?_eq_none_iff.mp hnw
        have ih' := ih (tail + 1) (by omega)
        simp only [Spec.replay, Spec.applyEntry]
        have hidx : i - tail = new.length := by omega
        rw [hidx, List.take_of_length_le hnl, hdr, if_pos (by rw [List.getElem?_append_right (Nat.le_refl _), Nat.sub_self]; rfl), Option.bind_some]
        rw [List.take_of_length_le (by omega)] at ih'
        rw [List.eraseIdx_append_of_length_le (Nat.le_refl _), Nat.sub_self]
        exact ih'
      | some v =>
        obtain ⟨hnl, hvv⟩ := List.getElem?_eq_some_iff.mp hnw
        have ih' := ih tail (by omega)
        have htl : (new.take i).length = i := by rw [List.length_take]; omega
        have htk : new.take (i + 1) = new.take i ++ [v] := by rw [List.take_succ, hnw]; rfl
        simp only
        by_cases he : veq o v = true
        · rw [he, hdr]
          simp only [Bool.not_true, Bool.false_eq_true, if_false]
          rw [htk, List.append_assoc] at ih'
          rw [(hv o v).mp he]; exact ih'
        · rw [Bool.not_eq_true] at he
          rw [he]
          simp only [Bool.not_false, if_true, Spec.replay, Spec.applyEntry]
          rw [hdr, if_pos (by rw [List.getElem?_append_right (by omega), htl, Nat.sub_self]; rfl), Option.bind_some]
          rw [List.eraseIdx_append_of_length_le (by omega), htl, Nat.sub_self]
          simp only [List.eraseIdx_zero, List.tail_cons]
          rw [if_pos (by rw [List.length_append]; omega), Option.bind_some]
          have : (new.take i ++ old.drop (i + 1)).insertIdx i v = new.take (i + 1) ++ old.drop (i + 1) := by
            rw [htk, List.append_assoc]
            rw [insertIdx_take_drop _ _ _ (by rw [List.length_append]; omega), List.take_append_of_le_length (by omega), List.drop_append_of_le_length (by omega),
              List.take_of_length_le (by omega), List.drop_of_length_le (by omega)]
            rfl
          rw [this]; exact ih'

theorem makeDiff_replay (hv : ∀ a b, veq a b = true ↔ a = b) (old new : List α) : Spec.replay old (makeDiff veq old new) = some new := by
  have := diffLoop_replay hv old new (old.length + new.length) 0 0 (by omega) (by omega)
  simpa [makeDiff] using this

theorem diffLoop_self (hv : ∀ a b, veq a b = true ↔ a = b) (l : List α) : ∀ (n i tail : Nat), diffLoop veq l l n i tail = []
  | 0, _, _ => rfl
  | n + 1, i, tail => by
    unfold diffLoop
    cases h : l[i]? with
    | none => rfl
    | some x => simp only [(hv x x).mpr rfl, Bool.not_true, Bool.false_eq_true, if_false]; exact diffLoop_self hv l n (i + 1) tail

theorem makeDiff_nil (hv : ∀ a b, veq a b = true ↔ a = b) (old new : List α) : makeDiff veq old new = [] ↔ new = old := by
  constructor
  · intro h
    have := makeDiff_replay hv old new
    rw [h] at this
    simp only [Spec.replay, Option.some.injEq] at this
    exact this.symm
  · rintro rfl; exact diffLoop_self hv _ _ _ _

/-- What holds between calls: a cached diff is the diff of the present contents. -/
def Inv (veq : α → α → Bool) (s : State α) : Prop := ∀ d, s.cached = some d → ∃ l, s.new = some l ∧ d = makeDiff veq s.items l

theorem inv_write (s : State α) (l : List α) : Inv veq (write s l) := by intro d hd; cases hd

theorem commitDiff_eq {s : State α} (hi : Inv veq s) {l : List α} (hl : s.new = some l) : commitDiff veq s l = makeDiff veq s.items l := by
  unfold commitDiff
  cases hc : s.cached with
  | none => rfl
  | some d =>
    obtain ⟨l', h1, h2⟩ := hi d hc
    rw [hl] at h1; cases h1; exact h2

theorem findIdx_spec (l : List α) (v : α) : (∃ i, Spec.FirstAt l v i ∧ indexOf l v = some i) ∨ (v ∉ l ∧ indexOf l v = none) := by
  unfold indexOf Spec.FirstAt
  cases h : l.findIdx? (fun x => decide (x = v)) with
  | none =>
    right
    refine ⟨fun hm => ?_, rfl⟩
    have := List.findIdx?_eq_none_iff.mp h v hm
    simp at this
  | some i =>
    left
    obtain ⟨hlt, h1, h2⟩ := List.findIdx?_eq_some_iff_getElem.mp h
    refine ⟨i, ⟨?_, ?_⟩, rfl⟩
    · rw [List.getElem?_eq_getElem hlt]; simpa using h1
    · intro j hj hc
      have := h2 j hj
      obtain ⟨h3, h4⟩ := List.getElem?_eq_some_iff.mp hc
      simp only [h4, decide_true] at this; exact this trivial

theorem first_erase : ∀ {l : List α} {v : α} {i : Nat}, Spec.FirstAt l v i → l.take i ++ l.drop (i + 1) = l.erase v
  | [], v, i, h => by cases h.1
  | x :: l, v, 0, h => by
    have := h.1
    simp only [List.getElem?_cons_zero, Option.some.injEq] at this
    subst this
    simp
  | x :: l, v, i + 1, h => by
    have hne : x ≠ v := by
      intro e; exact h.2 0 (by omega) (by rw [e]; rfl)
    have ih := first_erase (l := l) (v := v) (i := i) ⟨by simpa using h.1, fun j hj => by simpa using h.2 (j + 1) (by omega)⟩
    rw [List.erase_cons_tail (by simpa using hne), ← ih]
    rfl

theorem filter_sub (l : List α) (p : α → Bool) : l.length - (l.filter (fun x => !p x)).length = (l.filter p).length := by
  induction l with
  | nil => rfl
  | cons a l ih =>
    have hle : (l.filter (fun x => !p x)).length ≤ l.length := List.length_filter_le _ _
    cases ha : p a <;> simp [List.filter_cons, ha] <;> omega

theorem set_ge {l : List α} {i : Nat} {v : α} (h : ¬ i < l.length) : l.set i v = l := List.set_eq_of_length_le (by omega)

theorem step_spec (hv : ∀ a b, veq a b = true ↔ a = b) {s : State α} (hi : Inv veq s) (op : Op α) :
    Spec.out s.items (cur s) op (step veq s op).2 ∧ (step veq s op).1.items = (Spec.next s.items (cur s) op).1 ∧
      cur (step veq s op).1 = (Spec.next s.items (cur s) op).2 ∧ Inv veq (step veq s op).1 := by
  have hcl : ∀ l : List α, Inv veq ⟨l, none, none⟩ := fun l d hd => by cases hd
  have hcon : ∀ v, (indexOf (cur s) v).isSome = decide (v ∈ cur s) := by
    intro v
    rcases findIdx_spec (cur s) v with ⟨i, h1, h2⟩ | ⟨h1, h2⟩
    · rw [h2]
      exact (decide_eq_true (List.mem_of_getElem? h1.1)).symm
    · rw [h2]; exact (decide_eq_false h1).symm
  cases op with
  | add v => exact ⟨rfl, rfl, rfl, inv_write _ _⟩
  | set i v =>
    simp only [step, Spec.out, Spec.next]
    by_cases h : i < (cur s).length
    · simp only [if_pos h]; exact ⟨trivial, rfl, rfl, inv_write _ _⟩
    · simp only [if_neg h]; exact ⟨trivial, by first | rfl | trivial, (set_ge h).symm, hi⟩
  | insert i v =>
    simp only [step, Spec.out, Spec.next]
    by_cases h : i ≤ (cur s).length
    · simp only [if_pos h]
      refine ⟨trivial, rfl, ?_, inv_write _ _⟩
      show (cur s).take i ++ v :: (cur s).drop i = _
      rw [insertIdx_take_drop _ _ _ h]
    · simp only [if_neg h]; exact ⟨trivial, by first | rfl | trivial, by first | rfl | trivial, hi⟩
  | removeAt i =>
    simp only [step, Spec.out, Spec.next]
    by_cases h : i < (cur s).length
    · simp only [if_pos h]
      refine ⟨trivial, rfl, ?_, inv_write _ _⟩
      show (cur s).take i ++ (cur s).drop (i + 1) = _
      rw [List.eraseIdx_eq_take_drop_succ]
    · simp only [if_neg h]
      exact ⟨trivial, by first | rfl | trivial, (List.eraseIdx_of_length_le (by omega)).symm, hi⟩
  | remove v =>
    simp only [step, Spec.out, Spec.next]
    rcases findIdx_spec (cur s) v with ⟨i, h1, h2⟩ | ⟨h1, h2⟩
    · rw [h2]
      refine ⟨?_, rfl, first_erase h1, inv_write _ _⟩
      rw [decide_eq_true (List.mem_of_getElem? h1.1)]
    · rw [h2]
      exact ⟨by rw [decide_eq_false h1], rfl, (List.erase_of_not_mem h1).symm, hi⟩
  | removeAll p => exact ⟨by simp only [step, Spec.out]; rw [filter_sub], rfl, rfl, inv_write _ _⟩
  | clear => exact ⟨rfl, rfl, rfl, inv_write _ _⟩
  | get i =>
    simp only [step, Spec.out, Spec.next]
    cases h : (cur s)[i]? with
    | none => exact ⟨Or.inr ⟨List.getElem?_eq_none_iff.mp h, rfl⟩, rfl, rfl, hi⟩
    | some v => exact ⟨Or.inl ⟨v, rfl, rfl⟩, rfl, rfl, hi⟩
  | tryGet i => exact ⟨rfl, rfl, rfl, hi⟩
  | indexOf v =>
    refine ⟨?_, rfl, rfl, hi⟩
    simp only [step, Spec.out]
    rcases findIdx_spec (cur s) v with ⟨i, h1, h2⟩ | ⟨h1, h2⟩
    · rw [h2]; exact Or.inl ⟨i, h1, rfl⟩
    · rw [h2]; exact Or.inr ⟨h1, rfl⟩
  | contains v => exact ⟨by simp only [step, Spec.out]; rw [hcon], rfl, rfl, hi⟩
  | count => exact ⟨rfl, rfl, rfl, hi⟩
  | isEmpty =>
    refine ⟨?_, rfl, rfl, hi⟩
    simp only [step, Spec.out]
    cases cur s <;> simp
  | enumerate => exact ⟨rfl, rfl, rfl, hi⟩
  | reverse => exact ⟨rfl, rfl, rfl, hi⟩
  | diff =>
    have key : (diffOf veq s).1.items = s.items ∧ (diffOf veq s).1.new = s.new ∧ Inv veq (diffOf veq s).1 ∧
        Spec.replay s.items (diffOf veq s).2 = some (cur s) := by
      unfold diffOf
      cases hc : s.cached with
      | some d =>
        obtain ⟨l, h1, h2⟩ := hi d hc
        refine ⟨rfl, rfl, hi, ?_⟩
        simp only
        rw [h2, makeDiff_replay hv]; simp [cur, h1]
      | none =>
        cases hn : s.new with
        | none => exact ⟨rfl, hn, hi, by simp [Spec.replay, cur, hn]⟩
        | some l => exact ⟨rfl, rfl, fun d hd => ⟨l, rfl, by simpa using hd.symm⟩, by simp only; rw [makeDiff_replay hv]; simp [cur, hn]⟩
    refine ⟨⟨_, rfl, key.2.2.2⟩, key.1, ?_, key.2.2.1⟩
    simp only [step, Spec.next]
    unfold cur
    rw [key.1, key.2.1]
  | isDirty =>
    refine ⟨⟨_, rfl, fun hb => ?_⟩, rfl, rfl, hi⟩
    cases hn : s.new with
    | none => simp [cur, hn]
    | some l => rw [hn] at hb; cases hb
  | commit =>
    simp only [step, Spec.out, Spec.next]
    unfold commit
    cases hn : s.new with
    | none =>
      have : cur s = s.items := by simp [cur, hn]
      rw [if_pos this]
      exact ⟨rfl, this.symm, this.symm, hcl _⟩
    | some l =>
      have hcur : cur s = l := by simp [cur, hn]
      simp only
      rw [commitDiff_eq hi hn, hcur]
      by_cases he : l = s.items
      · rw [(makeDiff_nil hv s.items l).mpr he, if_pos he]
        exact ⟨rfl, he.symm, he.symm, hcl _⟩
      · rw [if_neg he]
        have : (makeDiff veq s.items l).isEmpty = false := by
          cases hd : (makeDiff veq s.items l) with
          | nil => exact absurd ((makeDiff_nil hv s.items l).mp hd) he
          | cons _ _ => rfl
        rw [this]
        exact ⟨⟨_, rfl, makeDiff_replay hv _ _⟩, rfl, rfl, hcl _⟩
  | revert => exact ⟨rfl, rfl, rfl, hcl _⟩
  | renew => exact ⟨rfl, rfl, rfl, hcl _⟩
  | committed => exact ⟨rfl, rfl, rfl, hi⟩

theorem run_spec (hv : ∀ a b, veq a b = true ↔ a = b) : ∀ (ops : List (Op α)) {s : State α}, Inv veq s → Spec.trace s.items (cur s) ops (run veq s ops).2
  | [], _, _ => rfl
  | op :: ops, s, hi => by
    obtain ⟨h1, h2, h3, h4⟩ := step_spec hv hi op
    refine ⟨_, _, rfl, h1, ?_⟩
    rw [← h2, ← h3]
    exact run_spec hv ops h4

/-- C28. Every program on a transactional list returns what it returns on plain lists, `base` committed and `cur` in the transaction; the diff given to
`OnChanged` by a commit, and the one `Diff()` returns, turn `base` into `cur` when each removal is taken as "take the named element at this index out"
and each addition as "insert at this index". -/
theorem transactional_list_refines (hv : ∀ a b, veq a b = true ↔ a = b) (ops : List (Op α)) :
    Spec.trace [] [] ops (run veq ⟨[], none, none⟩ ops).2 := run_spec hv ops (s := ⟨[], none, none⟩) (fun d hd => by cases hd)

/-- C28. The diff between any two lists replays to the new one, and is empty exactly if they are equal. -/
theorem list_diff_replays_partial (hv : ∀ a b, veq a b = true ↔ a = b) (old new : List α) :
    Spec.replay old (makeDiff veq old new) = some new ∧ (makeDiff veq old new = [] ↔ new = old) := ⟨makeDiff_replay hv old new, makeDiff_nil hv old new⟩

theorem populator_replay : ∀ (l p : List α), Spec.replay p (populator p.length l) = some (p ++ l)
  | [], p => by simp [populator, Spec.replay]
  | x :: l, p => by
    have ih := populator_replay l (p ++ [x])
    simp only [List.length_append, List.length_singleton] at ih
    simp only [populator, Spec.replay, Spec.applyEntry]
    rw [if_pos (Nat.le_refl _), Option.bind_some, List.insertIdx_length_self, ih]
    simp

/-- C28. What a new observer is sent builds the present contents. -/
theorem list_populator_replays (l : List α) : Spec.replay [] (populator 0 l) = some l := by
  have := populator_replay l []
  simpa using this

end

/-- C28, refuted: the library's own `Apply` does not turn the old contents into the new ones: it overwrites instead of inserting. Shrinking the list
works, replacing the last element or growing fails with an index error, replacing an inner element loses the next one. -/
theorem list_apply_violated :
    applyAll [1, 2] (makeDiff (fun a b : Nat => a == b) [1, 2] [1, 3]) = none ∧
    applyAll [1] (makeDiff (fun a b : Nat => a == b) [1] [1, 2]) = none ∧
    applyAll [1, 2, 3] (makeDiff (fun a b : Nat => a == b) [1, 2, 3] [7, 2, 3]) = some [7, 3] := by
  refine ⟨?_, ?_, ?_⟩ <;> with_unfolding_all rfl

/-! Non-vacuity. -/
example : (run (fun a b : Nat => a == b) ⟨[], none, none⟩ [.add 1, .add 2, .add 3, .commit, .insert 1 9, .removeAt 3, .set 0 5, .set 7 7, .diff, .indexOf 2, .commit, .remove 9,
      .revert, .committed]).2 =
    [.unit, .unit, .unit, .changed (some [(.added, (0, 1)), (.added, (1, 2)), (.added, (2, 3))]), .unit, .unit, .unit, .throws,
      .diff [(.removed, (0, 1)), (.added, (0, 5)), (.removed, (1, 2)), (.added, (1, 9)), (.removed, (2, 3)), (.added, (2, 2))], .index (some 2),
      .changed (some [(.removed, (0, 1)), (.added, (0, 5)), (.removed, (1, 2)), (.added, (1, 9)), (.removed, (2, 3)), (.added, (2, 2))]), .bool true, .unit,
      .list [5, 9, 2]] := by with_unfolding_all rfl

example : ∀ a b : Nat, (fun a b : Nat => a == b) a b = true ↔ a = b := by simp

end Verif.Trans.TList

import Verif.Trans.Observer
/-
Properties C24, C25, C26, C27.
-/
namespace Verif.Trans
open Verif.Order

section
variable {κ : Type} [DecidableEq κ] {lt : κ → κ → Bool}

/-- C24. Every program on a transactional set (any calls in any number of successive transactions, committed, reverted or abandoned, for every
ordering comparer) runs without a failed consistency check and every call returns what it returns on plain sets, `base` committed and `cur` in the
transaction (`Spec.setNext`, `Spec.setOut`): commit makes `cur` the committed contents, revert and abandoning restore them. -/
theorem transactional_set_refines (h : StrictWeak lt) (ht : Total lt) (ops : List (SetOp κ)) :
    ∃ s outs, setRun lt ⟨[], [], []⟩ ops = some (s, outs) ∧ Spec.setTrace lt [] [] ops outs ∧ s.items = (Spec.setFinal lt [] [] ops).1 := by
  obtain ⟨s, outs, h1, h2, h3, -⟩ := setRun_spec h ht ops (s := ⟨[], [], []⟩) (inv_clean List.Pairwise.nil)
  exact ⟨s, outs, h1, h2, h3⟩

/-- C26 (set). After any program the enumeration of the open transaction succeeds, yields exactly its contents in strictly ascending order, and the
reverse enumeration the same backwards. -/
theorem transactional_set_enumerates (h : StrictWeak lt) (ht : Total lt) (ops : List (SetOp κ)) :
    ∃ s outs cur, setRun lt ⟨[], [], []⟩ ops = some (s, outs) ∧ cur = (Spec.setFinal lt [] [] ops).2 ∧
      cur.Pairwise (fun a b => lt a b = true) ∧ cur.Nodup ∧
      (∃ s', setRun lt s [.enumerate, .reverse] = some (s', [.list cur, .list cur.reverse])) := by
  obtain ⟨s, outs, h1, -, -, hi⟩ := setRun_spec h ht ops (s := ⟨[], [], []⟩) (inv_clean List.Pairwise.nil)
  refine ⟨s, outs, _, h1, rfl, hi.sc, sorted_nodup h hi.sc, s, ?_⟩
  simp only [setRun, setStep, enumerate_cur h ht hi, revEnum_cur h ht hi, Option.map_some]

/-- C27 (set). After any history of calls and connections, every observer that applied what it was sent holds the committed contents. -/
theorem transactional_set_observers (h : StrictWeak lt) (ht : Total lt) (es : List (Event (SetOp κ))) :
    ∃ w, setEvents lt ⟨⟨[], [], []⟩, []⟩ es = some w ∧ (∀ r ∈ w.replicas, r = w.st.items) ∧ w.replicas.length = connects es := by
  obtain ⟨w, h1, h2, h3⟩ := setEvents_ok h ht es (w := ⟨⟨[], [], []⟩, []⟩) (inv_clean List.Pairwise.nil) (by simp)
  exact ⟨w, h1, h2, by simpa using h3⟩

end

section
variable {κ ν : Type} [DecidableEq κ] [DecidableEq ν] {lt : κ → κ → Bool} {veq : ν → ν → Bool}

/-- C25. The same for dictionaries, for every key order and with value comparison by equality. -/
theorem transactional_dictionary_refines (h : StrictWeak lt) (ht : Total lt) (hv : ∀ a b, veq a b = true ↔ a = b) (ops : List (DictOp κ ν)) :
    ∃ s outs, dictRun lt veq ⟨[], [], []⟩ ops = some (s, outs) ∧ Spec.dictTrace lt [] [] ops outs ∧ s.items = (Spec.dictFinal lt [] [] ops).1 := by
  obtain ⟨s, outs, h1, h2, h3, -⟩ := dictRun_spec h ht hv ops (s := ⟨[], [], []⟩) (inv_clean List.Pairwise.nil)
  exact ⟨s, outs, h1, h2, h3⟩

/-- C26 (dictionary). -/
theorem transactional_dictionary_enumerates (h : StrictWeak lt) (ht : Total lt) (hv : ∀ a b, veq a b = true ↔ a = b) (ops : List (DictOp κ ν)) :
    ∃ s outs cur, dictRun lt veq ⟨[], [], []⟩ ops = some (s, outs) ∧ cur = (Spec.dictFinal lt [] [] ops).2 ∧
      cur.Pairwise (fun a b => lt a.1 b.1 = true) ∧ (cur.map Prod.fst).Nodup ∧
      (∃ s', dictRun lt veq s [.enumerate, .reverse] = some (s', [.list cur, .list cur.reverse])) := by
  obtain ⟨s, outs, h1, -, -, hi⟩ := dictRun_spec h ht hv ops (s := ⟨[], [], []⟩) (inv_clean List.Pairwise.nil)
  refine ⟨s, outs, _, h1, rfl, hi.sc, ?_, s, ?_⟩
  · unfold List.Nodup
    rw [List.pairwise_map]
    refine List.Pairwise.imp ?_ hi.sc
    intro a b hab e
    rw [e, h.irrefl] at hab; cases hab
  · simp only [dictRun, dictStep, enumerate_cur h ht hi, revEnum_cur h ht hi, Option.map_some]

/-- C27 (dictionary). -/
theorem transactional_dictionary_observers (h : StrictWeak lt) (ht : Total lt) (hv : ∀ a b, veq a b = true ↔ a = b) (es : List (Event (DictOp κ ν))) :
    ∃ w, dictEvents lt veq ⟨⟨[], [], []⟩, []⟩ es = some w ∧ (∀ r ∈ w.replicas, r = w.st.items) ∧ w.replicas.length = connects es := by
  obtain ⟨w, h1, h2, h3⟩ := dictEvents_ok h ht hv es (w := ⟨⟨[], [], []⟩, []⟩) (inv_clean List.Pairwise.nil) (by simp)
  exact ⟨w, h1, h2, by simpa using h3⟩

end

/-! Non-vacuity: a comparer that meets the hypotheses and histories with cancelling changes, commits and reverts. -/

/-- The order of numbers. -/
def natLt (a b : Nat) : Bool := decide (a < b)

theorem natLt_weak : StrictWeak natLt :=
  ⟨by simp [natLt], by simp only [natLt, decide_eq_true_eq]; omega, by simp only [natLt, decide_eq_true_eq]; omega⟩

theorem natLt_total : Total natLt := by
  intro a b hab
  have := equiv_iff.mp hab
  simp only [natLt, decide_eq_false_iff_not] at this
  omega

example : setRun natLt ⟨[], [], []⟩ [.add 3, .add 1, .commit, .remove 3, .add 2, .enumerate, .reverse, .find 2, .add 3, .diff, .committed, .revert, .count,
      .clear, .add 1, .diff, .commit, .committed] =
    some (⟨[1], [], []⟩, [.bool true, .bool true, .changed (some [(.added, 1), (.added, 3)]), .bool true, .bool true, .list [1, 2], .list [2, 1], .list [2],
      .bool true, .diff [(.added, 2)], .list [1, 3], .unit, .num 2, .unit, .bool true, .diff [(.removed, 3)], .changed (some [(.removed, 3)]), .list [1]]) := by
  with_unfolding_all rfl

example : dictRun natLt (fun (a b : Char) => a == b) ⟨[], [], []⟩ [.add 1 'a', .add 2 'b', .commit, .set 1 'c', .diff, .get 1, .set 1 'a', .isDirty, .remove 2, .add 2 'z',
      .enumerate, .commit] =
    some (⟨[(1, 'a'), (2, 'z')], [], []⟩, [.bool true, .bool true, .changed (some [(.added, (1, 'a')), (.added, (2, 'b'))]), .unit,
      .diff [(.removed, (1, 'a')), (.added, (1, 'c'))], .value (some 'c'), .unit, .bool false, .bool true, .bool true, .list [(1, 'a'), (2, 'z')],
      .changed (some [(.removed, (2, 'b')), (.added, (2, 'z'))])]) := by
  with_unfolding_all rfl

example : ∃ w, setEvents natLt ⟨⟨[], [], []⟩, []⟩ [.connect, .call (.add 3), .call .commit, .connect, .call (.remove 3), .call (.add 4), .call .commit] = some w ∧
    w.replicas = [[4], [4]] := ⟨_, by with_unfolding_all rfl, by with_unfolding_all rfl⟩

/-! The hypothesis that comparer-equivalent values are equal is needed. -/

/-- Numbers compared by their last digit. -/
def digitLt (a b : Nat) : Bool := decide (a % 10 < b % 10)

theorem digitLt_weak : StrictWeak digitLt :=
  ⟨by simp [digitLt], by simp only [digitLt, decide_eq_true_eq]; omega, by simp only [digitLt, decide_eq_true_eq]; omega⟩

/-- With a comparer whose equivalence is not equality a set transaction is not a set transaction on values: removing 1 and adding the equivalent 11
leaves 1 (the removal is only cancelled), where a plain set with this comparer would hold 11. -/
theorem transactional_set_equivalent_values_violated :
    setRun digitLt ⟨[], [], []⟩ [.add 1, .commit, .remove 1, .add 11, .enumerate] =
      some (⟨[1], [], []⟩, [.bool true, .changed (some [(.added, 1)]), .bool true, .bool true, .list [1]]) := by
  with_unfolding_all rfl

end Verif.Trans

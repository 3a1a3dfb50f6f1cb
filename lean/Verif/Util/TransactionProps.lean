import Verif.Util.Transaction

namespace Verif.Util

namespace Spec

/-- The rollbacks among the calls, in the order of the calls. -/
def undone (calls : List TxCall) : List Nat := calls.filterMap (fun c => match c with | .rollback id => some id | .action _ => none)

/-- The actions among the calls. -/
def acted (calls : List TxCall) : List Nat := calls.filterMap (fun c => match c with | .action id => some id | .rollback _ => none)

/-- The actions that succeeded, told by the operations and their outcomes, in the order of execution. -/
def succeeded : List TxOp → List TxOut → List Nat
  | .execute id :: ops, .done :: outs => id :: succeeded ops outs
  | _ :: ops, _ :: outs => succeeded ops outs
  | _, _ => []

/-- Some `Commit` succeeded. -/
def committed : List TxOp → List TxOut → Bool
  | .commit :: ops, .done :: outs => true || committed ops outs
  | _ :: ops, _ :: outs => committed ops outs
  | _, _ => false

/-- The action that a call runs, told by its outcome. -/
def ran : TxOp × TxOut → Option Nat
  | (.execute _, .refused) => none
  | (.execute id, _) => some id
  | _ => none

end Spec

open Spec

theorem undone_append (a b : List TxCall) : undone (a ++ b) = undone a ++ undone b := List.filterMap_append

theorem undo_calls {throws : TxThrows} (ht : ∀ calls id, throws calls (.rollback id) = false) :
    ∀ ids calls, undo throws ids calls = (calls ++ ids.map .rollback, false)
  | [], calls => by simp [undo]
  | id :: ids, calls => by
    unfold undo
    rw [ht, if_neg (by decide), undo_calls ht ids]
    simp

theorem undone_rollbacks (ids : List Nat) : undone (ids.map .rollback) = ids := by
  induction ids with
  | nil => rfl
  | cons a l ih => 
    show a :: undone (l.map .rollback) = _
    rw [ih]

theorem inactive_run (throws : TxThrows) (ops : List TxOp) : ∀ t : Tx, t.active = false →
    t.run throws ops = (t, ops.map (fun _ => .refused)) := by
  induction ops with
  | nil => intro t _; rfl
  | cons op ops ih =>
    intro t h
    have : t.step throws op = (t, .refused) := by
      cases op <;> simp [Tx.step, Tx.execute, Tx.commit, Tx.rollback, h]
    unfold Tx.run
    rw [this]
    simp only [ih t h, List.map_cons]

theorem refused_succeeded (ops : List TxOp) : succeeded ops (ops.map (fun _ => .refused)) = [] := by
  induction ops with
  | nil => rfl
  | cons op ops ih => cases op <;> exact ih

theorem refused_committed (ops : List TxOp) : committed ops (ops.map (fun _ => .refused)) = false := by
  induction ops with
  | nil => rfl
  | cons op ops ih => cases op <;> exact ih

/-- Generalised to a transaction in progress. -/
theorem run_undone {throws : TxThrows} (ht : ∀ calls id, throws calls (.rollback id) = false) (ops : List TxOp) : ∀ t : Tx, t.active = true →
    undone ((t.run throws ops).1.destroy throws) = undone t.calls ++ if committed ops (t.run throws ops).2 then [] else (t.rollbacks ++ succeeded ops (t.run throws ops).2).reverse := by
  induction ops with
  | nil =>
    intro t h
    unfold Tx.run Tx.destroy
    rw [if_pos h]
    unfold Tx.rollback
    rw [if_neg (by simp [h]), undo_calls ht]
    simp only [Bool.false_eq_true, if_false]
    rw [undone_append, undone_rollbacks]
    simp [committed, succeeded]
  | cons op ops ih =>
    intro t h
    cases op with
    | execute id =>
      unfold Tx.run
      by_cases e : throws t.calls (.action id) = true
      · have hs : t.step throws (.execute id) = ({ t with calls := t.calls ++ [.action id] }, .thrown) := by
          simp [Tx.step, Tx.execute, h, e]
        rw [hs]
        simp only []
        rw [ih { t with calls := t.calls ++ [.action id] } h]
        simp only [undone_append]
        show undone t.calls ++ [] ++ _ = _
        simp [committed, succeeded]
      · have hs : t.step throws (.execute id) = (⟨t.rollbacks ++ [id], t.active, t.calls ++ [.action id]⟩, .done) := by
          simp [Tx.step, Tx.execute, h, e]
        rw [hs]
        simp only []
        rw [ih ⟨t.rollbacks ++ [id], t.active, t.calls ++ [TxCall.action id]⟩ h]
        simp only [undone_append]
        show undone t.calls ++ [] ++ _ = _
        simp [committed, succeeded]
    | commit =>
      have hs : t.step throws .commit = ({ t with active := false }, .done) := by simp [Tx.step, Tx.commit, h]
      unfold Tx.run
      rw [hs]
      simp only []
      rw [inactive_run throws ops _ rfl]
      simp [committed, Tx.destroy]
    | rollback =>
      have hs : t.step throws .rollback = ({ t with active := false, calls := t.calls ++ t.rollbacks.reverse.map .rollback }, .done) := by
        simp [Tx.step, Tx.rollback, h, undo_calls ht]
      unfold Tx.run
      rw [hs]
      simp only []
      rw [inactive_run throws ops _ rfl]
      simp only [committed, succeeded, refused_succeeded, refused_committed, Tx.destroy, Bool.false_eq_true, if_false]
      rw [undone_append, undone_rollbacks, List.append_nil]

/-- If no rollback throws: over the whole life of a transaction, whatever the user calls and whichever actions throw, the rollbacks of exactly the successful actions run, exactly once each, the last
action first; none runs if the transaction was committed. -/
theorem rollback_partial {throws : TxThrows} (ht : ∀ calls id, throws calls (.rollback id) = false) (ops : List TxOp) :
    undone ((Tx.create.run throws ops).1.destroy throws) = if committed ops (Tx.create.run throws ops).2 then [] else (succeeded ops (Tx.create.run throws ops).2).reverse := by
  rw [run_undone ht ops Tx.create rfl]
  rfl

theorem undo_acted (throws : TxThrows) : ∀ ids calls, acted (undo throws ids calls).1 = acted calls
  | [], calls => rfl
  | id :: ids, calls => by
    unfold undo
    have : acted (calls ++ [.rollback id]) = acted calls := by simp [acted]
    split
    · exact this
    · rw [undo_acted throws ids, this]

theorem step_acted (throws : TxThrows) (t : Tx) (op : TxOp) : acted (t.step throws op).1.calls = acted t.calls ++ (ran (op, (t.step throws op).2)).toList := by
  cases op with
  | execute id =>
    show acted (t.execute throws id).1.calls = acted t.calls ++ (ran (.execute id, (t.execute throws id).2)).toList
    unfold Tx.execute
    by_cases h : t.active = true
    · by_cases e : throws t.calls (.action id) = true <;> simp [h, e, acted, ran]
    · simp [h, ran]
  | commit =>
    show acted t.commit.1.calls = acted t.calls ++ []
    unfold Tx.commit
    split <;> simp
  | rollback =>
    show acted (t.rollback throws).1.calls = acted t.calls ++ []
    rw [List.append_nil]
    unfold Tx.rollback
    split
    · rfl
    · split <;> exact undo_acted _ _ _

theorem run_acted (throws : TxThrows) (ops : List TxOp) : ∀ t : Tx,
    acted ((t.run throws ops).1.destroy throws) = acted t.calls ++ (ops.zip (t.run throws ops).2).filterMap ran := by
  induction ops with
  | nil =>
    intro t
    unfold Tx.run Tx.destroy
    split
    · unfold Tx.rollback
      split
      · simp
      · split
        · simp only []; rw [undo_acted]; simp
        · simp only []; rw [undo_acted]; simp
    · simp
  | cons op ops ih =>
    intro t
    unfold Tx.run
    simp only []
    rw [ih, step_acted]
    simp only [List.zip_cons_cons, List.filterMap_cons]
    cases ran (op, (t.step throws op).2) <;> simp

/-- Every action that is not refused runs exactly once, in the order of the calls; a destroyed transaction runs no action. -/
theorem actions_run_once (throws : TxThrows) (ops : List TxOp) :
    acted ((Tx.create.run throws ops).1.destroy throws) = (ops.zip (Tx.create.run throws ops).2).filterMap ran := by
  rw [run_acted]; rfl

/-- After `Commit`, and after a `Rollback` that did not throw, every call is refused and no callback runs any more. -/
theorem ended_transaction (throws : TxThrows) (before after : List TxOp) (op : TxOp) (h1 : op = .commit ∨ op = .rollback)
    (h2 : ((Tx.create.run throws before).1.step throws op).2 = .done) :
    (((Tx.create.run throws before).1.step throws op).1.run throws after).2 = after.map (fun _ => .refused) ∧
    (((Tx.create.run throws before).1.step throws op).1.run throws after).1.destroy throws = ((Tx.create.run throws before).1.step throws op).1.calls := by
  generalize (Tx.create.run throws before).1 = t at h2 ⊢
  have h3 : (t.step throws op).1.active = false := by
    rcases h1 with rfl | rfl
    · unfold Tx.step Tx.commit at h2 ⊢
      by_cases e : t.active = true <;> simp [e] at h2 ⊢
    · unfold Tx.step Tx.rollback at h2 ⊢
      by_cases e : t.active = true
      · by_cases e2 : (undo throws t.rollbacks.reverse t.calls).2 = true <;> simp [e, e2] at h2 ⊢
      · simp [e] at h2
  rw [inactive_run throws after _ h3]
  refine ⟨rfl, ?_⟩
  unfold Tx.destroy
  rw [if_neg (by simp [h3])]

/-- The property is violated when a rollback throws: `Rollback` leaves the transaction active and remembers nothing of its progress, so its destructor starts over. The rollback of the last action runs
twice, and the one of the first action never runs. -/
theorem throwing_rollback_violated : ∃ throws : TxThrows, (∀ calls id, throws calls (.action id) = false) ∧
    (Tx.create.run throws [.execute 1, .execute 2, .execute 3, .rollback]).2 = [.done, .done, .done, .thrown] ∧
    undone ((Tx.create.run throws [.execute 1, .execute 2, .execute 3, .rollback]).1.destroy throws) = [3, 2, 3, 2] :=
  ⟨fun _ c => c == .rollback 2, by intro calls id; rfl, by decide +kernel, by decide +kernel⟩

/-- What happens whenever the destructor rolls back and a rollback throws: the rollbacks from the last action down to the throwing one run, the older ones never. -/
theorem destructor_stops {throws : TxThrows} (t : Tx) (h : t.active = true) (older newer : List Nat) (id : Nat) (hs : t.rollbacks = older ++ id :: newer)
    (hn : ∀ calls, ∀ n ∈ newer, throws calls (.rollback n) = false) (hi : ∀ calls, throws calls (.rollback id) = true) :
    undone (t.destroy throws) = undone t.calls ++ newer.reverse ++ [id] := by
  have key : ∀ (l : List Nat) (calls : List TxCall), (∀ calls, ∀ n ∈ l, throws calls (.rollback n) = false) →
      undo throws (l ++ id :: older.reverse) calls = (calls ++ l.map .rollback ++ [.rollback id], true) := by
    intro l
    induction l with
    | nil =>
      intro calls _
      unfold undo
      simp [hi]
    | cons a l ih =>
      intro calls hl
      unfold undo
      simp only [List.cons_append]
      rw [if_neg (by simp [hl calls a List.mem_cons_self]), ih _ (fun c n hn => hl c n (List.mem_cons_of_mem _ hn))]
      simp
  have e : t.rollbacks.reverse = newer.reverse ++ id :: older.reverse := by rw [hs]; simp
  unfold Tx.destroy
  rw [if_pos h]
  unfold Tx.rollback
  rw [if_neg (by simp [h]), e, key newer.reverse t.calls (fun c n hm => hn c n (List.mem_reverse.mp hm))]
  simp only [if_true]
  rw [undone_append, undone_append, undone_rollbacks]
  rfl

example : undone ((Tx.create.run (fun _ c => c == .action 2) [.execute 1, .execute 2, .execute 3]).1.destroy (fun _ _ => false)) = [3, 1] := by decide +kernel
example : undone ((Tx.create.run (fun _ _ => false) [.execute 1, .execute 2, .commit, .execute 3, .rollback]).1.destroy (fun _ _ => false)) = [] := by decide +kernel
example : ((Tx.create.run (fun _ _ => false) [.execute 1]).1.step (fun _ _ => false) .rollback).2 = .done := by decide +kernel
example : ∃ t : Tx, t.active = true ∧ t.rollbacks = [1] ++ 2 :: [3] := ⟨(Tx.create.run (fun _ _ => false) [.execute 1, .execute 2, .execute 3]).1, rfl, rfl⟩

end Verif.Util

import Verif.Trans.Model
/-
Specification of transactions: the committed contents `base` and the contents seen by the open transaction `cur`, both plain ascending lists.
-/
namespace Verif.Trans

/-- What a diff between two contents is: exactly the entries removed and added, in key order, a removed one before an added one with the same key. -/
def IsDiff {κ ε : Type} (lt : κ → κ → Bool) (f : ε → κ) (old new : List ε) (d : List (DiffOp × ε)) : Prop :=
  (∀ e, (DiffOp.removed, e) ∈ d ↔ e ∈ old ∧ e ∉ new) ∧ (∀ e, (DiffOp.added, e) ∈ d ↔ e ∈ new ∧ e ∉ old) ∧
  d.Pairwise (fun x y => lt (f x.2) (f y.2) = true ∨ (f x.2 = f y.2 ∧ x.1 = .removed ∧ y.1 = .added))

namespace Spec

/-- Put an entry at its place in an ascending list. -/
def ins {κ ε : Type} (lt : κ → κ → Bool) (f : ε → κ) (l : List ε) (e : ε) : List ε :=
  l.takeWhile (fun x => lt (f x) (f e)) ++ e :: l.dropWhile (fun x => lt (f x) (f e))

section
variable {κ : Type} [DecidableEq κ]

/-- (committed contents, contents in the transaction) after a call on a set. -/
def setNext (lt : κ → κ → Bool) (base cur : List κ) : SetOp κ → List κ × List κ
  | .add v => (base, if v ∈ cur then cur else ins lt id cur v)
  | .remove v => (base, cur.filter (fun x => decide (x ≠ v)))
  | .removeWhere p => (base, cur.filter (fun x => !p x))
  | .clear => (base, [])
  | .commit => (cur, cur)
  | .revert => (base, base)
  | .renew => (base, base)
  | _ => (base, cur)

/-- The result of a call on a set. -/
def setOut (lt : κ → κ → Bool) (base cur : List κ) : SetOp κ → Out κ Unit → Prop
  | .add v, o => o = .bool (decide (v ∉ cur))
  | .remove v, o => o = .bool (decide (v ∈ cur))
  | .removeWhere p, o => o = .num (cur.filter p).length
  | .clear, o => o = .unit
  | .contains v, o => o = .bool (decide (v ∈ cur))
  | .count, o => o = .num cur.length
  | .isEmpty, o => o = .bool (decide (cur = []))
  | .isDirty, o => o = .bool (decide (cur ≠ base))
  | .enumerate, o => o = .list cur
  | .reverse, o => o = .list cur.reverse
  | .find v, o => o = .list (if v ∈ cur then cur.filter (fun x => !lt x v) else [])
  | .reverseFind v, o => o = .list (if v ∈ cur then (cur.filter (fun x => !lt v x)).reverse else [])
  | .diff, o => ∃ d, o = .diff d ∧ IsDiff lt id base cur d
  | .commit, o => if cur = base then o = .changed none else ∃ d, o = .changed (some d) ∧ IsDiff lt id base cur d
  | .revert, o => o = .unit
  | .renew, o => o = .unit
  | .committed, o => o = .list base

/-- All results of a program are right. -/
def setTrace (lt : κ → κ → Bool) : List κ → List κ → List (SetOp κ) → List (Out κ Unit) → Prop
  | _, _, [], outs => outs = []
  | base, cur, op :: ops, outs => ∃ o outs', outs = o :: outs' ∧ setOut lt base cur op o ∧
      setTrace lt (setNext lt base cur op).1 (setNext lt base cur op).2 ops outs'

/-- The contents after a program. -/
def setFinal (lt : κ → κ → Bool) : List κ → List κ → List (SetOp κ) → List κ × List κ
  | base, cur, [] => (base, cur)
  | base, cur, op :: ops => setFinal lt (setNext lt base cur op).1 (setNext lt base cur op).2 ops

end

section
variable {κ ν : Type} [DecidableEq κ] [DecidableEq ν]

def lookup (l : List (κ × ν)) (k : κ) : Option ν := (l.find? (fun e => decide (e.1 = k))).map Prod.snd

def dictNext (lt : κ → κ → Bool) (base cur : List (κ × ν)) : DictOp κ ν → List (κ × ν) × List (κ × ν)
  | .add k v => (base, if (lookup cur k).isSome then cur else ins lt Prod.fst cur (k, v))
  | .set k v => (base, ins lt Prod.fst (cur.filter (fun e => decide (e.1 ≠ k))) (k, v))
  | .remove k => (base, cur.filter (fun e => decide (e.1 ≠ k)))
  | .removeWhere p => (base, cur.filter (fun e => !p e.1 e.2))
  | .clear => (base, [])
  | .commit => (cur, cur)
  | .revert => (base, base)
  | .renew => (base, base)
  | _ => (base, cur)

def dictOut (lt : κ → κ → Bool) (base cur : List (κ × ν)) : DictOp κ ν → Out (κ × ν) ν → Prop
  | .add k _, o => o = .bool (lookup cur k).isNone
  | .set _ _, o => o = .unit
  | .remove k, o => o = .bool (lookup cur k).isSome
  | .removeWhere p, o => o = .num (cur.filter (fun e => p e.1 e.2)).length
  | .clear, o => o = .unit
  | .get k, o => o = .value (lookup cur k)
  | .containsKey k, o => o = .bool (lookup cur k).isSome
  | .count, o => o = .num cur.length
  | .isEmpty, o => o = .bool (decide (cur = []))
  | .isDirty, o => o = .bool (decide (cur ≠ base))
  | .enumerate, o => o = .list cur
  | .reverse, o => o = .list cur.reverse
  | .find k, o => o = .list (if (lookup cur k).isSome then cur.filter (fun e => !lt e.1 k) else [])
  | .reverseFind k, o => o = .list (if (lookup cur k).isSome then (cur.filter (fun e => !lt k e.1)).reverse else [])
  | .diff, o => ∃ d, o = .diff d ∧ IsDiff lt Prod.fst base cur d
  | .commit, o => if cur = base then o = .changed none else ∃ d, o = .changed (some d) ∧ IsDiff lt Prod.fst base cur d
  | .revert, o => o = .unit
  | .renew, o => o = .unit
  | .committed, o => o = .list base

def dictTrace (lt : κ → κ → Bool) : List (κ × ν) → List (κ × ν) → List (DictOp κ ν) → List (Out (κ × ν) ν) → Prop
  | _, _, [], outs => outs = []
  | base, cur, op :: ops, outs => ∃ o outs', outs = o :: outs' ∧ dictOut lt base cur op o ∧
      dictTrace lt (dictNext lt base cur op).1 (dictNext lt base cur op).2 ops outs'

def dictFinal (lt : κ → κ → Bool) : List (κ × ν) → List (κ × ν) → List (DictOp κ ν) → List (κ × ν) × List (κ × ν)
  | base, cur, [] => (base, cur)
  | base, cur, op :: ops => dictFinal lt (dictNext lt base cur op).1 (dictNext lt base cur op).2 ops

end
end Spec
end Verif.Trans

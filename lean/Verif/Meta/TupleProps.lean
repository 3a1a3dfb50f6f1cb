import Verif.Meta.Tuple
import Verif.Meta.TypeListProps
/-
C133: tuples.
-/
namespace Verif.Meta.Tup

open Verif.Meta.TypeList

variable {τ ν : Type}

theorem types_eq (t : Tuple τ ν) : types t = t.map (fun e => e.1) := transform_eq _ t

theorem get_eq : ∀ (t : Tuple τ ν) (n : Nat), get t n = t[n]? := by
  intro t; induction t with
  | nil => intro n; simp [get]
  | cons e t ih => intro n; cases n <;> simp [get, ih]

/-- **C133.**  `Get<I>()` is the item number I, and `Get<T, K>()` is the occurrence number K of an item of type T: there are exactly K items of type T before it. -/
theorem get_spec [DecidableEq τ] (t : Tuple τ ν) (ty : τ) (k : Nat) :
    (∀ n, get t n = t[n]?) ∧
    (∀ e, getType t ty k = some e ↔ ∃ before after, t = before ++ e :: after ∧ e.1 = ty ∧ (before.filter (fun x => decide (x.1 = ty))).length = k) := by
  refine ⟨get_eq t, ?_⟩
  intro e
  have hc : ∀ (b : Tuple τ ν), (b.map (fun x => x.1)).count ty = (b.filter (fun x => decide (x.1 = ty))).length := by
    intro b
    induction b with
    | nil => rfl
    | cons x b ih =>
      by_cases hx : x.1 = ty
      · simp [hx, ih]
      · simp [hx, ih, List.count_cons_of_ne]
  have hg : getType t ty k = some e ↔ ∃ i, indexOf (types t) ty k = some i ∧ t[i]? = some e := by
    simp only [getType]
    cases h : indexOf (types t) ty k with
    | none => simp
    | some i => simp [get_eq]
  rw [hg, types_eq]
  constructor
  · rintro ⟨i, h1, h2⟩
    obtain ⟨h3, h4⟩ := (indexOf_spec ty _ k i).mp h1
    obtain ⟨hi, h5⟩ := List.getElem?_eq_some_iff.mp h2
    refine ⟨t.take i, t.drop (i + 1), ?_, ?_, ?_⟩
    · rw [← h5, List.getElem_cons_drop hi, List.take_append_drop]
    · simp only [List.getElem?_map, h2, Option.map_some, Option.some.injEq] at h3; exact h3
    · rw [← hc, List.map_take]; exact h4
  · rintro ⟨b, a, h1, h2, h3⟩
    refine ⟨b.length, (indexOf_spec ty _ k _).mpr ⟨?_, ?_⟩, ?_⟩
    · rw [h1]; simp [h2]
    · rw [← List.map_take, h1]
      simp only [List.take_left']
      rw [hc]; exact h3
    · rw [h1]; simp

/-- Building a tuple from an object whose `Get` agrees with a list. -/
theorem create_eq [DecidableEq τ] (g : Nat → Option (τ × ν)) : ∀ (r : Tuple τ ν) (i : Nat), (∀ j, j < r.length → g (i + j) = r[j]?) →
    create g (r.map (fun e => e.1)) i = some r := by
  intro r
  induction r with
  | nil => intro i _; rfl
  | cons e r ih =>
    intro i h
    have h0 := h 0 (by simp)
    simp only [Nat.add_zero, List.getElem?_cons_zero] at h0
    have h1 := ih (i + 1) (by
      intro j hj
      have := h (j + 1) (by simp; omega)
      rw [show i + 1 + j = i + (j + 1) by omega, this]; simp)
    simp only [List.map_cons, create, h0, h1, if_true]

theorem concatGet_eq : ∀ (ts : List (Tuple τ ν)) (i : Nat), concatGet ts i = ts.flatten[i]? := by
  intro ts
  induction ts with
  | nil => intro i; simp [concatGet, indexes]
  | cons t ts ih =>
    intro i
    have h := ih (i - t.length)
    simp only [concatGet] at h ⊢
    simp only [indexes, length_eq]
    by_cases hi : t.length ≤ i
    · rw [if_pos hi, List.flatten_cons, List.getElem?_append_right hi, ← h]
      cases hx : indexes ts (i - t.length) with
      | none => rfl
      | some ab => obtain ⟨a, b⟩ := ab; rfl
    · rw [if_neg hi, List.flatten_cons, List.getElem?_append_left (by omega)]
      simp [item, get_eq]

/-- **C133.**  `ConcatTuples` gives the items of the tuples in order, for any number of tuples, empty ones included. -/
theorem concat_spec [DecidableEq τ] (ts : List (Tuple τ ν)) : concat ts = some ts.flatten := by
  have h : merge (transform types ts) [] = ts.flatten.map (fun e => e.1) := by
    rw [merge_eq, transform_eq, List.nil_append, List.map_flatten]
    congr 1
    apply List.map_congr_left
    intro t _
    exact types_eq t
  rw [concat, h]
  apply create_eq
  intro j _
  rw [Nat.zero_add]; exact concatGet_eq ts j

/-- **C133.**  `ReverseTuple` gives the items in reverse order. -/
theorem reverse_spec [DecidableEq τ] (t : Tuple τ ν) : reverseTuple t = some t.reverse := by
  have h : TypeList.reverse (types t) = t.reverse.map (fun e => e.1) := by
    rw [reverse_eq, types_eq, List.map_reverse]
  rw [reverseTuple, h]
  apply create_eq
  intro j hj
  rw [List.length_reverse] at hj
  rw [Nat.zero_add, reverseGet, get_eq, length_eq, types_eq, List.length_map, List.getElem?_reverse hj]
  congr 1; omega

theorem accumulate_indexes (n : Nat) : ∀ (tys : List τ), tys.length ≤ n → accumulate (toMyType n) [] tys = tys.zip (List.range' (n - tys.length) tys.length) := by
  intro tys
  induction tys with
  | nil => intro _; rfl
  | cons ty tys ih =>
    intro h
    simp only [List.length_cons] at h
    simp only [accumulate, ih (by omega), toMyType, merge_eq, length_eq]
    simp only [List.flatten_cons, List.flatten_nil, List.append_nil, List.nil_append, List.cons_append, List.length_cons]
    rw [List.range'_succ, List.zip_cons_cons]
    simp only [List.length_zip, List.length_range', Nat.min_self, List.cons.injEq, Prod.mk.injEq, true_and]
    refine ⟨by omega, ?_⟩
    rw [show n - (tys.length + 1) + 1 = n - tys.length by omega]

theorem get_of_zip (t : Tuple τ ν) : ∀ (u pre : Tuple τ ν), t = pre ++ u →
    ∀ (p : τ → Bool) (i : Nat), (((u.map (fun e => e.1)).zip (List.range' pre.length u.length)).filter (fun e => p e.1))[i]?.bind (fun e => t[e.2]?) = (u.filter (fun e => p e.1))[i]? := by
  intro u
  induction u with
  | nil => intro pre h p i; simp
  | cons e u ih =>
    intro pre h p i
    have hh := ih (pre ++ [e]) (by simp [h]) p
    simp only [List.length_append, List.length_singleton] at hh
    simp only [List.map_cons, List.length_cons, List.range'_succ, List.zip_cons_cons, List.filter_cons]
    by_cases hp : p e.1
    · simp only [hp, if_true]
      cases i with
      | zero => simp [h]
      | succ i => simpa using hh i
    · simp only [hp]
      exact hh i

/-- **C133.**  `FilterTuple` gives exactly the items whose types satisfy the predicate, in order. -/
theorem filter_spec [DecidableEq τ] (p : τ → Bool) (t : Tuple τ ν) : filterTuple p t = some (t.filter (fun e => p e.1)) := by
  have h : copyIf p (types t) = (t.filter (fun e => p e.1)).map (fun e => e.1) := by
    rw [copyIf_eq, types_eq, List.filter_map]; rfl
  rw [filterTuple, h]
  apply create_eq
  intro j hj
  rw [Nat.zero_add, filterGet, item_eq, typesWithIndexes, copyIf_eq, length_eq, accumulate_indexes _ _ (Nat.le_refl _), ← get_of_zip t t [] rfl p j]
  rw [types_eq]
  simp only [List.length_map, Nat.sub_self, List.length_nil]
  cases (((t.map (fun e => e.1)).zip (List.range' 0 t.length)).filter (fun e => p e.1))[j]? with
  | none => rfl
  | some e => simp [get_eq]

example : concat [[("int", 1)], [], [("string", 2), ("int", 3)]] = some [("int", 1), ("string", 2), ("int", 3)] := by decide
example : filterTuple (fun s => s == "int") [("int", 1), ("string", 2), ("int", 3)] = some [("int", 1), ("int", 3)] := by decide
example : getType [("int", 1), ("string", 2), ("int", 3)] "int" 1 = some ("int", 3) := by decide
example : reverseTuple [("int", 1), ("string", 2)] = some [("string", 2), ("int", 1)] := by decide

end Verif.Meta.Tup

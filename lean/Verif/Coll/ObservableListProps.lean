import Verif.Coll.ObservableProps
/-
Observable lists.
-/
namespace Verif.Coll.Obs
variable {α : Type} [DecidableEq α]

/-- The plain list: results as in ObservableListWrapper, `none` for the exception. -/
def plain (xs : List α) : LOp α → List α × LRes
  | .add v => (xs ++ [v], some .unit)
  | .set i v => if i < xs.length then (xs.set i v, some .unit) else (xs, none)
  | .insert i v => if i ≤ xs.length then (xs.insertIdx i v, some .unit) else (xs, none)
  | .removeAt i => if i < xs.length then (xs.eraseIdx i, some .unit) else (xs, none)
  | .remove v => (xs.erase v, some (.bool (decide (v ∈ xs))))
  | .removeAll p => (xs.filter (fun x => !p x), some (.num (xs.countP p)))
  | .clear => ([], some .unit)

def plainRun : List α → List (LOp α) → List α × List LRes
  | xs, [] => (xs, [])
  | xs, o :: os => ((plainRun (plain xs o).1 os).1, (plain xs o).2 :: (plainRun (plain xs o).1 os).2)

theorem insert_insertIdx (xs : List α) (i : Nat) (v : α) (h : i ≤ xs.length) : xs.take i ++ v :: xs.drop i = xs.insertIdx i v := by
  induction xs generalizing i with
  | nil => have : i = 0 := by simpa using h
           subst this; rfl
  | cons x xs ih =>
    cases i with
    | zero => rfl
    | succ i => simp only [List.take_succ_cons, List.drop_succ_cons, List.cons_append, List.insertIdx_succ_cons]; rw [ih i (by simpa using h)]

theorem removeAt_getD {xs : List α} {i : Nat} {v : α} (h : xs[i]? = some v) : (Lst.removeAt xs i).getD xs = xs.eraseIdx i := by
  have := (List.getElem?_eq_some_iff.mp h).1
  simp [Lst.removeAt, this]

theorem listRemoval_follow {xs : List α} {i : Nat} {v : α} (h : xs[i]? = some v) :
    ∀ l, xs = l → ∃ l', Spec.followList l (listRemoval i v).2 = some l' ∧ (listRemoval i v).1 xs = l' := by
  intro l hl
  subst hl
  exact ⟨xs.eraseIdx i, by simp [Spec.followList, listRemoval, h], removeAt_getD h⟩

theorem removePlan_spec (p : α → Bool) : ∀ (n index ret : Nat) (kept rest : List α), n = rest.length → kept.length + ret = index →
    Chain Spec.followList Eq (kept ++ rest) (removePlan p n index ret (kept ++ rest)) ∧
    final (kept ++ rest) (removePlan p n index ret (kept ++ rest)) = kept ++ rest.filter (fun x => !p x) ∧
    (removePlan p n index ret (kept ++ rest)).length = rest.countP p
  | 0, index, ret, kept, rest, hn, hi => by
    have : rest = [] := List.length_eq_zero_iff.mp hn.symm
    subst this
    simp [removePlan, Chain, final]
  | n + 1, index, ret, kept, [], hn, hi => by simp at hn
  | n + 1, index, ret, kept, x :: rest, hn, hi => by
    have hx : (kept ++ x :: rest)[index - ret]? = some x := by
      have : index - ret = kept.length := by omega
      rw [this, List.getElem?_append_right (by omega)]; simp
    simp only [removePlan, hx]
    cases hp : p x with
    | true =>
      simp only [if_true]
      have he : (Lst.removeAt (kept ++ x :: rest) (index - ret)).getD (kept ++ x :: rest) = kept ++ rest := by
        rw [removeAt_getD hx]
        have : index - ret = kept.length := by omega
        rw [this, List.eraseIdx_append_of_length_le (by omega)]; simp
      rw [he]
      obtain ⟨h1, h2, h3⟩ := removePlan_spec p n (index + 1) (ret + 1) kept rest (by simpa using hn) (by omega)
      have he' : (listRemoval (index - ret) x).1 (kept ++ x :: rest) = kept ++ rest := he
      refine ⟨⟨listRemoval_follow hx, by rw [he']; exact h1⟩, ?_, ?_⟩
      · simp only [final, List.foldl_cons]
        rw [he', List.filter_cons_of_neg (by simp [hp])]
        exact h2
      · rw [List.length_cons, h3, List.countP_cons_of_pos hp]
    | false =>
      simp only [Bool.false_eq_true, if_false]
      obtain ⟨h1, h2, h3⟩ := removePlan_spec p n (index + 1) ret (kept ++ [x]) rest (by simpa using hn) (by simp; omega)
      have e : kept ++ [x] ++ rest = kept ++ x :: rest := by simp
      rw [e] at h1 h2 h3
      refine ⟨h1, ?_, ?_⟩
      · rw [h2, List.filter_cons_of_pos (by simp [hp])]; simp
      · rw [h3, List.countP_cons_of_neg (by simp [hp])]

theorem clear_spec : ∀ (xs : List α), Chain Spec.followList Eq xs (xs.map (listRemoval 0)) ∧ final xs (xs.map (listRemoval 0)) = []
  | [] => ⟨trivial, rfl⟩
  | x :: xs => by
    obtain ⟨h1, h2⟩ := clear_spec xs
    have he : (listRemoval 0 x).1 (x :: xs) = xs := by simp [listRemoval, Lst.removeAt]
    refine ⟨⟨listRemoval_follow rfl, by rw [he]; exact h1⟩, ?_⟩
    simp only [List.map_cons, final, List.foldl_cons]
    rw [he]; exact h2

theorem list_plan (xs : List α) (op : LOp α) :
    Chain Spec.followList Eq xs (listPlan xs op).1 ∧ (final xs (listPlan xs op).1, (listPlan xs op).2) = plain xs op := by
  cases op with
  | add v =>
    refine ⟨⟨?_, trivial⟩, rfl⟩
    intro l hl
    subst hl
    refine ⟨xs ++ [v], ?_, rfl⟩
    simp [Spec.followList]
  | set i v =>
    by_cases hi : i < xs.length
    · have : Lst.set xs i v = some (xs.set i v) := if_pos hi
      simp only [listPlan, this, plain, if_pos hi]
      refine ⟨⟨?_, trivial⟩, by simp [final, this]⟩
      intro l hl
      subst hl
      exact ⟨xs.set i v, by simp [Spec.followList, hi], by simp [this]⟩
    · have : Lst.set xs i v = none := if_neg hi
      simp only [listPlan, this, plain, if_neg hi]
      exact ⟨trivial, rfl⟩
  | insert i v =>
    by_cases hi : i ≤ xs.length
    · have : Lst.insert xs i v = some (xs.insertIdx i v) := (if_pos hi).trans (congrArg some (insert_insertIdx xs i v hi))
      simp only [listPlan, this, plain, if_pos hi]
      refine ⟨⟨?_, trivial⟩, by simp [final, this]⟩
      intro l hl
      subst hl
      exact ⟨xs.insertIdx i v, by simp [Spec.followList, hi], by simp [this]⟩
    · have : Lst.insert xs i v = none := if_neg hi
      simp only [listPlan, this, plain, if_neg hi]
      exact ⟨trivial, rfl⟩
  | removeAt i =>
    by_cases hi : i < xs.length
    · have hx : xs[i]? = some xs[i] := List.getElem?_eq_getElem hi
      have : Lst.get xs i = some xs[i] := (if_pos hi).trans hx
      simp only [listPlan, this, plain, if_pos hi]
      exact ⟨⟨listRemoval_follow hx, trivial⟩, congrArg (fun y => (y, some Dict.Res.unit)) (removeAt_getD hx)⟩
    · have : Lst.get xs i = none := if_neg hi
      simp only [listPlan, this, plain, if_neg hi]
      exact ⟨trivial, rfl⟩
  | remove v =>
    rcases list_indexOf xs v with ⟨h1, h2, _, _⟩ | ⟨pre, post, h1, h2, h3, _, h4⟩
    · simp only [listPlan, h2, plain]
      refine ⟨trivial, ?_⟩
      rw [List.erase_of_not_mem h1]
      simp [final, h1]
    · have hx : xs[pre.length]? = some v := by rw [h1, List.getElem?_append_right (by omega)]; simp
      have hl := (List.getElem?_eq_some_iff.mp hx).1
      have hget : Lst.get xs pre.length = some v := (if_pos hl).trans hx
      simp only [listPlan, h3, hget, plain]
      refine ⟨⟨listRemoval_follow hx, trivial⟩, ?_⟩
      have hv : v ∈ xs := by rw [h1]; simp
      have he : xs.eraseIdx pre.length = xs.erase v := by
        rw [h1, List.erase_append_right _ h2, List.erase_cons_head, List.eraseIdx_append_of_length_le (by omega)]; simp
      have : final xs [listRemoval pre.length v] = xs.erase v := (removeAt_getD hx).trans he
      rw [this]
      simp [hv]
  | removeAll p =>
    obtain ⟨h1, h2, h3⟩ := removePlan_spec p xs.length 0 0 [] xs rfl rfl
    simp only [List.nil_append] at h1 h2 h3
    exact ⟨h1, by simp only [listPlan, plain]; rw [h2, h3]⟩
  | clear =>
    obtain ⟨h1, h2⟩ := clear_spec xs
    exact ⟨h1, by simp only [listPlan, plain]; rw [h2]⟩

theorem list_populate (xs : List α) : Spec.replay Spec.followList [] ((list (α := α)).populate xs) = some xs := by
  have aux : ∀ (es acc : List α), Spec.replay Spec.followList acc ((es.zipIdx acc.length).map fun e => (⟨.added, e.2, e.1⟩ : Event Nat α)) = some (acc ++ es) := by
    intro es
    induction es with
    | nil => intro acc; simp [Spec.replay]
    | cons e es ih =>
      intro acc
      simp only [List.zipIdx_cons, List.map_cons, Spec.replay, Spec.followList]
      have := ih (acc ++ [e])
      simp at this ⊢
      exact this
  exact aux xs []

/-- Every observer of an observable list, whenever it connected: following its reports, which always make sense, it has exactly the list, also in the middle of each report.
    For observers which do not themselves change the list. -/
theorem list_observers_partial (n : Nat) (as : List (Act (List α) (Event Nat α) (LOp α)))
    (hq : ∀ react, Act.connect react ∈ as → ∀ e s, react e s = []) :
    let w := (run list (n + 1) ⟨[], []⟩ as).1
    ∀ ob ∈ w.observers,
      (ob.connected = true → Spec.replay Spec.followList [] (ob.log.map Note.ev) = some w.contents) ∧
      (∀ pre r post, ob.log = pre ++ r :: post → r.pop = false → Spec.replay Spec.followList [] ((pre ++ [r]).map Note.ev) = some r.seen) := by
  intro w ob hob
  have := (run_follows (follow := Spec.followList) (l0 := []) (Rel := Eq) list n (fun s l o _ => (list_plan s o).1) (fun s l _ => ⟨s, list_populate s, rfl⟩)
    as ⟨[], []⟩ hq (by intro ob hob; cases hob) ⟨[], rfl⟩ (by intro ob hob; cases hob)).2.2 ob hob
  refine ⟨fun hc => ?_, fun pre r post h1 h2 => ?_⟩
  · obtain ⟨l, h1, h2⟩ := this.now hc
    rw [h1, h2]
  · obtain ⟨l, h3, h4⟩ := this.always pre r post h1 h2
    rw [h3, h4]

/-- Being observed changes nothing: contents and results are those of a plain list. -/
theorem list_observed_partial (n : Nat) (as : List (Act (List α) (Event Nat α) (LOp α)))
    (hq : ∀ react, Act.connect react ∈ as → ∀ e s, react e s = []) :
    (run list (n + 1) ⟨[], []⟩ as).1.contents = (plainRun [] (calls as)).1 ∧
    (run list (n + 1) ⟨[], []⟩ as).2.filterMap id = (plainRun [] (calls as)).2 :=
  run_contents (follow := Spec.followList) (l0 := []) (Rel := Eq) list n plain (fun s l o _ => (list_plan s o).1) (fun s l _ => ⟨s, list_populate s, rfl⟩)
    (fun _ => True) (fun s l o _ _ => (list_plan s o).2) plainRun (fun _ => rfl) (fun _ _ _ => rfl)
    as ⟨[], []⟩ hq (by intro ob hob; cases hob) ⟨[], rfl⟩ (by intro ob hob; cases hob) (fun _ _ => trivial)

example : let w := (run list 1 ⟨[], []⟩
      [.connect (fun _ _ => []), .call (.add 1), .call (.add 2), .call (.insert 0 3), .connect (fun _ _ => []), .call (.add 5), .call (.removeAll (fun x => x % 2 = 1)), .call (.removeAt 7)]).1
    w.contents = [2] ∧ w.observers.map (fun ob => ob.log.map Note.ev)
      = [[⟨.added, 0, 1⟩, ⟨.added, 1, 2⟩, ⟨.added, 0, 3⟩, ⟨.added, 3, 5⟩, ⟨.removed, 0, 3⟩, ⟨.removed, 0, 1⟩, ⟨.removed, 1, 5⟩],
         [⟨.added, 0, 3⟩, ⟨.added, 1, 1⟩, ⟨.added, 2, 2⟩, ⟨.added, 3, 5⟩, ⟨.removed, 0, 3⟩, ⟨.removed, 0, 1⟩, ⟨.removed, 1, 5⟩]] := by
  decide

end Verif.Coll.Obs

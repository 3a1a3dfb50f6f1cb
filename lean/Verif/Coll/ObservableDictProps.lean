import Verif.Coll.ObservableProps
/-
Observable dictionaries and sets.
-/
namespace Verif.Coll.Obs
open Verif.Order
variable {κ ν : Type} {lt : κ → κ → Bool}

theorem remove_filter (h : StrictWeak lt) {kind : Kind} {xs l : List (κ × ν)} (hg : Good kind lt xs l) (k : κ) :
    (Dict.remove kind lt xs k).getD xs = xs.filter (fun e => !equiv lt e.1 k) := by
  unfold Dict.remove
  rcases find_cases h hg k with ⟨h1, h2⟩ | ⟨i, x, h1, h2, h3⟩
  · rw [h1]
    simp only [Option.getD_none]
    symm
    rw [List.filter_eq_self]
    intro e he; rw [h2 e he]; rfl
  · rw [h1]
    simp only [Option.getD_some]
    exact Flat.eraseIdx_filter h2 h3 (hg.uniq.pos h h2 h3)

theorem value_mem (h : StrictWeak lt) {l : List (κ × ν)} (hu : Uniq lt l) {e : κ × ν} (he : e ∈ l) {k : κ} (hk : equiv lt e.1 k = true) :
    Spec.value lt l k = some e.2 := by
  unfold Spec.value
  rw [all_of_unique he hk]
  · rfl
  · intro y hy hyk
    obtain ⟨i, hi⟩ := List.mem_iff_getElem?.mp he
    obtain ⟨m, hm⟩ := List.mem_iff_getElem?.mp hy
    have := hu.pos h hi hk m y hm hyk
    subst this
    rw [hi] at hm; injection hm with hm; exact hm.symm

theorem get_good (h : StrictWeak lt) {kind : Kind} {xs l : List (κ × ν)} (hg : Good kind lt xs l) (k : κ) :
    (Dict.get kind lt xs k = none ∧ ∀ e ∈ xs, equiv lt e.1 k = false) ∨
    ∃ e ∈ xs, equiv lt e.1 k = true ∧ Dict.get kind lt xs k = some e.2 := by
  unfold Dict.get
  rcases find_cases h hg k with ⟨h1, h2⟩ | ⟨i, x, h1, h2, h3⟩
  · rw [h1]; exact .inl ⟨rfl, h2⟩
  · rw [h1]; exact .inr ⟨x, List.mem_of_getElem? h2, h3, by simp [h2]⟩

variable [DecidableEq ν]

theorem removal_follow (h : StrictWeak lt) {kind : Kind} {xs l : List (κ × ν)} (hg : Good kind lt xs l) {k : κ} {v : ν} (hv : Spec.value lt l k = some v) :
    ∃ l', Spec.followDict lt l ⟨.removed, k, v⟩ = some l' ∧ Good kind lt ((dictRemoval kind lt (k, v)).1 xs) l' := by
  refine ⟨_, if_pos hv, ?_⟩
  simp only [dictRemoval]
  rw [remove_filter h hg]
  exact filter_good hg _

theorem removals_chain (h : StrictWeak lt) {kind : Kind} : ∀ (es xs l : List (κ × ν)), Good kind lt xs l → Uniq lt es → (∀ e ∈ es, e ∈ xs) →
    Chain (Spec.followDict lt) (Good kind lt) xs (es.map (dictRemoval kind lt)) ∧
    final xs (es.map (dictRemoval kind lt)) = xs.filter (fun x => es.all (fun e => !equiv lt x.1 e.1))
  | [], xs, l, _, _, _ => ⟨trivial, (List.filter_eq_self.mpr (fun _ _ => rfl)).symm⟩
  | e :: es, xs, l, hg, hu, hm => by
    have hu' := List.pairwise_cons.mp hu
    have hr : (dictRemoval kind lt e).1 xs = xs.filter (fun x => !equiv lt x.1 e.1) := remove_filter h hg e.1
    have ih := removals_chain h (kind := kind) es (xs.filter (fun x => !equiv lt x.1 e.1)) (l.filter (fun x => !equiv lt x.1 e.1)) (filter_good hg _) hu'.2 (by
      intro y hy
      rw [List.mem_filter]
      exact ⟨hm y (by simp [hy]), by rw [equiv_comm, hu'.1 y hy]; rfl⟩)
    simp only [List.map_cons, Chain, final, List.foldl_cons]
    rw [hr]
    refine ⟨⟨?_, ih.1⟩, ?_⟩
    · intro l1 hg1
      have hv : Spec.value lt l1 e.1 = some e.2 := value_mem h hg1.luniq (hg1.perm.mem_iff.mp (hm e (by simp))) (equiv_refl h _)
      have := removal_follow h hg1 hv
      rw [hr] at this
      exact this
    · have := ih.2
      unfold final at this
      rw [this, List.filter_filter]
      apply List.filter_congr
      intro x _
      rw [List.all_cons, Bool.and_comm]

theorem uniq_filter_all (h : StrictWeak lt) {xs : List (κ × ν)} (hu : Uniq lt xs) (p : κ × ν → Bool) :
    xs.filter (fun x => (xs.filter p).all (fun e => !equiv lt x.1 e.1)) = xs.filter (fun x => !p x) := by
  apply List.filter_congr
  intro x hx
  cases hp : p x with
  | true =>
    rw [Bool.not_true, List.all_eq_false]
    exact ⟨x, List.mem_filter.mpr ⟨hx, hp⟩, by rw [equiv_refl h]; simp⟩
  | false =>
    rw [Bool.not_false, List.all_eq_true]
    intro e he
    rw [List.mem_filter] at he
    cases hxe : equiv lt x.1 e.1 with
    | false => rfl
    | true =>
      obtain ⟨i, hi⟩ := List.mem_iff_getElem?.mp hx
      obtain ⟨j, hj⟩ := List.mem_iff_getElem?.mp he.1
      have := hu.pos h hi hxe j e hj (equiv_refl h _)
      subst this
      rw [hi] at hj; injection hj with hj
      rw [← hj, hp] at he; cases he.2

theorem dict_plan (h : StrictWeak lt) {kind : Kind} {xs l : List (κ × ν)} (hg : Good kind lt xs l) (op : Dict.Op κ ν) :
    Chain (Spec.followDict lt) (Good kind lt) xs (dictPlan kind lt xs op).1 ∧
    (final xs (dictPlan kind lt xs op).1, (dictPlan kind lt xs op).2) = Dict.step kind lt xs op := by
  cases op with
  | add k v =>
    rcases find_cases h hg k with ⟨h1, h2⟩ | ⟨i, x, h1, h2, h3⟩
    · have ha : Dict.add kind lt xs k v = some (Dict.put kind lt xs k v) := by unfold Dict.add; rw [h1]
      simp only [dictPlan, Dict.step, ha]
      refine ⟨⟨?_, trivial⟩, by simp [final, ha]⟩
      intro l1 hg1
      simp only [ha, Option.getD_some]
      refine ⟨l1 ++ [(k, v)], ?_, put_good h hg1 k v h2⟩
      have : Spec.has lt l1 k = false := by rw [← has_perm hg1.perm, has_false]; exact h2
      simp [Spec.followDict, this]
    · have ha : Dict.add kind lt xs k v = none := by unfold Dict.add; rw [h1]
      simp only [dictPlan, Dict.step, ha]
      exact ⟨trivial, rfl⟩
  | set k v =>
    refine ⟨⟨?_, trivial⟩, rfl⟩
    intro l1 hg1
    have := (dict_step h hg1 (.set k v)).1
    simp only [Dict.step] at this
    simp only []
    rcases find_cases h hg1 k with ⟨h1, h2⟩ | ⟨i, x, h1, h2, h3⟩
    · have hc : Dict.contains kind lt xs k = false := by unfold Dict.contains; rw [h1]; rfl
      have hh : Spec.has lt l1 k = false := by rw [← has_perm hg1.perm, has_false]; exact h2
      simp only [Spec.dictStep, hh] at this
      exact ⟨_, by simp [hc, Spec.followDict, hh], this⟩
    · have hc : Dict.contains kind lt xs k = true := by unfold Dict.contains; rw [h1]; rfl
      have hh : Spec.has lt l1 k = true := by rw [← has_perm hg1.perm, has_iff]; exact ⟨x, List.mem_of_getElem? h2, h3⟩
      simp only [Spec.dictStep, hh, if_true] at this
      exact ⟨_, by simp [hc, Spec.followDict, hh], this⟩
  | remove k =>
    rcases get_good h hg k with ⟨h1, h2⟩ | ⟨e, he, hk, h1⟩
    · simp only [dictPlan, h1]
      refine ⟨trivial, ?_⟩
      rcases find_cases h hg k with ⟨h3, _⟩ | ⟨i, x, h3, h4, h5⟩
      · simp [final, Dict.step, Dict.remove, h3]
      · rw [h2 x (List.mem_of_getElem? h4)] at h5; cases h5
    · simp only [dictPlan, h1]
      refine ⟨⟨?_, trivial⟩, ?_⟩
      · intro l1 hg1
        exact removal_follow h hg1 (value_mem h hg1.luniq (hg1.perm.mem_iff.mp he) hk)
      · rcases find_cases h hg k with ⟨h3, h4⟩ | ⟨i, x, h3, h4, h5⟩
        · rw [h4 e he] at hk; cases hk
        · simp [final, Dict.step, Dict.remove, h3, dictRemoval]
  | removeWhere p =>
    have := removals_chain h (kind := kind) (xs.filter (fun e => p e.1 e.2)) xs l hg (List.Pairwise.sublist List.filter_sublist hg.uniq) (fun e he => (List.mem_filter.mp he).1)
    refine ⟨this.1, ?_⟩
    simp only [dictPlan, Dict.step]
    rw [this.2, uniq_filter_all h hg.uniq (fun e => p e.1 e.2)]
  | clear =>
    have := removals_chain h (kind := kind) xs xs l hg hg.uniq (fun e he => he)
    refine ⟨this.1, ?_⟩
    simp only [dictPlan, Dict.step]
    rw [this.2]
    congr 1
    rw [List.filter_eq_nil_iff]
    intro x hx
    simp only [Bool.not_eq_true]
    rw [List.all_eq_false]
    exact ⟨x, hx, by rw [equiv_refl h]; simp⟩

theorem dict_populate (h : StrictWeak lt) {kind : Kind} {xs l : List (κ × ν)} (hg : Good kind lt xs l) :
    ∃ l', Spec.replay (Spec.followDict lt) [] ((dict kind lt).populate xs) = some l' ∧ Good kind lt xs l' := by
  have aux : ∀ (es acc : List (κ × ν)), Uniq lt (acc ++ es) → Spec.replay (Spec.followDict lt) acc (es.map fun e => (⟨.added, e.1, e.2⟩ : Event κ ν)) = some (acc ++ es) := by
    intro es
    induction es with
    | nil => intro acc _; simp [Spec.replay]
    | cons e es ih =>
      intro acc hu
      have hn : Spec.has lt acc e.1 = false := by
        rw [has_false]
        intro a ha
        have := List.pairwise_append.mp hu
        exact this.2.2 a ha e (by simp)
      simp only [List.map_cons, Spec.replay, Spec.followDict, hn]
      have := ih (acc ++ [e]) (by simpa using hu)
      simpa using this
  refine ⟨xs, aux xs [] hg.uniq, ?_, hg.uniq⟩
  have := hg.arr
  cases kind with
  | insertion => rfl
  | sorted => exact ⟨List.Perm.refl _, this.2⟩

/-- Every observer of an observable dictionary or set, whenever it connected, and however the program goes on: its reports make sense one by one, and following them it has exactly the contents
    of the collection, in the same order if that is the order of insertion; and so already in the middle of each report, when it looks at the collection.  For observers which do not themselves change the collection. -/
theorem dictionary_observers_partial (h : StrictWeak lt) (kind : Kind) (n : Nat) (as : List (Act (List (κ × ν)) (Event κ ν) (Dict.Op κ ν)))
    (hq : ∀ react, Act.connect react ∈ as → ∀ e s, react e s = []) :
    let w := (run (dict kind lt) (n + 1) ⟨[], []⟩ as).1
    ∀ ob ∈ w.observers,
      (ob.connected = true → ∃ l, Spec.replay (Spec.followDict lt) [] (ob.log.map Note.ev) = some l ∧ Spec.Arranged kind lt w.contents l) ∧
      (∀ pre r post, ob.log = pre ++ r :: post → r.pop = false →
        ∃ l, Spec.replay (Spec.followDict lt) [] ((pre ++ [r]).map Note.ev) = some l ∧ Spec.Arranged kind lt r.seen l) := by
  intro w ob hob
  have := (run_follows (follow := Spec.followDict lt) (l0 := []) (Rel := Good kind lt) (dict kind lt) n (fun s l o hg => (dict_plan h hg o).1) (fun s l hg => dict_populate h hg)
    as ⟨[], []⟩ hq (by intro ob hob; cases hob) ⟨[], good_nil kind⟩ (by intro ob hob; cases hob)).2.2 ob hob
  refine ⟨fun hc => ?_, fun pre r post h1 h2 => ?_⟩
  · obtain ⟨l, h1, h2⟩ := this.now hc
    exact ⟨l, h1, h2.arr⟩
  · obtain ⟨l, h3, h4⟩ := this.always pre r post h1 h2
    exact ⟨l, h3, h4.arr⟩

/-- Being observed changes nothing: contents and results are those of the plain dictionary. -/
theorem dictionary_observed_partial (h : StrictWeak lt) (kind : Kind) (n : Nat) (as : List (Act (List (κ × ν)) (Event κ ν) (Dict.Op κ ν)))
    (hq : ∀ react, Act.connect react ∈ as → ∀ e s, react e s = []) :
    (run (dict kind lt) (n + 1) ⟨[], []⟩ as).1.contents = (Dict.run kind lt [] (calls as)).1 ∧
    (run (dict kind lt) (n + 1) ⟨[], []⟩ as).2.filterMap id = (Dict.run kind lt [] (calls as)).2 :=
  run_contents (follow := Spec.followDict lt) (l0 := []) (Rel := Good kind lt) (dict kind lt) n (Dict.step kind lt) (fun s l o hg => (dict_plan h hg o).1) (fun s l hg => dict_populate h hg)
    (fun _ => True) (fun s l o hg _ => (dict_plan h hg o).2) (Dict.run kind lt) (fun _ => rfl) (fun _ _ _ => rfl)
    as ⟨[], []⟩ hq (by intro ob hob; cases hob) ⟨[], good_nil kind⟩ (by intro ob hob; cases hob) (fun _ _ => trivial)

/-- The first observer removes key 1 as soon as it appears.  The second one is told first that key 1 was removed and then that it was added: it ends up with a key that is not there. -/
theorem reentrant_observer_violated :
    let w := (run (dict .sorted (fun a b : Nat => decide (a < b))) 5 ⟨[], []⟩
      [.connect (fun e _ => if e.op = .added then [Dict.Op.remove e.key] else []), .connect (fun _ _ => []), .call (.add 1 'a')]).1
    w.contents = [] ∧ w.observers.map (fun ob => ob.log.map Note.ev)
        = [[⟨.added, 1, 'a'⟩, ⟨.removed, 1, 'a'⟩], [⟨.removed, 1, 'a'⟩, ⟨.added, 1, 'a'⟩]] ∧
      Spec.replay (Spec.followDict (fun a b : Nat => decide (a < b))) [] [⟨.removed, 1, 'a'⟩, ⟨.added, 1, 'a'⟩] = none := by
  decide

/-- A set whose order does not tell 3 and 13 apart: the removal of 13 takes away 3 and reports 13, which was never added. -/
theorem removed_element_violated :
    let w := (run (dict .sorted (fun a b : Nat => decide (a % 10 < b % 10))) 5 ⟨[], []⟩ [.connect (fun _ _ => []), .call (.add 3 ()), .call (.remove 13)]).1
    w.contents = [] ∧ w.observers.map (fun ob => ob.log.map Note.ev) = [[⟨.added, 3, ()⟩, ⟨.removed, 13, ()⟩]] := by
  decide

/-- Two observers, one connected late; a dictionary in order of insertion. -/
example : let w := (run (dict .insertion (fun a b : Nat => decide (a < b))) 1 ⟨[], []⟩
      [.connect (fun _ _ => []), .call (.add 7 'a'), .call (.set 3 'b'), .connect (fun _ _ => []), .call (.set 7 'c'), .call (.add 3 'x'), .call (.add 5 'd'), .call (.removeWhere (fun k _ => k < 6))]).1
    w.contents = [(7, 'c')] ∧ w.observers.map (fun ob => ob.log.map Note.ev)
      = [[⟨.added, 7, 'a'⟩, ⟨.added, 3, 'b'⟩, ⟨.updated, 7, 'c'⟩, ⟨.added, 5, 'd'⟩, ⟨.removed, 3, 'b'⟩, ⟨.removed, 5, 'd'⟩],
         [⟨.added, 7, 'a'⟩, ⟨.added, 3, 'b'⟩, ⟨.updated, 7, 'c'⟩, ⟨.added, 5, 'd'⟩, ⟨.removed, 3, 'b'⟩, ⟨.removed, 5, 'd'⟩]] := by
  decide

end Verif.Coll.Obs

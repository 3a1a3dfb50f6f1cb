import Verif.Coll.KindsSpec
import Verif.Flat.Lemmas
/-
GenericSet and GenericDictionary are sets and dictionaries.
-/
namespace Verif.Coll
open Verif.Order
variable {κ ν : Type} {lt : κ → κ → Bool}

/-- No two entries have equivalent keys. -/
def Uniq (lt : κ → κ → Bool) (l : List (κ × ν)) : Prop := l.Pairwise (fun a b => equiv lt a.1 b.1 = false)

theorem Uniq.perm {l l' : List (κ × ν)} (h : Uniq lt l) (hp : l.Perm l') : Uniq lt l' :=
  List.Pairwise.perm h hp (fun {a b} hab => by rw [equiv_comm]; exact hab)

theorem sorted_uniq (h : StrictWeak lt) {l : List (κ × ν)} (hs : l.Pairwise (fun a b => lt a.1 b.1 = true)) : Uniq lt l := by
  refine hs.imp ?_
  intro a b hab
  unfold equiv
  rw [hab]; rfl

theorem Uniq.pos (h : StrictWeak lt) {l : List (κ × ν)} (hu : Uniq lt l) {i : Nat} {x : κ × ν} (hi : l[i]? = some x) {k : κ} (hk : equiv lt x.1 k = true) :
    ∀ (m : Nat) (y : κ × ν), l[m]? = some y → equiv lt y.1 k = true → m = i := by
  intro m y hm hy
  obtain ⟨hi', rfl⟩ := List.getElem?_eq_some_iff.mp hi
  obtain ⟨hm', rfl⟩ := List.getElem?_eq_some_iff.mp hm
  have he : equiv lt l[m].1 l[i].1 = true := equiv_trans h hy (by rw [equiv_comm]; exact hk)
  rcases Nat.lt_trichotomy m i with hij | hij | hij
  · have := List.pairwise_iff_getElem.mp hu m i hm' hi' hij
    rw [he] at this; cases this
  · exact hij
  · have := List.pairwise_iff_getElem.mp hu i m hi' hm' hij
    rw [equiv_comm, he] at this; cases this

/-- The state of a dictionary between calls. -/
structure Good (kind : Kind) (lt : κ → κ → Bool) (xs l : List (κ × ν)) : Prop where
  arr : Spec.Arranged kind lt xs l
  uniq : Uniq lt xs

theorem Good.perm {kind : Kind} {xs l : List (κ × ν)} (h : Good kind lt xs l) : xs.Perm l := by
  have := h.arr
  cases kind with
  | sorted => exact this.1
  | insertion => simp only [Spec.Arranged] at this; rw [this]

theorem Good.luniq {kind : Kind} {xs l : List (κ × ν)} (h : Good kind lt xs l) : Uniq lt l := h.uniq.perm h.perm

/-- The two ways a search ends. -/
theorem find_cases (h : StrictWeak lt) {kind : Kind} {xs l : List (κ × ν)} (hg : Good kind lt xs l) (k : κ) :
    (Dict.find kind lt xs k = none ∧ ∀ e ∈ xs, equiv lt e.1 k = false) ∨
    ∃ i x, Dict.find kind lt xs k = some i ∧ xs[i]? = some x ∧ equiv lt x.1 k = true := by
  cases kind with
  | insertion =>
    simp only [Dict.find]
    cases hf : xs.findIdx? (fun e => equiv lt e.1 k) with
    | none =>
      left
      refine ⟨rfl, ?_⟩
      rw [List.findIdx?_eq_none_iff] at hf
      exact fun e he => by simpa using hf e he
    | some i =>
      right
      rw [List.findIdx?_eq_some_iff_getElem] at hf
      obtain ⟨hi, he, _⟩ := hf
      exact ⟨i, xs[i], rfl, List.getElem?_eq_getElem hi, by simpa using he⟩
  | sorted =>
    have hs := hg.arr.2
    simp only [Dict.find, Dict.atLower]
    cases hx : xs[lowerBound lt Prod.fst xs k]? with
    | none =>
      left
      refine ⟨rfl, (lowerBound_absent h xs hs k ?_).1⟩
      intro e he
      rw [hx] at he; cases he
    | some x =>
      simp only []
      cases hk : lt k x.1 with
      | true =>
        left
        refine ⟨rfl, (lowerBound_absent h xs hs k ?_).1⟩
        intro e he
        rw [hx] at he; injection he with he; subst he; exact hk
      | false =>
        right
        exact ⟨_, x, rfl, hx, (lowerBound_present xs k x hx hk).2⟩

theorem has_iff {l : List (κ × ν)} {k : κ} : Spec.has lt l k = true ↔ ∃ e ∈ l, equiv lt e.1 k = true := by
  unfold Spec.has; rw [List.any_eq_true]

theorem has_false {l : List (κ × ν)} {k : κ} : Spec.has lt l k = false ↔ ∀ e ∈ l, equiv lt e.1 k = false := by
  unfold Spec.has; rw [List.any_eq_false]
  exact ⟨fun h e he => by simpa using h e he, fun h e he => by simp [h e he]⟩

theorem has_perm {l l' : List (κ × ν)} (h : l.Perm l') (k : κ) : Spec.has lt l k = Spec.has lt l' k := by
  rw [Bool.eq_iff_iff, has_iff, has_iff]
  exact ⟨fun ⟨e, he, hk⟩ => ⟨e, h.mem_iff.mp he, hk⟩, fun ⟨e, he, hk⟩ => ⟨e, h.mem_iff.mpr he, hk⟩⟩

theorem put_good (h : StrictWeak lt) {kind : Kind} {xs l : List (κ × ν)} (hg : Good kind lt xs l) (k : κ) (v : ν)
    (hn : ∀ e ∈ xs, equiv lt e.1 k = false) : Good kind lt (Dict.put kind lt xs k v) (l ++ [(k, v)]) := by
  cases kind with
  | insertion =>
    have := hg.arr
    simp only [Spec.Arranged] at this
    refine ⟨by simp only [Spec.Arranged, Dict.put]; rw [this], ?_⟩
    simp only [Dict.put]
    unfold Uniq
    rw [List.pairwise_append]
    refine ⟨hg.uniq, by simp, ?_⟩
    intro a ha b hb
    simp only [List.mem_singleton] at hb
    subst hb
    exact hn a ha
  | sorted =>
    have hs := hg.arr.2
    have hsrt : Sorted lt Prod.fst (Dict.put .sorted lt xs k v) := by
      simp only [Dict.put]
      refine (lowerBound_absent h xs hs k ?_).2 (k, v) rfl
      intro e he
      cases hk : lt k e.1 with
      | true => rfl
      | false =>
        have := lowerBound_present xs k e he hk
        rw [hn e this.1] at this
        cases this.2
    refine ⟨⟨?_, hsrt⟩, sorted_uniq h hsrt⟩
    simp only [Dict.put]
    refine List.Perm.trans List.perm_middle ?_
    rw [List.take_append_drop]
    exact (List.Perm.cons _ hg.arr.1).trans (List.perm_append_comm (l₁ := [(k, v)]))

theorem map_good (h : StrictWeak lt) {kind : Kind} {xs l : List (κ × ν)} (hg : Good kind lt xs l) (k : κ) (v : ν) :
    Good kind lt (xs.map (fun e => if equiv lt e.1 k then (e.1, v) else e)) (l.map (fun e => if equiv lt e.1 k then (e.1, v) else e)) := by
  refine ⟨?_, ?_⟩
  · have := hg.arr
    cases kind with
    | insertion => simp only [Spec.Arranged] at this ⊢; rw [this]
    | sorted =>
      refine ⟨this.1.map _, ?_⟩
      rw [List.pairwise_map]
      refine this.2.imp ?_
      intro a b hab
      split <;> split <;> exact hab
  · unfold Uniq
    rw [List.pairwise_map]
    refine List.Pairwise.imp ?_ hg.uniq
    intro a b hab
    split <;> split <;> exact hab

theorem filter_good {kind : Kind} {xs l : List (κ × ν)} (hg : Good kind lt xs l) (p : κ × ν → Bool) : Good kind lt (xs.filter p) (l.filter p) := by
  refine ⟨?_, List.Pairwise.sublist List.filter_sublist hg.uniq⟩
  have := hg.arr
  cases kind with
  | insertion => simp only [Spec.Arranged] at this ⊢; rw [this]
  | sorted => exact ⟨this.1.filter _, List.Pairwise.sublist List.filter_sublist this.2⟩

theorem dict_step (h : StrictWeak lt) {kind : Kind} {xs l : List (κ × ν)} (hg : Good kind lt xs l) (op : Dict.Op κ ν) :
    Good kind lt (Dict.step kind lt xs op).1 (Spec.dictStep lt l op).1 ∧ (Dict.step kind lt xs op).2 = (Spec.dictStep lt l op).2 := by
  have absent : ∀ {k}, (∀ e ∈ xs, equiv lt e.1 k = false) → Spec.has lt l k = false := by
    intro k hn
    rw [← has_perm hg.perm, has_false]; exact hn
  have present : ∀ {k : κ} {i : Nat} {x : κ × ν}, xs[i]? = some x → equiv lt x.1 k = true → Spec.has lt l k = true := by
    intro k i x hi hx
    rw [← has_perm hg.perm, has_iff]
    exact ⟨x, List.mem_of_getElem? hi, hx⟩
  cases op with
  | add k v =>
    simp only [Dict.step, Dict.add, Spec.dictStep]
    rcases find_cases h hg k with ⟨h1, h2⟩ | ⟨i, x, h1, h2, h3⟩
    · rw [h1, absent h2]
      exact ⟨put_good h hg k v h2, rfl⟩
    · rw [h1, present h2 h3]
      exact ⟨hg, rfl⟩
  | set k v =>
    simp only [Dict.step, Dict.set, Spec.dictStep]
    rcases find_cases h hg k with ⟨h1, h2⟩ | ⟨i, x, h1, h2, h3⟩
    · rw [h1, absent h2]
      exact ⟨put_good h hg k v h2, rfl⟩
    · rw [h1, present h2 h3]
      simp only [if_true]
      refine ⟨?_, trivial⟩
      rw [Flat.modify_setVal (lt := lt) (k := k) h2 h3 (hg.uniq.pos h h2 h3)]
      exact map_good h hg k v
  | remove k =>
    simp only [Dict.step, Dict.remove, Spec.dictStep]
    rcases find_cases h hg k with ⟨h1, h2⟩ | ⟨i, x, h1, h2, h3⟩
    · rw [h1, absent h2]
      refine ⟨?_, rfl⟩
      have : l.filter (fun e => !equiv lt e.1 k) = l := by
        rw [List.filter_eq_self]
        intro e he
        rw [h2 e (hg.perm.mem_iff.mpr he)]; rfl
      simp only []
      rw [this]; exact hg
    · rw [h1, present h2 h3]
      refine ⟨?_, rfl⟩
      simp only []
      rw [Flat.eraseIdx_filter h2 h3 (hg.uniq.pos h h2 h3)]
      exact filter_good hg _
  | removeWhere p =>
    refine ⟨filter_good hg _, ?_⟩
    simp only [Dict.step, Spec.dictStep]
    rw [← List.countP_eq_length_filter, hg.perm.countP_eq]
  | clear =>
    refine ⟨⟨?_, List.Pairwise.nil⟩, rfl⟩
    cases kind with
    | insertion => rfl
    | sorted => exact ⟨List.Perm.refl _, List.Pairwise.nil⟩

theorem dict_run (h : StrictWeak lt) {kind : Kind} (ops : List (Dict.Op κ ν)) : ∀ {xs l : List (κ × ν)}, Good kind lt xs l →
    Good kind lt (Dict.run kind lt xs ops).1 (Spec.dictRun lt l ops).1 ∧ (Dict.run kind lt xs ops).2 = (Spec.dictRun lt l ops).2 := by
  induction ops with
  | nil => intro xs l hg; exact ⟨hg, rfl⟩
  | cons op ops ih =>
    intro xs l hg
    obtain ⟨h1, h2⟩ := dict_step h hg op
    obtain ⟨h3, h4⟩ := ih h1
    exact ⟨h3, by simp only [Dict.run, Spec.dictRun]; rw [h2, h4]⟩

theorem good_nil (kind : Kind) : Good kind lt ([] : List (κ × ν)) [] := by
  refine ⟨?_, List.Pairwise.nil⟩
  cases kind with
  | insertion => rfl
  | sorted => exact ⟨List.Perm.refl _, List.Pairwise.nil⟩

/-- Every history of calls on an empty set or dictionary returns what the abstract one returns and leaves the same entries, shown in key order by the sorted
    kinds and in order of insertion by the ordered kinds. -/
theorem dictionary_refines (h : StrictWeak lt) (kind : Kind) (ops : List (Dict.Op κ ν)) :
    (Dict.run kind lt [] ops).2 = (Spec.dictRun lt [] ops).2 ∧ Spec.Arranged kind lt (Dict.run kind lt [] ops).1 (Spec.dictRun lt [] ops).1 :=
  let ⟨h1, h2⟩ := dict_run h ops (good_nil kind)
  ⟨h2, h1.arr⟩

theorem all_of_unique {l : List (κ × ν)} {k : κ} {x : κ × ν} (hx : x ∈ l) (hk : equiv lt x.1 k = true)
    (hu : ∀ y ∈ l, equiv lt y.1 k = true → y = x) : (Spec.all lt l k).head? = some x := by
  unfold Spec.all
  rw [List.head?_filter]
  cases hf : l.find? (fun e => equiv lt e.1 k) with
  | none => have := List.find?_eq_none.mp hf x hx; rw [hk] at this; exact absurd rfl this
  | some y => rw [hu y (List.mem_of_find?_eq_some hf) (List.find?_some (p := fun e : κ × ν => equiv lt e.1 k) hf)]

/-- After any history: Contains, Get and TryGet tell whether there is an entry for the key and its value; Find enumerates from that entry on, ReverseFind from it backwards,
    both nothing if there is none. -/
theorem dictionary_lookup (h : StrictWeak lt) (kind : Kind) (ops : List (Dict.Op κ ν)) (k : κ) :
    let xs := (Dict.run kind lt [] ops).1
    let l := (Spec.dictRun lt [] ops).1
    Dict.contains kind lt xs k = Spec.has lt l k ∧ Dict.get kind lt xs k = Spec.value lt l k ∧
    ((Spec.has lt l k = false ∧ Dict.findFrom kind lt xs k = [] ∧ Dict.reverseFindFrom kind lt xs k = []) ∨
     ∃ pre e post, xs = pre ++ e :: post ∧ equiv lt e.1 k = true ∧ Dict.findFrom kind lt xs k = e :: post ∧ Dict.reverseFindFrom kind lt xs k = e :: pre.reverse) := by
  intro xs l
  have hg : Good kind lt xs l := (dict_run h ops (good_nil kind)).1
  rcases find_cases h hg k with ⟨h1, h2⟩ | ⟨i, x, h1, h2, h3⟩
  · have hf : Spec.has lt l k = false := by rw [← has_perm hg.perm, has_false]; exact h2
    refine ⟨?_, ?_, .inl ⟨hf, ?_, ?_⟩⟩
    · unfold Dict.contains; rw [h1, hf]; rfl
    · unfold Dict.get; rw [h1]
      unfold Spec.value
      rw [has_false] at hf
      have : Spec.all lt l k = [] := by
        unfold Spec.all; rw [List.filter_eq_nil_iff]; intro e he; rw [hf e he]; simp
      rw [this]; rfl
    · unfold Dict.findFrom; rw [h1]
    · unfold Dict.reverseFindFrom; rw [h1]
  · have ht : Spec.has lt l k = true := by rw [← has_perm hg.perm, has_iff]; exact ⟨x, List.mem_of_getElem? h2, h3⟩
    obtain ⟨hi, rfl⟩ := List.getElem?_eq_some_iff.mp h2
    refine ⟨?_, ?_, .inr ⟨xs.take i, xs[i], xs.drop (i + 1), ?_, h3, ?_, ?_⟩⟩
    · unfold Dict.contains; rw [h1, ht]; rfl
    · unfold Dict.get; rw [h1]
      unfold Spec.value
      simp only [h2]
      rw [all_of_unique (hg.perm.mem_iff.mp (List.mem_of_getElem? h2)) h3 ?_]
      intro y hy hyk
      have hy' := hg.perm.mem_iff.mpr hy
      obtain ⟨m, hm⟩ := List.mem_iff_getElem?.mp hy'
      have := hg.uniq.pos h h2 h3 m y hm hyk
      subst this
      rw [h2] at hm; injection hm with hm; exact hm.symm
    · rw [List.getElem_cons_drop, List.take_append_drop]
    · unfold Dict.findFrom; rw [h1]
      simp only []
      rw [List.getElem_cons_drop]
    · unfold Dict.reverseFindFrom; rw [h1]
      simp only []
      rw [List.take_succ, h2]
      simp

/-- A history on a sorted dictionary with keys compared modulo 10. -/
example : Dict.run .sorted (fun a b : Nat => decide (a % 10 < b % 10)) [] [.add 7 'a', .add 3 'b', .add 17 'c', .set 13 'd', .add 5 'e', .remove 27, .removeWhere (fun k _ => k = 5)]
    = ([(3, 'd')], [.bool true, .bool true, .bool false, .unit, .bool true, .bool true, .num 1]) := by decide
example : StrictWeak (fun a b : Nat => decide (a % 10 < b % 10)) := strictWeak_mod
example : (Dict.run .insertion (fun a b : Nat => decide (a < b)) [] [.add 7 'a', .add 3 'b', .set 5 'c', .set 7 'd']).1 = [(7, 'd'), (3, 'b'), (5, 'c')] := by decide

end Verif.Coll

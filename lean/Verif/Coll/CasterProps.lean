import Verif.Coll.Caster
import Verif.Coll.DerivedProps
import Verif.Coll.ObservableListProps
import Verif.Trans.ListProps
import Verif.Coll.DerivedTransProps
/-
C158: a view through a cast always shows the cast contents of the wrapped collection, and so do its reports.
-/
namespace Verif.Coll.Cast
open Verif.Order Verif.Coll Verif.Coll.Obs
variable {κ κ' ν ν' α β : Type}

/-! ### Specification -/

/-- The back caster finds exactly the value that is cast to `d`. -/
def Faithful (cast : α → β) (back : β → Option α) : Prop := ∀ d v, back d = some v ↔ cast v = d

/-! ### Reading -/

/-- **C158** Reading a list through the view is reading the list of the cast values: enumerating in both directions,
counting, `Get`, `TryGet`, and with a faithful back caster `Contains` and `IndexOf` (the first such index). -/
theorem list_reads [DecidableEq α] (cast : α → β) (back : β → Option α) (hf : Faithful cast back) (xs : List α) :
    listReverse cast xs = (listEnumerate cast xs).reverse ∧
    listCount xs = (listEnumerate cast xs).length ∧
    (∀ i : Nat, listGet cast xs i = (listEnumerate cast xs)[i]? ∧ listTryGet cast xs i = (listEnumerate cast xs)[i]?) ∧
    (∀ d, listContains back xs d = true ↔ d ∈ listEnumerate cast xs) ∧
    (∀ d, (∀ i : Nat, listIndexOf back xs d = some i ↔ (listEnumerate cast xs)[i]? = some d ∧ ∀ j : Nat, j < i → (listEnumerate cast xs)[j]? ≠ some d) ∧
      (listIndexOf back xs d = none ↔ d ∉ listEnumerate cast xs)) := by
  have hinj : ∀ u v, cast u = cast v → u = v := by
    intro u v h
    have h1 := (hf (cast u) u).mpr rfl
    have h2 := (hf (cast u) v).mpr h.symm
    rw [h1] at h2; exact Option.some.inj h2
  refine ⟨?_, ?_, ?_, ?_, ?_⟩
  · simp [listReverse, listEnumerate]
  · simp [listCount, listEnumerate]
  · intro i
    have h1 : Lst.get xs i = xs[i]? := by
      unfold Lst.get
      split
      · rfl
      · rw [List.getElem?_eq_none (by omega)]
    have h2 : Lst.tryGet xs i = xs[i]? := by
      unfold Lst.tryGet
      split
      · rw [List.getElem?_eq_none (by omega)]
      · rfl
    refine ⟨?_, ?_⟩
    · rw [listGet, h1, listEnumerate, List.getElem?_map]
    · rw [listTryGet, h2, listEnumerate, List.getElem?_map]; cases xs[i]? <;> rfl
  · intro d
    unfold listContains listEnumerate
    rw [List.mem_map]
    cases hb : back d with
    | none =>
      simp only [Bool.false_eq_true, false_iff]
      rintro ⟨v, _, hv⟩
      rw [(hf d v).mpr hv] at hb; cases hb
    | some v =>
      have hv := (hf d v).mp hb
      simp only [Lst.contains, List.findIdx?_isSome, List.any_eq_true, decide_eq_true_eq]
      constructor
      · rintro ⟨x, hx, rfl⟩; exact ⟨x, hx, hv⟩
      · rintro ⟨x, hx, he⟩; exact ⟨x, hx, hinj _ _ (he.trans hv.symm)⟩
  · intro d
    unfold listIndexOf listEnumerate
    cases hb : back d with
    | none =>
      have hno : ∀ v, cast v ≠ d := by
        intro v hv; rw [(hf d v).mpr hv] at hb; cases hb
      refine ⟨fun i => ⟨fun h => by simp at h, fun h => ?_⟩, ⟨fun _ h => ?_, fun _ => rfl⟩⟩
      · have h1 := h.1
        rw [List.getElem?_map] at h1
        obtain ⟨v, _, hv⟩ := Option.map_eq_some_iff.mp h1
        exact absurd hv (hno v)
      · obtain ⟨v, _, hv⟩ := List.mem_map.mp h; exact hno v hv
    | some v =>
      have hv := (hf d v).mp hb
      have hiff : ∀ j : Nat, (xs.map cast)[j]? = some d ↔ xs[j]? = some v := by
        intro j
        rw [List.getElem?_map]
        constructor
        · intro h
          obtain ⟨u, h1, h2⟩ := Option.map_eq_some_iff.mp h
          rw [h1, hinj u v (h2.trans hv.symm)]
        · intro h; rw [h]; simp [hv]
      refine ⟨fun i => ?_, ?_⟩
      · simp only [Lst.indexOf, List.findIdx?_eq_some_iff_getElem, decide_eq_true_eq]
        rw [hiff i]
        constructor
        · rintro ⟨h1, h2, h3⟩
          refine ⟨by rw [List.getElem?_eq_getElem h1, h2], fun j hj he => ?_⟩
          have h4 := h3 j hj
          have he' := (hiff j).mp he
          rw [List.getElem?_eq_getElem (by omega)] at he'
          exact h4 (Option.some.inj he')
        · rintro ⟨h1, h2⟩
          obtain ⟨hl, he⟩ := List.getElem?_eq_some_iff.mp h1
          refine ⟨hl, he, fun j hj h5 => ?_⟩
          have h4 := fun h => h2 j hj ((hiff j).mpr h)
          rw [List.getElem?_eq_getElem (by omega)] at h4
          exact h4 (by rw [h5])
      · simp only [Lst.indexOf, List.findIdx?_eq_none_iff, decide_eq_false_iff_not, List.mem_map]
        constructor
        · rintro h ⟨u, hu, he⟩; exact h u hu (hinj u v (he.trans hv.symm))
        · intro h u hu he; subst he; exact h ⟨u, hu, hv⟩

/-! ### Reports -/

/-- What the view's connection is told, whatever the collection: the population leads to the contents at that
moment and the later events from there to the present contents. -/
theorem later_follows {S E O R L : Type} {follow : L → E → Option L} {l0 : L} {Rel : S → L → Prop} (m : Machine S E O R) (n : Nat) (s0 : S) (h0 : ∃ l, Rel s0 l)
    (hplan : ∀ s l o, Rel s l → Chain follow Rel s (m.plan s o).1)
    (hpop : ∀ s l, Rel s l → ∃ l', Spec.replay follow l0 (m.populate s) = some l' ∧ Rel s l')
    (before after : List (Act S E O)) (hq : QuietActs (before ++ after))
    (hd : Act.disconnect (run m (n + 1) ⟨s0, []⟩ before).1.observers.length ∉ after) :
    let w1 := (run m (n + 1) ⟨s0, []⟩ before).1
    let w2 := (run m (n + 1) ⟨s0, []⟩ (before ++ .connect passOn :: after)).1
    ∃ l1 l2, Spec.replay follow l0 (m.populate w1.contents) = some l1 ∧ Rel w1.contents l1 ∧
      Spec.replay follow l1 (later w2 w1.observers.length) = some l2 ∧ Rel w2.contents l2 := by
  intro w1 w2
  have hq1 : QuietActs before := fun r hr => hq r (by simp [hr])
  have hq2 : QuietActs (.connect passOn :: after) := by
    intro r hr
    rcases List.mem_cons.mp hr with hr | hr
    · injection hr with hr; subst hr; intros; rfl
    · exact hq r (by simp [hr])
  obtain ⟨k1, ⟨lx, k2⟩, k3⟩ := run_follows (follow := follow) (l0 := l0) (Rel := Rel) m n hplan hpop
    before ⟨s0, []⟩ hq1 (by intro ob hob; cases hob) h0 (by intro ob hob; cases hob)
  obtain ⟨l1, p1, p2⟩ := hpop _ _ k2
  obtain ⟨_, _, g3⟩ := run_follows (follow := follow) (l0 := l0) (Rel := Rel) m n hplan hpop
    (.connect passOn :: after) w1 hq2 k1 ⟨lx, k2⟩ k3
  have hw2 : (run m (n + 1) w1 (.connect passOn :: after)).1 = w2 := (run_append _ _ _ _ _).symm
  rw [hw2] at g3
  obtain ⟨ob', rest, q1, q2, q3, q4⟩ := run_log m n (fun _ => True) after
    (step m (n + 1) w1 (.connect passOn)).1 (fun r hr => hq r (by simp [hr])) (by
      intro x hx
      simp only [step, List.mem_append, List.mem_singleton] at hx
      rcases hx with hx | rfl
      · exact k1 x hx
      · intros; rfl) (by intros; trivial) w1.observers.length ⟨(m.populate w1.contents).map fun e => ⟨e, w1.contents, true⟩, passOn, true⟩ (by simp [step]) hd
  have hw2' : (run m (n + 1) (step m (n + 1) w1 (.connect passOn)).1 after).1 = w2 := by rw [← hw2]; rfl
  rw [hw2'] at q1
  have hlater : later w2 w1.observers.length = rest.map Note.ev := by
    unfold later
    rw [q1]
    simp only []
    rw [q2, List.filter_append, List.map_append]
    have e1 : ((m.populate w1.contents).map fun e => (⟨e, w1.contents, true⟩ : Note _ _)).filter (fun n => !n.pop) = [] := by
      rw [List.filter_eq_nil_iff]
      intro x hx
      simp only [List.mem_map] at hx
      obtain ⟨e, _, rfl⟩ := hx
      simp
    have e2 : rest.filter (fun n => !n.pop) = rest := by
      rw [List.filter_eq_self]
      intro x hx
      rw [(q3 x hx).1]; rfl
    rw [e1, e2]; rfl
  obtain ⟨l2, r1, r2⟩ := (g3 ob' (List.mem_of_getElem? q1)).now q4
  rw [q2, List.map_append, replay_append] at r1
  have e3 : (((m.populate w1.contents).map fun e => (⟨e, w1.contents, true⟩ : Note S E))).map Note.ev = m.populate w1.contents := by
    simp [Function.comp_def]
  rw [e3, p1] at r1
  exact ⟨l1, l2, p1, p2, by rw [hlater]; exact r1, r2⟩

/-- if one report can be followed, its translation can be followed by the translated copy -/
theorem replay_map {L L' E E' : Type} {follow : L → E → Option L} {follow' : L' → E' → Option L'} (tr : L → L') (f : E → E')
    (h : ∀ l e l', follow l e = some l' → follow' (tr l) (f e) = some (tr l')) :
    ∀ (es : List E) (l l' : L), Spec.replay follow l es = some l' → Spec.replay follow' (tr l) (es.map f) = some (tr l')
  | [], l, l', hr => by simp only [Spec.replay, Option.some.injEq] at hr; subst hr; rfl
  | e :: es, l, l', hr => by
    simp only [Spec.replay] at hr
    cases hf : follow l e with
    | none => rw [hf] at hr; cases hr
    | some l1 =>
      rw [hf] at hr
      simp only [List.map_cons, Spec.replay, h l e l1 hf, Option.bind_some]
      exact replay_map tr f h es l1 l' hr

theorem map_insertIdx' (f : α → β) : ∀ (l : List α) (i : Nat) (x : α), (l.insertIdx i x).map f = (l.map f).insertIdx i (f x)
  | _, 0, _ => by simp
  | [], i + 1, _ => by simp
  | y :: l, i + 1, x => by simp [map_insertIdx' f l i x]

theorem map_eraseIdx' (f : α → β) : ∀ (l : List α) (i : Nat), (l.eraseIdx i).map f = (l.map f).eraseIdx i
  | [], _ => by simp
  | _ :: _, 0 => by simp
  | y :: l, i + 1 => by simp [map_eraseIdx' f l i]

theorem followList_cast [DecidableEq α] [DecidableEq β] (cast : α → β) (l : List α) (e : Event Nat α) (l' : List α)
    (h : Spec.followList l e = some l') : Spec.followList (l.map cast) (report cast e) = some (l'.map cast) := by
  unfold Spec.followList report at *
  cases hop : e.op with
  | added =>
    rw [hop] at h
    simp only [List.length_map] at h ⊢
    split at h
    · rw [if_pos ‹_›]; injection h with h; subst h
      rw [map_insertIdx']
    · cases h
  | updated =>
    rw [hop] at h
    simp only [List.length_map] at h ⊢
    split at h
    · rw [if_pos ‹_›]; injection h with h; subst h
      rw [List.map_set]
    · cases h
  | removed =>
    rw [hop] at h
    simp only [] at h ⊢
    split at h
    · rename_i he
      rw [if_pos (by rw [List.getElem?_map, he]; rfl)]; injection h with h; subst h
      rw [map_eraseIdx']
    · cases h

theorem listPopulate_eq [DecidableEq α] (cast : α → β) (xs : List α) :
    listPopulate 0 (listEnumerate cast xs) = ((list (α := α)).populate xs).map (report cast) := by
  have aux : ∀ (xs : List α) (i : Nat), listPopulate i (xs.map cast) = ((xs.zipIdx i).map fun e => (⟨.added, e.2, e.1⟩ : Event Nat α)).map (report cast) := by
    intro xs
    induction xs with
    | nil => intro i; rfl
    | cons x xs ih => intro i; simp only [List.map_cons, listPopulate, List.zipIdx_cons, ih]; rfl
  exact aux xs 0

/-- **C158** Whoever observes the view of an observable list is told a sequence of changes that makes sense, and at every moment what it
has is the cast contents of the list: for every program on the list, whenever the observer connects. -/
theorem list_reports_partial [DecidableEq α] [DecidableEq β] (cast : α → β) (n : Nat) (before after : List (Act (List α) (Event Nat α) (LOp α)))
    (hq : ∀ react, Act.connect react ∈ before ++ after → ∀ e s, react e s = [])
    (hd : Act.disconnect (run list (n + 1) ⟨[], []⟩ before).1.observers.length ∉ after) :
    Spec.replay Spec.followList [] (listLog cast (n + 1) before after) =
      some (listEnumerate cast (run list (n + 1) ⟨[], []⟩ (before ++ .connect passOn :: after)).1.contents) := by
  obtain ⟨l1, l2, p, g1, r, g2⟩ := later_follows (follow := Spec.followList) (l0 := []) (Rel := Eq) (list (α := α)) n [] ⟨[], rfl⟩
    (fun s l o _ => (list_plan s o).1) (fun s l _ => ⟨s, list_populate s, rfl⟩) before after hq hd
  unfold listLog
  rw [listPopulate_eq, replay_append]
  have h1 := replay_map (List.map cast) (report cast) (followList_cast cast) _ _ _ p
  have h2 := replay_map (List.map cast) (report cast) (followList_cast cast) _ _ _ r
  simp only [List.map_nil] at h1
  rw [h1, g2]
  exact h2

/-- the copy of an observer of a dictionary, translated: keys by `g`, values by `f` -/
def both (g : κ → κ') (f : ν → ν') (l : List (κ × ν)) : List (κ' × ν') := l.map fun e => (g e.1, f e.2)

theorem has_both {lt : κ → κ → Bool} {lt' : κ' → κ' → Bool} (g : κ → κ') (f : ν → ν') (hg : ∀ a b, equiv lt' (g a) (g b) = equiv lt a b)
    (l : List (κ × ν)) (k : κ) : Spec.has lt' (both g f l) (g k) = Spec.has lt l k := by
  unfold Spec.has both
  rw [List.any_map]
  congr 1
  funext x
  exact hg _ _

theorem followDict_cast [DecidableEq ν] [DecidableEq ν'] {lt : κ → κ → Bool} {lt' : κ' → κ' → Bool} (g : κ → κ') (f : ν → ν')
    (hg : ∀ a b, equiv lt' (g a) (g b) = equiv lt a b) (l : List (κ × ν)) (e : Event κ ν) (l' : List (κ × ν))
    (h : Spec.followDict lt l e = some l') : Spec.followDict lt' (both g f l) ⟨e.op, g e.key, f e.value⟩ = some (both g f l') := by
  unfold Spec.followDict at *
  cases hop : e.op with
  | added =>
    rw [hop] at h
    simp only [] at h ⊢
    rw [has_both g f hg]
    split at h
    · cases h
    · rw [if_neg ‹_›]; injection h with h; subst h
      simp [both]
  | updated =>
    rw [hop] at h
    simp only [] at h ⊢
    rw [has_both g f hg]
    split at h
    · rw [if_pos ‹_›]; injection h with h; subst h
      simp only [both, List.map_map, Option.some.injEq]
      apply List.map_congr_left
      intro x _
      simp only [Function.comp_apply, hg]
      by_cases hx : equiv lt x.1 e.key = true <;> simp [hx]
    · cases h
  | removed =>
    rw [hop] at h
    simp only [] at h ⊢
    split at h
    · rename_i hv
      injection h with h; subst h
      rw [if_pos]
      · simp only [both, List.filter_map, Option.some.injEq]
        congr 1
        apply List.filter_congr
        intro x _
        simp [hg]
      · unfold Spec.value Spec.all at hv ⊢
        unfold both
        rw [List.filter_map]
        have he : ((fun e_1 : κ' × ν' => equiv lt' e_1.1 (g e.key)) ∘ fun e : κ × ν => (g e.1, f e.2)) = fun x => equiv lt x.1 e.key := by
          funext x; exact hg _ _
        rw [he]
        cases hl : l.filter (fun x => equiv lt x.1 e.key) with
        | nil => rw [hl] at hv; cases hv
        | cons y ys =>
          rw [hl] at hv
          simp only [List.head?_cons, Option.map_some, Option.some.injEq] at hv
          simp [hv]
    · cases h

theorem arranged_cast {lt : κ → κ → Bool} (f : ν → ν') {kind : Kind} {xs l : List (κ × ν)} (hg : Spec.Arranged kind lt xs l) :
    Spec.Arranged kind lt (both id f xs) (both id f l) := by
  cases kind with
  | insertion => exact congrArg (both id f) hg
  | sorted =>
    refine ⟨hg.1.map _, ?_⟩
    unfold both
    rw [List.pairwise_map]
    exact hg.2

/-- **C158** Whoever observes the view of an observable dictionary is told a sequence of changes that makes sense, and at every moment
what it has is the cast contents of the dictionary. -/
theorem dict_reports_partial {lt : κ → κ → Bool} (h : StrictWeak lt) [DecidableEq ν] [DecidableEq ν'] (cast : ν → ν') (kind : Kind) (n : Nat)
    (before after : List (Act (List (κ × ν)) (Event κ ν) (Dict.Op κ ν)))
    (hq : ∀ react, Act.connect react ∈ before ++ after → ∀ e s, react e s = [])
    (hd : Act.disconnect (run (dict kind lt) (n + 1) ⟨[], []⟩ before).1.observers.length ∉ after) :
    ∃ l, Spec.replay (Spec.followDict lt) [] (dictLog kind lt cast (n + 1) before after) = some l ∧
      Spec.Arranged kind lt (dictEnumerate cast (run (dict kind lt) (n + 1) ⟨[], []⟩ (before ++ .connect passOn :: after)).1.contents) l := by
  obtain ⟨l1, l2, p, g1, r, g2⟩ := later_follows (follow := Spec.followDict lt) (l0 := []) (Rel := Good kind lt) (dict kind lt) n [] ⟨[], good_nil kind⟩
    (fun s l o hg => (dict_plan h hg o).1) (fun s l hg => dict_populate h hg) before after hq hd
  refine ⟨both id cast l2, ?_, arranged_cast cast g2.arr⟩
  have hfol := followDict_cast (lt := lt) (lt' := lt) (ν := ν) (ν' := ν') id cast (fun _ _ => rfl)
  unfold dictLog
  have e1 : (dictEnumerate cast (run (dict kind lt) (n + 1) ⟨[], []⟩ before).1.contents).map (fun e => (⟨.added, e.1, e.2⟩ : Event κ ν')) =
      ((dict kind lt).populate (run (dict kind lt) (n + 1) ⟨[], []⟩ before).1.contents).map (report cast) := by
    simp [dictEnumerate, dict, report]
  rw [e1, replay_append]
  have h1 := replay_map (both id cast) (report cast) hfol _ _ _ p
  have h2 := replay_map (both id cast) (report cast) hfol _ _ _ r
  simp only [both, List.map_nil] at h1
  rw [h1]
  exact h2

/-- **C158** Whoever observes the view of an observable set is told a sequence of changes that makes sense, and at every moment
what it has is the cast contents of the set; provided the cast keeps different elements different. -/
theorem set_reports_partial {lt : κ → κ → Bool} {lt' : κ' → κ' → Bool} (h : StrictWeak lt) (cast : κ → κ')
    (hc : ∀ a b, equiv lt' (cast a) (cast b) = equiv lt a b) (kind : Kind) (n : Nat)
    (before after : List (Act (List (κ × Unit)) (Event κ Unit) (Dict.Op κ Unit)))
    (hq : ∀ react, Act.connect react ∈ before ++ after → ∀ e s, react e s = [])
    (hd : Act.disconnect (run (dict kind lt) (n + 1) ⟨[], []⟩ before).1.observers.length ∉ after) :
    ∃ l, Spec.replay (Spec.followDict lt') [] (setLog kind lt cast (n + 1) before after) = some l ∧
      l.Perm (setEnumerate cast (run (dict kind lt) (n + 1) ⟨[], []⟩ (before ++ .connect passOn :: after)).1.contents) := by
  obtain ⟨l1, l2, p, g1, r, g2⟩ := later_follows (follow := Spec.followDict lt) (l0 := []) (Rel := Good kind lt) (dict kind lt) n [] ⟨[], good_nil kind⟩
    (fun s l o hg => (dict_plan h hg o).1) (fun s l hg => dict_populate h hg) before after hq hd
  refine ⟨both cast id l2, ?_, (g2.perm.symm.map _)⟩
  have hfol := followDict_cast (lt := lt) (lt' := lt') (ν := Unit) (ν' := Unit) cast id hc
  unfold setLog
  have e1 : (setEnumerate cast (run (dict kind lt) (n + 1) ⟨[], []⟩ before).1.contents).map (fun e => (⟨.added, e.1, ()⟩ : Event κ' Unit)) =
      ((dict kind lt).populate (run (dict kind lt) (n + 1) ⟨[], []⟩ before).1.contents).map (setReport cast) := by
    simp [setEnumerate, dict, setReport]
  rw [e1, replay_append]
  have h1 := replay_map (both cast id) (setReport cast) hfol _ _ _ p
  have h2 := replay_map (both cast id) (setReport cast) hfol _ _ _ r
  simp only [both, List.map_nil] at h1
  rw [h1]
  exact h2

/-! ### Reading sets and dictionaries -/

/-- **C158** Reading a dictionary through the view, after any history: `Get`/`TryGet` give the cast value of the key; `Find` and `ReverseFind` enumerate the
view from the entry of the key on, forwards and backwards. -/
theorem dict_reads {lt : κ → κ → Bool} (h : StrictWeak lt) (cast : ν → ν') (kind : Kind) (ops : List (Dict.Op κ ν)) (k : κ) :
    let xs := (Dict.run kind lt [] ops).1
    (dictGet kind lt cast xs k = none ∧ (∀ e ∈ dictEnumerate cast xs, equiv lt e.1 k = false) ∧ dictFind kind lt cast xs k = [] ∧ dictReverseFind kind lt cast xs k = []) ∨
    ∃ pre e post, dictEnumerate cast xs = pre ++ e :: post ∧ equiv lt e.1 k = true ∧ dictGet kind lt cast xs k = some e.2 ∧
      dictFind kind lt cast xs k = e :: post ∧ dictReverseFind kind lt cast xs k = e :: pre.reverse := by
  intro xs
  have hg : Good kind lt xs (Spec.dictRun lt [] ops).1 := (dict_run h ops (good_nil kind)).1
  obtain ⟨_, hget, hcase⟩ := dictionary_lookup h kind ops k
  have hcase := hcase
  rcases hcase with ⟨h1, h2, h3⟩ | ⟨pre, e, post, h1, h2, h3, h4⟩
  · left
    have hno : ∀ e ∈ xs, equiv lt e.1 k = false := by
      rw [← has_perm hg.perm, has_false] at h1; exact h1
    refine ⟨?_, ?_, ?_, ?_⟩
    · rcases get_good h hg k with ⟨g, _⟩ | ⟨e, he, hk, _⟩
      · unfold dictGet; rw [g]; rfl
      · rw [hno e he] at hk; cases hk
    · intro e he
      obtain ⟨x, hx, rfl⟩ := List.mem_map.mp he
      exact hno x hx
    · unfold dictFind; rw [h2]; rfl
    · unfold dictReverseFind; rw [h3]; rfl
  · right
    have h1' : xs = pre ++ e :: post := h1
    have hmem : e ∈ xs := by rw [h1']; simp
    refine ⟨pre.map (fun e => (e.1, cast e.2)), (e.1, cast e.2), post.map (fun e => (e.1, cast e.2)), ?_, h2, ?_, ?_, ?_⟩
    · show List.map _ xs = _
      rw [h1']; simp
    · have hv : Spec.value lt xs k = some e.2 := value_mem h hg.uniq hmem h2
      rcases get_good h hg k with ⟨_, g⟩ | ⟨x, hx, hk, g⟩
      · rw [g e hmem] at h2; cases h2
      · have := value_mem h hg.uniq hx hk
        rw [hv] at this
        unfold dictGet; rw [g, Option.map_some, ← Option.some.inj this]
    · unfold dictFind; rw [h3]; rfl
    · unfold dictReverseFind; rw [h4]; simp

/-- **C158** Reading a set through the view with a faithful back caster, after any history: `Contains` tells whether the view has the
element (up to the equivalence of the wrapped set), `Find` and `ReverseFind` enumerate the view from there on. -/
theorem set_reads {lt : κ → κ → Bool} (h : StrictWeak lt) (cast : κ → κ') (back : κ' → Option κ) (hf : Faithful cast back) (kind : Kind) (ops : List (Dict.Op κ Unit)) (k : κ) :
    let xs := (Dict.run kind lt [] ops).1
    (setContains kind lt back xs (cast k) = false ∧ (∀ k', (cast k', ()) ∈ setEnumerate cast xs → equiv lt k' k = false) ∧
      setFind kind lt cast back xs (cast k) = [] ∧ setReverseFind kind lt cast back xs (cast k) = []) ∨
    ∃ pre k' post, setEnumerate cast xs = pre ++ (cast k', ()) :: post ∧ equiv lt k' k = true ∧ setContains kind lt back xs (cast k) = true ∧
      setFind kind lt cast back xs (cast k) = (cast k', ()) :: post ∧ setReverseFind kind lt cast back xs (cast k) = (cast k', ()) :: pre.reverse := by
  intro xs
  have hb : back (cast k) = some k := (hf _ _).mpr rfl
  have hinj : ∀ u v, cast u = cast v → u = v := by
    intro u v h
    have h1 := (hf (cast u) u).mpr rfl
    have h2 := (hf (cast u) v).mpr h.symm
    rw [h1] at h2; exact Option.some.inj h2
  have hg : Good kind lt xs (Spec.dictRun lt [] ops).1 := (dict_run h ops (good_nil kind)).1
  obtain ⟨hcon, _, hcase⟩ := dictionary_lookup h kind ops k
  have hcase := hcase
  rcases hcase with ⟨h1, h2, h3⟩ | ⟨pre, e, post, h1, h2, h3, h4⟩
  · left
    have hno : ∀ e ∈ xs, equiv lt e.1 k = false := by
      have h1' := h1
      rw [← has_perm hg.perm, has_false] at h1'; exact h1'
    refine ⟨?_, ?_, ?_, ?_⟩
    · unfold setContains; rw [hb]; exact hcon.trans h1
    · intro k' he
      obtain ⟨x, hx, hh⟩ := List.mem_map.mp he
      have := hinj _ _ (Prod.mk.inj hh).1
      rw [← this]; exact hno x hx
    · unfold setFind; rw [hb]; simp only []; rw [h2]; rfl
    · unfold setReverseFind; rw [hb]; simp only []; rw [h3]; rfl
  · right
    have h1' : xs = pre ++ e :: post := h1
    have hmem : e ∈ xs := by rw [h1']; simp
    refine ⟨pre.map (fun e => (cast e.1, ())), e.1, post.map (fun e => (cast e.1, ())), ?_, h2, ?_, ?_, ?_⟩
    · show List.map _ xs = _
      rw [h1']; simp
    · unfold setContains; rw [hb]; simp only []
      rw [hcon, ← has_perm hg.perm]
      unfold Spec.has
      rw [List.any_eq_true]
      exact ⟨e, hmem, h2⟩
    · unfold setFind; rw [hb]; simp only []; rw [h3]; rfl
    · unfold setReverseFind; rw [hb]; simp only []; rw [h4]; simp

/-! ### Diffs -/

/-- **C158** Transactional lists: a diff that turns one list into another turns, converted, the cast of the one into the cast of the other. -/
theorem list_diff_cast [DecidableEq α] [DecidableEq β] (cast : α → β) (d : List (Trans.DiffOp × Nat × α)) (l l' : List α)
    (h : Trans.TList.Spec.replay l d = some l') :
    Trans.TList.Spec.replay (l.map cast) (listDiff cast d) = some (l'.map cast) := by
  induction d generalizing l with
  | nil => simp only [Trans.TList.Spec.replay, Option.some.injEq] at h; subst h; rfl
  | cons e d ih =>
    obtain ⟨op, i, v⟩ := e
    simp only [Trans.TList.Spec.replay] at h
    cases he : Trans.TList.Spec.applyEntry l (op, i, v) with
    | none => rw [he] at h; cases h
    | some l1 =>
      rw [he] at h
      have : Trans.TList.Spec.applyEntry (l.map cast) (op, i, cast v) = some (l1.map cast) := by
        cases op with
        | removed =>
          simp only [Trans.TList.Spec.applyEntry] at he ⊢
          split at he
          · rename_i hx
            rw [if_pos (by rw [List.getElem?_map, hx]; rfl)]; injection he with he; subst he
            rw [map_eraseIdx']
          · cases he
        | added =>
          simp only [Trans.TList.Spec.applyEntry, List.length_map] at he ⊢
          split at he
          · rw [if_pos ‹_›]; injection he with he; subst he; rw [map_insertIdx']
          · cases he
      simp only [listDiff, List.map_cons, Trans.TList.Spec.replay, this, Option.bind_some]
      exact ih l1 h

theorem ins_map {ε ε' : Type} {lt : κ → κ → Bool} {lt' : κ' → κ' → Bool} (g : κ → κ') (hg : ∀ a b, lt' (g a) (g b) = lt a b) (f : ε → κ) (f' : ε' → κ') (c : ε → ε')
    (hc : ∀ e, f' (c e) = g (f e)) (l : List ε) (e : ε) : Trans.Spec.ins lt' f' (l.map c) (c e) = (Trans.Spec.ins lt f l e).map c := by
  unfold Trans.Spec.ins
  have : ((fun x => lt' (f' x) (f' (c e))) ∘ c) = fun x => lt (f x) (f e) := by
    funext x; simp [hc, hg]
  rw [List.takeWhile_map, List.dropWhile_map, this]
  simp

theorem replay_cast {ε ε' : Type} [DecidableEq κ] [DecidableEq κ'] {lt : κ → κ → Bool} {lt' : κ' → κ' → Bool} (g : κ → κ') (hg : ∀ a b, lt' (g a) (g b) = lt a b)
    (hinj : ∀ a b, g a = g b → a = b) (f : ε → κ) (f' : ε' → κ') (c : ε → ε') (hc : ∀ e, f' (c e) = g (f e)) (d : List (Trans.DiffOp × ε)) (l : List ε) :
    Trans.Spec.replay lt' f' (l.map c) (d.map fun x => (x.1, c x.2)) = (Trans.Spec.replay lt f l d).map c := by
  induction d generalizing l with
  | nil => rfl
  | cons x d ih =>
    obtain ⟨op, e⟩ := x
    have hfil : (l.map c).filter (fun x => decide (f' x ≠ f' (c e))) = (l.filter (fun x => decide (f x ≠ f e))).map c := by
      rw [List.filter_map]
      congr 1
      apply List.filter_congr
      intro x _
      simp only [Function.comp_apply, hc, decide_eq_decide]
      exact ⟨fun h he => h (by rw [he]), fun h he => h (hinj _ _ he)⟩
    simp only [List.map_cons, Trans.Spec.replay]
    have : Trans.Spec.applyEntry lt' f' (l.map c) (op, c e) = (Trans.Spec.applyEntry lt f l (op, e)).map c := by
      cases op with
      | removed => simp only [Trans.Spec.applyEntry]; exact hfil
      | added => simp only [Trans.Spec.applyEntry]; rw [hfil, ins_map g hg f f' c hc]
    rw [this]
    exact ih _

/-- **C158** Transactional dictionaries: putting a converted diff into effect on the cast contents gives the cast of what the diff itself gives. -/
theorem dict_diff_cast [DecidableEq κ] (lt : κ → κ → Bool) (cast : ν → ν') (d : List (Trans.DiffOp × κ × ν)) (l : List (κ × ν)) :
    Trans.Spec.replay lt Prod.fst (dictEnumerate cast l) (dictDiff cast d) = dictEnumerate cast (Trans.Spec.replay lt Prod.fst l d) :=
  replay_cast (lt := lt) (lt' := lt) id (fun _ _ => rfl) (fun _ _ h => h) Prod.fst Prod.fst (fun e => (e.1, cast e.2)) (fun _ => rfl) d l

/-- **C158** Transactional sets: the same, if the cast keeps the order of the elements and different elements different. -/
theorem set_diff_cast [DecidableEq κ] [DecidableEq κ'] (lt : κ → κ → Bool) (lt' : κ' → κ' → Bool) (cast : κ → κ') (hlt : ∀ a b, lt' (cast a) (cast b) = lt a b)
    (hinj : ∀ a b, cast a = cast b → a = b) (d : List (Trans.DiffOp × κ)) (l : List κ) :
    Trans.Spec.replay lt' id (l.map cast) (setDiff cast d) = (Trans.Spec.replay lt id l d).map cast :=
  replay_cast (lt := lt) (lt' := lt') cast hlt hinj id id cast (fun _ => rfl) d l

/-- **C158** ... so whoever observes the view of a transactional dictionary from any moment on, whatever transactions are opened, changed, reverted and committed, has the cast committed contents: the
contents on connecting with all converted diffs put into effect. -/
theorem dict_transactions {lt : κ → κ → Bool} [DecidableEq κ] [DecidableEq ν] {veq : ν → ν → Bool} (h : StrictWeak lt) (ht : Trans.Total lt) (hv : ∀ a b, veq a b = true ↔ a = b)
    (cast : ν → ν') (before after : List (Trans.DictOp κ ν)) :
    ∃ s1 o1 s2 o2, Trans.dictRun lt veq ⟨[], [], []⟩ before = some (s1, o1) ∧ Trans.dictRun lt veq s1 after = some (s2, o2) ∧
      ((o2.filterMap Trans.sent).map (dictDiff cast)).foldl (Trans.Spec.replay lt Prod.fst) (dictEnumerate cast s1.items) = dictEnumerate cast s2.items := by
  obtain ⟨s1, o1, h1, -, -, hi⟩ := Trans.dictRun_spec h ht hv before (s := ⟨[], [], []⟩) (Trans.inv_clean List.Pairwise.nil)
  generalize (Trans.Spec.dictFinal lt _ _ before).2 = cur at hi
  suffices hs : ∀ (ops : List (Trans.DictOp κ ν)) (s : Trans.State (κ × ν)) (cur : List (κ × ν)), Trans.Inv lt Prod.fst s cur →
      ∃ s2 o2, Trans.dictRun lt veq s ops = some (s2, o2) ∧
        ((o2.filterMap Trans.sent).map (dictDiff cast)).foldl (Trans.Spec.replay lt Prod.fst) (dictEnumerate cast s.items) = dictEnumerate cast s2.items by
    obtain ⟨s2, o2, g1, g2⟩ := hs after s1 cur hi
    exact ⟨s1, o1, s2, o2, h1, g1, g2⟩
  intro ops
  induction ops with
  | nil => intro s cur _; exact ⟨s, [], rfl, rfl⟩
  | cons op ops ih =>
    intro s cur hi
    obtain ⟨s', o, g1, g2, g3, g4⟩ := Trans.dictStep_spec h ht hv hi op
    obtain ⟨s2, o2, k1, k2⟩ := ih s' _ g4
    refine ⟨s2, o :: o2, by simp only [Trans.dictRun, g1, k1, Option.map_some], ?_⟩
    rcases Trans.dictFinal_base g2 with ⟨e1, e2⟩ | ⟨d, e1, hd, e2⟩
    · rw [e2] at g3
      rw [List.filterMap_cons, e1, ← g3]; exact k2
    · rw [e2] at g3
      rw [List.filterMap_cons, e1]
      simp only [List.map_cons, List.foldl_cons]
      rw [dict_diff_cast, Trans.replay_diff h ht hi.si hi.sc hd, ← g3]
      exact k2

/-! ### Witnesses and counterexamples -/

example : listLog (fun x : Nat => x * 10) 1 [.call (.add 1), .call (.add 2)] [.call (.insert 0 3), .call (.removeAt 1), .call (.set 0 7)] =
    [⟨.added, 0, 10⟩, ⟨.added, 1, 20⟩, ⟨.added, 0, 30⟩, ⟨.removed, 1, 10⟩, ⟨.updated, 0, 70⟩] := by decide

example : Faithful (fun x : Nat => (some x : Option Nat)) id := by
  intro d v; exact ⟨fun h => h.symm, fun h => h.symm⟩

/-- **C158** The default back caster does not find null pointers: the view shows one at index 0 and denies to contain it. -/
theorem null_violated :
    ∃ xs : List (Option Nat), none ∈ listEnumerate id xs ∧ listContains defaultBack xs none = false ∧ listIndexOf defaultBack xs none = none :=
  ⟨[none], by decide⟩

/-- **C158** With a cast that maps two elements to one, an observer of the view of a set is told of the same element twice: its copy cannot
follow, and the view counts it twice. -/
theorem coarse_cast_violated :
    Spec.replay (Spec.followDict (fun a b : Nat => decide (a < b))) [] (setLog .sorted (fun a b : Nat => decide (a < b)) (fun x => x / 2) 1 [] [.call (.add 2 ()), .call (.add 3 ())]) = none ∧
    (setEnumerate (fun x => x / 2) (run (dict .sorted (fun a b : Nat => decide (a < b))) 1 ⟨[], []⟩ [.call (.add 2 ()), .call (.add 3 ())]).1.contents) = [(1, ()), (1, ())] := by decide

/-- C158.  What cannot be cast back is not in the view of a set: it is not contained, and neither search finds it. -/
theorem foreign_partial (kind : Kind) (lt : κ → κ → Bool) (cast : κ → κ') (back : κ' → Option κ) (xs : List (κ × Unit)) {d : κ'} (h : back d = none) :
    setContains kind lt back xs d = false ∧ setFind kind lt cast back xs d = [] ∧ setReverseFind kind lt cast back xs d = [] := by
  unfold setContains setFind setReverseFind
  rw [h]
  exact ⟨rfl, rfl, rfl⟩

end Verif.Coll.Cast

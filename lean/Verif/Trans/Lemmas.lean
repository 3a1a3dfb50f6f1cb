import Verif.Trans.Merge
/- The invariant of an open transaction and what follows from it. -/
namespace Verif.Trans
open Verif.Order
set_option linter.unusedSectionVars false

section
variable {κ ε : Type} {lt : κ → κ → Bool} {f : ε → κ}

/-- `cur` is what the transaction sees. -/
structure Inv (lt : κ → κ → Bool) (f : ε → κ) (s : State ε) (cur : List ε) : Prop where
  si : Sorted lt f s.items
  sa : Sorted lt f s.added
  sr : Sorted lt f s.removed
  sc : Sorted lt f cur
  rsub : ∀ e ∈ s.removed, e ∈ s.items
  adis : ∀ a ∈ s.added, ∀ i ∈ s.items, f a = f i → i ∈ s.removed
  anew : ∀ a ∈ s.added, a ∉ s.items
  cmem : ∀ e, e ∈ cur ↔ e ∈ s.added ∨ (e ∈ s.items ∧ e ∉ s.removed)

theorem inv_clean {items : List ε} (hs : Sorted lt f items) : Inv lt f ⟨items, [], []⟩ items :=
  ⟨hs, List.Pairwise.nil, List.Pairwise.nil, hs, by simp, by simp, by simp, by simp⟩

theorem contains_iff (h : StrictWeak lt) (ht : Total lt) {s : State ε} {cur : List ε} (hi : Inv lt f s cur) (k : κ) :
    contains lt f s k = true ↔ ∃ e ∈ cur, f e = k := by
  unfold contains
  rw [Bool.or_eq_true, Bool.and_eq_true, has_iff h ht, has_iff h ht, Bool.not_eq_true', has_false h ht]
  constructor
  · rintro (⟨e, h1, h2⟩ | ⟨⟨e, h1, h2⟩, h3⟩)
    · exact ⟨e, (hi.cmem e).mpr (Or.inl h1), h2⟩
    · exact ⟨e, (hi.cmem e).mpr (Or.inr ⟨h1, fun hr => h3 e hr h2⟩), h2⟩
  · rintro ⟨e, h1, h2⟩
    rcases (hi.cmem e).mp h1 with h1 | ⟨h1, h3⟩
    · exact Or.inl ⟨e, h1, h2⟩
    · refine Or.inr ⟨⟨e, h1, h2⟩, ?_⟩
      intro r hr he
      exact h3 (by rw [← key_inj h hi.si (hi.rsub r hr) h1 (he.trans h2.symm)]; exact hr)

section
variable [DecidableEq ε]

theorem removed_le (h : StrictWeak lt) {s : State ε} {cur : List ε} (hi : Inv lt f s cur) : s.removed.length ≤ s.items.length := by
  have := length_of_mem h hi.si (List.Pairwise.nil : Sorted lt f ([] : List ε)) hi.sr (sorted_filter hi.si (fun e => decide (e ∉ s.removed))) hi.rsub (by simp)
    (by intro e; simp)
  simp only [List.length_nil] at this
  omega

theorem length_cur (h : StrictWeak lt) {s : State ε} {cur : List ε} (hi : Inv lt f s cur) :
    cur.length + s.removed.length = s.items.length + s.added.length :=
  length_of_mem h hi.si hi.sa hi.sr hi.sc hi.rsub hi.anew hi.cmem

theorem count_spec (h : StrictWeak lt) {s : State ε} {cur : List ε} (hi : Inv lt f s cur) : count s = some cur.length := by
  have h1 := removed_le h hi
  have h2 := length_cur h hi
  unfold count
  rw [if_pos h1]
  congr 1; omega

theorem isEmpty_spec (h : StrictWeak lt) {s : State ε} {cur : List ε} (hi : Inv lt f s cur) : isEmpty s = decide (cur = []) := by
  have h1 := removed_le h hi
  have h2 := length_cur h hi
  unfold isEmpty
  rw [Bool.eq_iff_iff, Bool.and_eq_true, List.isEmpty_iff, decide_eq_true_eq, decide_eq_true_eq]
  constructor
  · rintro ⟨h3, h4⟩
    rw [h3] at h2; simp only [List.length_nil] at h2
    exact List.length_eq_zero_iff.mp (by omega)
  · intro h3
    rw [h3] at h2; simp only [List.length_nil] at h2
    exact ⟨List.length_eq_zero_iff.mp (by omega), by omega⟩

theorem clean_iff (h : StrictWeak lt) {s : State ε} {cur : List ε} (hi : Inv lt f s cur) : (s.added = [] ∧ s.removed = []) ↔ cur = s.items := by
  constructor
  · rintro ⟨h1, h2⟩
    refine sorted_ext h hi.sc hi.si ?_
    intro e; rw [hi.cmem, h1, h2]; simp
  · intro h1
    constructor
    · rw [List.eq_nil_iff_forall_not_mem]
      intro a ha
      have := (hi.cmem a).mpr (Or.inl ha)
      rw [h1] at this
      exact hi.anew a ha this
    · rw [List.eq_nil_iff_forall_not_mem]
      intro r hr
      have hri := hi.rsub r hr
      have hrc : r ∈ cur := by rw [h1]; exact hri
      rcases (hi.cmem r).mp hrc with h2 | h2
      · exact hi.anew r h2 hri
      · exact h2.2 hr

theorem isDirty_spec (h : StrictWeak lt) {s : State ε} {cur : List ε} (hi : Inv lt f s cur) : isDirty s = decide (cur ≠ s.items) := by
  have hc := clean_iff h hi
  unfold isDirty
  rw [Bool.eq_iff_iff, decide_eq_true_eq, ne_eq, ← hc]
  cases s.added <;> cases s.removed <;> simp

end

theorem diff_spec (h : StrictWeak lt) (ht : Total lt) {s : State ε} {cur : List ε} (hi : Inv lt f s cur) :
    IsDiff lt f s.items cur (diff lt f s.added s.removed) := by
  obtain ⟨h1, h2, h3⟩ := dcollect_spec h ht (s.added.length + s.removed.length) s.added s.removed (Nat.le_refl _) hi.sa hi.sr
  refine ⟨?_, ?_, h3⟩
  · intro e
    unfold diff; rw [h2]
    constructor
    · intro he
      refine ⟨hi.rsub e he, fun hc => ?_⟩
      rcases (hi.cmem e).mp hc with h4 | h4
      · exact hi.anew e h4 (hi.rsub e he)
      · exact h4.2 he
    · rintro ⟨h4, h5⟩
      by_cases hr : e ∈ s.removed
      · exact hr
      · exact absurd ((hi.cmem e).mpr (Or.inr ⟨h4, hr⟩)) h5
  · intro e
    unfold diff; rw [h1]
    constructor
    · intro he; exact ⟨(hi.cmem e).mpr (Or.inl he), hi.anew e he⟩
    · rintro ⟨h4, h5⟩
      rcases (hi.cmem e).mp h4 with h6 | h6
      · exact h6
      · exact absurd h6.1 h5

theorem eraseAll_spec (h : StrictWeak lt) (ht : Total lt) : ∀ (es l : List ε), Sorted lt f l →
    Sorted lt f (eraseAll lt f l es) ∧ ∀ x, x ∈ eraseAll lt f l es ↔ x ∈ l ∧ ∀ e ∈ es, f x ≠ f e
  | [], l, hs => ⟨hs, by simp [eraseAll]⟩
  | e :: es, l, hs => by
    obtain ⟨h1, h2⟩ := eraseAll_spec h ht es (erase lt f l (f e)) (sorted_erase hs _)
    refine ⟨h1, ?_⟩
    intro x
    simp only [eraseAll]
    rw [h2, mem_erase h ht]
    simp [and_assoc]

theorem insertAll_spec (h : StrictWeak lt) (ht : Total lt) : ∀ (es l : List ε), Sorted lt f l → Sorted lt f es → (∀ e ∈ es, ∀ x ∈ l, f x ≠ f e) →
    ∃ out, insertAll lt f l es = some out ∧ Sorted lt f out ∧ ∀ x, x ∈ out ↔ x ∈ l ∨ x ∈ es
  | [], l, hs, _, _ => ⟨l, rfl, hs, by simp⟩
  | e :: es, l, hs, hes, hd => by
    have ha : has lt f l (f e) = false := (has_false h ht).mpr (fun x hx => hd e (by simp) x hx)
    obtain ⟨h1, h2⟩ := insert_absent h ht hs ha
    obtain ⟨out, h3, h4, h5⟩ := insertAll_spec h ht es (insert lt f l e) h1 (List.Pairwise.of_cons hes) (by
      intro e' he' x hx hk
      rcases (h2 x).mp hx with hx | hx
      · exact hd e' (List.mem_cons_of_mem _ he') x hx hk
      · have := List.rel_of_pairwise_cons hes he'
        rw [← hk, hx, h.irrefl] at this; cases this)
    refine ⟨out, ?_, h4, ?_⟩
    · simp only [insertAll, ha, Bool.false_eq_true, if_false]; exact h3
    · intro x; rw [h5, h2, List.mem_cons, or_assoc]

theorem commit_spec (h : StrictWeak lt) (ht : Total lt) [DecidableEq ε] {s : State ε} {cur : List ε} (hi : Inv lt f s cur) :
    ∃ d, commit lt f s = some (⟨cur, [], []⟩, d) ∧ (if cur = s.items then d = none else ∃ x, d = some x ∧ IsDiff lt f s.items cur x) := by
  have hc := clean_iff h hi
  unfold commit
  by_cases hcl : s.added = [] ∧ s.removed = []
  · have hcur := hc.mp hcl
    refine ⟨none, ?_, by rw [if_pos hcur]⟩
    rw [hcl.1, hcl.2]
    simp only [List.isEmpty_nil, Bool.and_self, if_true, hcur]
    congr 2
    cases s; simp only [State.mk.injEq, true_and]; exact hcl
  · have hne : (s.added.isEmpty && s.removed.isEmpty) = false := by
      cases h1 : s.added <;> cases h2 : s.removed <;> simp_all
    obtain ⟨h1, h2⟩ := eraseAll_spec h ht s.removed s.items hi.si
    obtain ⟨out, h3, h4, h5⟩ := insertAll_spec h ht s.added _ h1 hi.sa (by
      intro e he x hx hk
      obtain ⟨h6, h7⟩ := (h2 x).mp hx
      exact h7 x (hi.adis e he x h6 hk.symm) rfl)
    have hout : out = cur := by
      refine sorted_ext h h4 hi.sc ?_
      intro x
      rw [h5, h2, hi.cmem]
      constructor
      · rintro (⟨h6, h7⟩ | h6)
        · exact Or.inr ⟨h6, fun hr => h7 x hr rfl⟩
        · exact Or.inl h6
      · rintro (h6 | ⟨h6, h7⟩)
        · exact Or.inr h6
        · refine Or.inl ⟨h6, fun e he hk => h7 ?_⟩
          rw [key_inj h hi.si h6 (hi.rsub e he) hk]; exact he
    refine ⟨some (diff lt f s.added s.removed), ?_, ?_⟩
    · rw [hne]
      simp only [Bool.false_eq_true, if_false, h3, hout]
    · rw [if_neg (fun e => hcl (hc.mpr e))]
      exact ⟨_, rfl, diff_spec h ht hi⟩

theorem adis_equiv (ht : Total lt) {s : State ε} {cur : List ε} (hi : Inv lt f s cur) : ∀ a ∈ s.added, ∀ i ∈ s.items, equiv lt (f a) (f i) = true → i ∈ s.removed :=
  fun a ha i hii he => hi.adis a ha i hii (ht _ _ he)

theorem enumerate_cur (h : StrictWeak lt) (ht : Total lt) {s : State ε} {cur : List ε} (hi : Inv lt f s cur) :
    enumerate lt f s.items s.added s.removed = some cur := by
  obtain ⟨out, h1, h2, h3⟩ := enumerate_spec h hi.si hi.sa hi.sr hi.rsub (adis_equiv ht hi)
  rw [h1, sorted_ext h h2 hi.sc (fun x => (h3 x).trans (hi.cmem x).symm)]

theorem revEnum_cur (h : StrictWeak lt) (ht : Total lt) {s : State ε} {cur : List ε} (hi : Inv lt f s cur) : revEnum lt f s = some cur.reverse := by
  unfold revEnum
  obtain ⟨out, h1, h2, h3⟩ := enumerate_spec (strictWeak_flip h) (sorted_reverse hi.si) (sorted_reverse hi.sa) (sorted_reverse hi.sr)
    (by intro e he; rw [List.mem_reverse] at he ⊢; exact hi.rsub e he)
    (by intro a ha i hii he
        rw [List.mem_reverse] at ha hii ⊢
        refine adis_equiv ht hi a ha i hii ?_
        rw [equiv_iff] at he ⊢; exact ⟨he.2, he.1⟩)
  rw [h1, sorted_ext (strictWeak_flip h) h2 (sorted_reverse hi.sc) (fun x => (h3 x).trans (by simp only [List.mem_reverse]; exact (hi.cmem x).symm))]

theorem findEnum_cur (h : StrictWeak lt) (ht : Total lt) {s : State ε} {cur : List ε} (hi : Inv lt f s cur) (k : κ) :
    findEnum lt f s k = some (if contains lt f s k then cur.filter (fun e => !lt (f e) k) else []) := by
  unfold findEnum
  cases contains lt f s k with
  | false => rfl
  | true =>
    simp only [if_true]
    obtain ⟨out, h1, h2, h3⟩ := enumerate_spec h (sorted_fromLower hi.si k) (sorted_fromLower hi.sa k) (sorted_fromLower hi.sr k)
      (by intro e he; rw [mem_fromLower h hi.sr] at he; rw [mem_fromLower h hi.si]; exact ⟨hi.rsub e he.1, he.2⟩)
      (by intro a ha i hii he
          rw [mem_fromLower h hi.sa] at ha; rw [mem_fromLower h hi.si] at hii; rw [mem_fromLower h hi.sr]
          exact ⟨adis_equiv ht hi a ha.1 i hii.1 he, hii.2⟩)
    rw [h1, sorted_ext h h2 (sorted_filter hi.sc _) ?_]
    intro x
    rw [h3, List.mem_filter, mem_fromLower h hi.sa, mem_fromLower h hi.si, mem_fromLower h hi.sr, hi.cmem, Bool.not_eq_true']
    constructor
    · rintro (⟨g1, g2⟩ | ⟨⟨g1, g2⟩, g3⟩)
      · exact ⟨Or.inl g1, g2⟩
      · exact ⟨Or.inr ⟨g1, fun hr => g3 ⟨hr, g2⟩⟩, g2⟩
    · rintro ⟨g1 | ⟨g1, g3⟩, g2⟩
      · exact Or.inl ⟨g1, g2⟩
      · exact Or.inr ⟨⟨g1, g2⟩, fun hr => g3 hr.1⟩

theorem revFindEnum_cur (h : StrictWeak lt) (ht : Total lt) {s : State ε} {cur : List ε} (hi : Inv lt f s cur) (k : κ) :
    revFindEnum lt f s k = some (if contains lt f s k then (cur.filter (fun e => !lt k (f e))).reverse else []) := by
  unfold revFindEnum
  cases contains lt f s k with
  | false => rfl
  | true =>
    simp only [if_true]
    rw [revUpTo_spec h hi.si, revUpTo_spec h hi.sa, revUpTo_spec h hi.sr]
    obtain ⟨out, h1, h2, h3⟩ := enumerate_spec (strictWeak_flip h) (sorted_reverse (sorted_filter hi.si (fun e => !lt k (f e))))
      (sorted_reverse (sorted_filter hi.sa (fun e => !lt k (f e)))) (sorted_reverse (sorted_filter hi.sr (fun e => !lt k (f e))))
      (by intro e he; rw [List.mem_reverse, List.mem_filter] at he ⊢; exact ⟨hi.rsub e he.1, he.2⟩)
      (by intro a ha i hii he
          rw [List.mem_reverse, List.mem_filter] at ha hii ⊢
          refine ⟨adis_equiv ht hi a ha.1 i hii.1 ?_, hii.2⟩
          rw [equiv_iff] at he ⊢; exact ⟨he.2, he.1⟩)
    rw [h1, sorted_ext (strictWeak_flip h) h2 (sorted_reverse (sorted_filter hi.sc _)) ?_]
    intro x
    rw [h3]
    simp only [List.mem_reverse, List.mem_filter]
    rw [hi.cmem]
    constructor
    · rintro (⟨g1, g2⟩ | ⟨⟨g1, g2⟩, g3⟩)
      · exact ⟨Or.inl g1, g2⟩
      · exact ⟨Or.inr ⟨g1, fun hr => g3 ⟨hr, g2⟩⟩, g2⟩
    · rintro ⟨g1 | ⟨g1, g3⟩, g2⟩
      · exact Or.inl ⟨g1, g2⟩
      · exact Or.inr ⟨⟨g1, g2⟩, fun hr => g3 hr.1⟩

theorem inv_clear {s : State ε} {cur : List ε} (hi : Inv lt f s cur) : Inv lt f (clear s) [] :=
  ⟨hi.si, List.Pairwise.nil, hi.si, List.Pairwise.nil, fun e he => he, by simp [clear], by simp [clear], by simp [clear]⟩

theorem has_insert (h : StrictWeak lt) (ht : Total lt) {l : List ε} (hs : Sorted lt f l) (e : ε) (k : κ) (hne : f e ≠ k) :
    has lt f (insert lt f l e) k = has lt f l k := by
  cases ha : has lt f l (f e) with
  | true => unfold insert; rw [ha]; rfl
  | false =>
    have h2 := (insert_absent h ht hs ha).2
    rw [Bool.eq_iff_iff, has_iff h ht, has_iff h ht]
    constructor
    · rintro ⟨x, hx, hk⟩
      rcases (h2 x).mp hx with hx | hx
      · exact ⟨x, hx, hk⟩
      · rw [hx] at hk; exact absurd hk hne
    · rintro ⟨x, hx, hk⟩; exact ⟨x, (h2 x).mpr (Or.inl hx), hk⟩

theorem removeLoop_spec (h : StrictWeak lt) (ht : Total lt) (p : ε → Bool) : ∀ (es removed : List ε) (n : Nat), Sorted lt f es → Sorted lt f removed →
    (∀ e ∈ es, has lt f removed (f e) = true → e ∈ removed) →
    Sorted lt f (removeLoop lt f p es removed n).1 ∧
    (∀ x, x ∈ (removeLoop lt f p es removed n).1 ↔ x ∈ removed ∨ (x ∈ es ∧ p x = true)) ∧
    (removeLoop lt f p es removed n).2 = n + (es.filter (fun e => !has lt f removed (f e) && p e)).length
  | [], removed, n, _, hr, _ => ⟨hr, by simp [removeLoop], by simp [removeLoop]⟩
  | e :: es, removed, n, he, hr, hc => by
    simp only [removeLoop]
    have hes := List.Pairwise.of_cons he
    by_cases hskip : (has lt f removed (f e) || !p e) = true
    · rw [if_pos hskip]
      obtain ⟨h1, h2, h3⟩ := removeLoop_spec h ht p es removed n hes hr (fun x hx => hc x (List.mem_cons_of_mem _ hx))
      refine ⟨h1, ?_, ?_⟩
      · intro x
        rw [h2, List.mem_cons]
        constructor
        · rintro (g | ⟨g1, g2⟩)
          · exact Or.inl g
          · exact Or.inr ⟨Or.inr g1, g2⟩
        · rintro (g | ⟨g1 | g1, g2⟩)
          · exact Or.inl g
          · subst g1
            rw [g2] at hskip
            simp only [Bool.not_true, Bool.or_false] at hskip
            exact Or.inl (hc x (by simp) hskip)
          · exact Or.inr ⟨g1, g2⟩
      · rw [h3, List.filter_cons, if_neg]
        revert hskip
        cases has lt f removed (f e) <;> cases p e <;> simp
    · have hskip' : has lt f removed (f e) = false ∧ p e = true := by
        revert hskip; cases has lt f removed (f e) <;> cases p e <;> simp
      obtain ⟨ha, hp⟩ := hskip'
      rw [if_neg hskip]
      obtain ⟨i1, i2⟩ := insert_absent h ht hr ha
      have hne : ∀ x ∈ es, f e ≠ f x := by
        intro x hx hk
        have := List.rel_of_pairwise_cons he hx
        rw [hk, h.irrefl] at this; cases this
      obtain ⟨h1, h2, h3⟩ := removeLoop_spec h ht p es (insert lt f removed e) (n + 1) hes i1 (by
        intro x hx hh
        rw [has_insert h ht hr e _ (hne x hx)] at hh
        exact (i2 x).mpr (Or.inl (hc x (List.mem_cons_of_mem _ hx) hh)))
      refine ⟨h1, ?_, ?_⟩
      · intro x
        rw [h2, i2, List.mem_cons]
        constructor
        · rintro ((g | g) | ⟨g1, g2⟩)
          · exact Or.inl g
          · exact Or.inr ⟨Or.inl g, by rw [g]; exact hp⟩
          · exact Or.inr ⟨Or.inr g1, g2⟩
        · rintro (g | ⟨g1 | g1, g2⟩)
          · exact Or.inl (Or.inl g)
          · exact Or.inl (Or.inr g1)
          · exact Or.inr ⟨g1, g2⟩
      · rw [h3, List.filter_cons, if_pos (by rw [ha, hp]; rfl)]
        have : es.filter (fun x => !has lt f (insert lt f removed e) (f x) && p x) = es.filter (fun x => !has lt f removed (f x) && p x) := by
          apply List.filter_congr
          intro x hx
          rw [has_insert h ht hr e _ (hne x hx)]
        rw [this, List.length_cons]; omega

theorem removeWhere_spec (h : StrictWeak lt) (ht : Total lt) [DecidableEq ε] {s : State ε} {cur : List ε} (hi : Inv lt f s cur) (p : ε → Bool) :
    Inv lt f (removeWhere lt f p s).1 (cur.filter (fun e => !p e)) ∧ (removeWhere lt f p s).2 = (cur.filter p).length := by
  have hc : ∀ e ∈ s.items, has lt f s.removed (f e) = true → e ∈ s.removed := by
    intro e he hh
    obtain ⟨r, hr, hk⟩ := (has_iff h ht).mp hh
    rw [← key_inj h hi.si (hi.rsub r hr) he hk]; exact hr
  obtain ⟨h1, h2, h3⟩ := removeLoop_spec h ht p s.items s.removed (s.added.filter p).length hi.si hi.sr hc
  unfold removeWhere
  constructor
  · refine ⟨hi.si, sorted_filter hi.sa _, h1, sorted_filter hi.sc _, ?_, ?_, ?_, ?_⟩
    · intro e he
      rcases (h2 e).mp he with g | g
      · exact hi.rsub e g
      · exact g.1
    · intro a ha i hii hk
      exact (h2 i).mpr (Or.inl (hi.adis a (List.mem_filter.mp ha).1 i hii hk))
    · intro a ha; exact hi.anew a (List.mem_filter.mp ha).1
    · intro e
      simp only [List.mem_filter]
      rw [hi.cmem, h2]
      constructor
      · rintro ⟨g1 | ⟨g1, g2⟩, g3⟩
        · exact Or.inl ⟨g1, g3⟩
        · refine Or.inr ⟨g1, ?_⟩
          rintro (g4 | ⟨_, g4⟩)
          · exact g2 g4
          · rw [g4] at g3; cases g3
      · rintro (⟨g1, g3⟩ | ⟨g1, g2⟩)
        · exact ⟨Or.inl g1, g3⟩
        · refine ⟨Or.inr ⟨g1, fun g4 => g2 (Or.inl g4)⟩, ?_⟩
          cases hp : p e with
          | false => rfl
          | true => exact absurd (Or.inr ⟨g1, hp⟩) g2
  · simp only
    rw [h3]
    have := length_of_mem h (sorted_filter hi.si (fun e => !has lt f s.removed (f e) && p e)) (sorted_filter hi.sa p) (List.Pairwise.nil : Sorted lt f ([] : List ε))
      (sorted_filter hi.sc p) (by simp) (by intro e he hm; exact hi.anew e (List.mem_filter.mp he).1 (List.mem_filter.mp hm).1) (by
        intro e
        simp only [List.mem_filter, Bool.and_eq_true, Bool.not_eq_true', List.not_mem_nil, not_false_eq_true, and_true]
        rw [hi.cmem]
        constructor
        · rintro ⟨g1 | ⟨g1, g2⟩, g3⟩
          · exact Or.inl ⟨g1, g3⟩
          · refine Or.inr ⟨g1, ?_, g3⟩
            cases hh : has lt f s.removed (f e) with
            | false => rfl
            | true => exact absurd (hc e g1 hh) g2
        · rintro (⟨g1, g3⟩ | ⟨g1, g2, g3⟩)
          · exact ⟨Or.inl g1, g3⟩
          · refine ⟨Or.inr ⟨g1, fun hr => ?_⟩, g3⟩
            have : has lt f s.removed (f e) = true := (has_iff h ht).mpr ⟨e, hr, rfl⟩
            rw [g2] at this; cases this)
    simp only [List.length_nil, Nat.add_zero] at this
    rw [this]; omega

/-- Putting a missing entry at its place. -/
theorem ins_spec (h : StrictWeak lt) (ht : Total lt) {l : List ε} (hs : Sorted lt f l) (e : ε) (ha : ∀ x ∈ l, f x ≠ f e) :
    Sorted lt f (Spec.ins lt f l e) ∧ ∀ x, x ∈ Spec.ins lt f l e ↔ x ∈ l ∨ x = e := by
  have hh : has lt f l (f e) = false := (has_false h ht).mpr ha
  have := insert_absent h ht hs hh
  have he : insert lt f l e = Spec.ins lt f l e := by
    unfold insert Spec.ins
    rw [hh, take_lowerBound, drop_lowerBound]; rfl
  rw [he] at this; exact this

end
end Verif.Trans

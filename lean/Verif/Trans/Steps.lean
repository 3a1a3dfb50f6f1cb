import Verif.Trans.Lemmas
/- The modifying calls keep the invariant of an open transaction. -/
namespace Verif.Trans
open Verif.Order
set_option linter.unusedSectionVars false

section
variable {κ : Type} [DecidableEq κ] {lt : κ → κ → Bool}

theorem has_mem (h : StrictWeak lt) (ht : Total lt) {l : List κ} {v : κ} : has lt id l v = true ↔ v ∈ l := by
  rw [has_iff h ht]; simp

theorem has_not_mem (h : StrictWeak lt) (ht : Total lt) {l : List κ} {v : κ} : has lt id l v = false ↔ v ∉ l := by
  rw [has_false h ht]
  constructor
  · intro hh hm; exact hh v hm rfl
  · intro hh e he hk; rw [← show e = v from hk] at hh; exact hh he

theorem setAdd_spec (h : StrictWeak lt) (ht : Total lt) {s : State κ} {cur : List κ} (hi : Inv lt id s cur) (v : κ) :
    Inv lt id (setAdd lt s v).1 (if v ∈ cur then cur else Spec.ins lt id cur v) ∧ (setAdd lt s v).2 = decide (v ∉ cur) := by
  unfold setAdd
  cases hr : has lt id s.removed v with
  | true =>
    have hr' := (has_mem h ht).mp hr
    have hit := hi.rsub v hr'
    have hna : v ∉ s.added := fun ha => hi.anew v ha hit
    have hnc : v ∉ cur := by
      intro hc
      rcases (hi.cmem v).mp hc with g | g
      · exact hna g
      · exact g.2 hr'
    obtain ⟨i1, i2⟩ := ins_spec h ht hi.sc v (fun x hx hk => hnc (by rw [← show x = v from hk]; exact hx))
    simp only [if_true, if_neg hnc]
    refine ⟨⟨hi.si, hi.sa, sorted_erase hi.sr v, i1, ?_, ?_, hi.anew, ?_⟩, by simp [hnc]⟩
    · intro e he; exact hi.rsub e ((mem_erase h ht).mp he).1
    · intro a ha i hii hk
      have : a = i := hk
      subst this
      exact absurd hii (hi.anew a ha)
    · intro e
      rw [i2, hi.cmem]
      simp only [mem_erase h ht, id_eq]
      by_cases hev : e = v
      · subst hev; simp [hit]
      · simp [hev]
  | false =>
    have hr' := (has_not_mem h ht).mp hr
    simp only [Bool.false_eq_true, if_false]
    by_cases hc : v ∈ cur
    · rw [if_pos hc]
      have hneg : (!has lt id s.added v && !has lt id s.items v) = false := by
        rcases (hi.cmem v).mp hc with g | g
        · rw [(has_mem h ht).mpr g]; rfl
        · rw [(has_mem h ht).mpr g.1]; simp
      rw [hneg]
      exact ⟨hi, by simp [hc]⟩
    · rw [if_neg hc]
      have hna : v ∉ s.added := fun ha => hc ((hi.cmem v).mpr (Or.inl ha))
      have hni : v ∉ s.items := fun ha => hc ((hi.cmem v).mpr (Or.inr ⟨ha, hr'⟩))
      have hpos : (!has lt id s.added v && !has lt id s.items v) = true := by
        rw [(has_not_mem h ht).mpr hna, (has_not_mem h ht).mpr hni]; rfl
      rw [hpos]
      obtain ⟨i1, i2⟩ := ins_spec h ht hi.sc v (fun x hx hk => hc (by rw [← show x = v from hk]; exact hx))
      obtain ⟨j1, j2⟩ := insert_absent h ht hi.sa (e := v) ((has_not_mem h ht).mpr hna)
      simp only [if_true]
      refine ⟨⟨hi.si, j1, hi.sr, i1, hi.rsub, ?_, ?_, ?_⟩, by simp [hc]⟩
      · intro a ha i hii hk
        have : a = i := hk
        subst this
        rcases (j2 a).mp ha with g | g
        · exact hi.adis a g a hii rfl
        · rw [g] at hii; exact absurd hii hni
      · intro a ha
        rcases (j2 a).mp ha with g | g
        · exact hi.anew a g
        · rw [g]; exact hni
      · intro e
        rw [i2, hi.cmem, j2]
        by_cases hev : e = v
        · simp [hev]
        · simp [hev]

theorem setRemove_spec (h : StrictWeak lt) (ht : Total lt) {s : State κ} {cur : List κ} (hi : Inv lt id s cur) (v : κ) :
    Inv lt id (setRemove lt s v).1 (cur.filter (fun x => decide (x ≠ v))) ∧ (setRemove lt s v).2 = decide (v ∈ cur) := by
  unfold setRemove
  cases ha : has lt id s.added v with
  | true =>
    have ha' := (has_mem h ht).mp ha
    have hc : v ∈ cur := (hi.cmem v).mpr (Or.inl ha')
    simp only [if_true]
    refine ⟨⟨hi.si, sorted_erase hi.sa v, hi.sr, sorted_filter hi.sc _, hi.rsub, ?_, ?_, ?_⟩, by simp [hc]⟩
    · intro a haa; exact hi.adis a ((mem_erase h ht).mp haa).1
    · intro a haa; exact hi.anew a ((mem_erase h ht).mp haa).1
    · intro e
      simp only [List.mem_filter, mem_erase h ht, id_eq, decide_eq_true_eq]
      rw [hi.cmem]
      by_cases hev : e = v
      · subst hev; simp [hi.anew e ha']
      · simp [hev]
  | false =>
    have ha' := (has_not_mem h ht).mp ha
    simp only [Bool.false_eq_true, if_false]
    by_cases hc : v ∈ cur
    · have g := ((hi.cmem v).mp hc).resolve_left ha'
      have hpos : (!has lt id s.removed v && has lt id s.items v) = true := by
        rw [(has_not_mem h ht).mpr g.2, (has_mem h ht).mpr g.1]; rfl
      rw [hpos]
      obtain ⟨j1, j2⟩ := insert_absent h ht hi.sr (e := v) ((has_not_mem h ht).mpr g.2)
      simp only [if_true]
      refine ⟨⟨hi.si, hi.sa, j1, sorted_filter hi.sc _, ?_, ?_, hi.anew, ?_⟩, by simp [hc]⟩
      · intro e he
        rcases (j2 e).mp he with g' | g'
        · exact hi.rsub e g'
        · rw [g']; exact g.1
      · intro a haa i hii hk; exact (j2 i).mpr (Or.inl (hi.adis a haa i hii hk))
      · intro e
        simp only [List.mem_filter, decide_eq_true_eq]
        rw [hi.cmem, j2]
        by_cases hev : e = v
        · subst hev; simp [ha']
        · simp [hev]
    · have hneg : (!has lt id s.removed v && has lt id s.items v) = false := by
        cases hr : has lt id s.removed v with
        | true => rfl
        | false =>
          have hr' := (has_not_mem h ht).mp hr
          rw [(has_not_mem h ht).mpr (fun hit => hc ((hi.cmem v).mpr (Or.inr ⟨hit, hr'⟩)))]; rfl
      rw [hneg]
      have hf : cur.filter (fun x => decide (x ≠ v)) = cur := by
        rw [List.filter_eq_self]
        intro x hx; rw [decide_eq_true_eq]; intro e; rw [e] at hx; exact hc hx
      simp only [Bool.false_eq_true, if_false]
      rw [hf]
      exact ⟨hi, by simp [hc]⟩

theorem setStep_spec (h : StrictWeak lt) (ht : Total lt) {s : State κ} {cur : List κ} (hi : Inv lt id s cur) (op : SetOp κ) :
    ∃ s' o, setStep lt s op = some (s', o) ∧ Spec.setOut lt s.items cur op o ∧ s'.items = (Spec.setNext lt s.items cur op).1 ∧
      Inv lt id s' (Spec.setNext lt s.items cur op).2 := by
  have hcont : ∀ v, contains lt id s v = decide (v ∈ cur) := by
    intro v
    rw [Bool.eq_iff_iff, contains_iff h ht hi, decide_eq_true_eq]; simp
  cases op with
  | add v =>
    obtain ⟨h1, h2⟩ := setAdd_spec h ht hi v
    refine ⟨_, _, rfl, ?_, ?_, h1⟩
    · simp only [Spec.setOut]; rw [h2]
    · simp only [Spec.setNext, setAdd]; split
      · rfl
      · split <;> rfl
  | remove v =>
    obtain ⟨h1, h2⟩ := setRemove_spec h ht hi v
    refine ⟨_, _, rfl, ?_, ?_, h1⟩
    · simp only [Spec.setOut]; rw [h2]
    · simp only [Spec.setNext, setRemove]; split
      · rfl
      · split <;> rfl
  | removeWhere p =>
    obtain ⟨h1, h2⟩ := removeWhere_spec h ht hi p
    refine ⟨_, _, rfl, ?_, rfl, h1⟩
    simp only [Spec.setOut]; rw [h2]
  | clear => exact ⟨_, _, rfl, rfl, rfl, inv_clear hi⟩
  | contains v => exact ⟨_, _, rfl, by simp only [Spec.setOut]; rw [hcont], rfl, hi⟩
  | count => exact ⟨s, .num cur.length, by simp only [setStep]; rw [count_spec h hi]; rfl, rfl, rfl, hi⟩
  | isEmpty => exact ⟨_, _, rfl, by simp only [Spec.setOut]; rw [isEmpty_spec h hi], rfl, hi⟩
  | isDirty => exact ⟨_, _, rfl, by simp only [Spec.setOut]; rw [isDirty_spec h hi], rfl, hi⟩
  | enumerate => exact ⟨s, .list cur, by simp only [setStep]; rw [enumerate_cur h ht hi]; rfl, rfl, rfl, hi⟩
  | reverse => exact ⟨s, .list cur.reverse, by simp only [setStep]; rw [revEnum_cur h ht hi]; rfl, rfl, rfl, hi⟩
  | find v =>
    refine ⟨s, _, by simp only [setStep]; rw [findEnum_cur h ht hi]; rfl, ?_, rfl, hi⟩
    simp only [Spec.setOut]; rw [hcont]; simp
  | reverseFind v =>
    refine ⟨s, _, by simp only [setStep]; rw [revFindEnum_cur h ht hi]; rfl, ?_, rfl, hi⟩
    simp only [Spec.setOut]; rw [hcont]; simp
  | diff => exact ⟨s, _, rfl, ⟨_, rfl, diff_spec h ht hi⟩, rfl, hi⟩
  | commit =>
    obtain ⟨d, h1, h2⟩ := commit_spec h ht hi
    refine ⟨⟨cur, [], []⟩, .changed d, by simp only [setStep]; rw [h1]; rfl, ?_, rfl, inv_clean hi.sc⟩
    simp only [Spec.setOut]
    split
    · rename_i he; rw [if_pos he] at h2; rw [h2]
    · rename_i he; rw [if_neg he] at h2
      obtain ⟨x, h3, h4⟩ := h2
      exact ⟨x, by rw [h3], h4⟩
  | revert => exact ⟨_, _, rfl, rfl, rfl, inv_clean hi.si⟩
  | renew => exact ⟨_, _, rfl, rfl, rfl, inv_clean hi.si⟩
  | committed => exact ⟨s, _, rfl, rfl, rfl, hi⟩

theorem setRun_spec (h : StrictWeak lt) (ht : Total lt) : ∀ (ops : List (SetOp κ)) {s : State κ} {cur : List κ}, Inv lt id s cur →
    ∃ s' outs, setRun lt s ops = some (s', outs) ∧ Spec.setTrace lt s.items cur ops outs ∧ s'.items = (Spec.setFinal lt s.items cur ops).1 ∧
      Inv lt id s' (Spec.setFinal lt s.items cur ops).2
  | [], s, cur, hi => ⟨s, [], rfl, rfl, rfl, hi⟩
  | op :: ops, s, cur, hi => by
    obtain ⟨s', o, h1, h2, h3, h4⟩ := setStep_spec h ht hi op
    obtain ⟨s'', outs, g1, g2, g3, g4⟩ := setRun_spec h ht ops h4
    refine ⟨s'', o :: outs, ?_, ⟨o, outs, rfl, h2, ?_⟩, ?_, ?_⟩
    · simp only [setRun, h1, g1]; rfl
    · rw [← h3]; exact g2
    · simp only [Spec.setFinal]; rw [← h3]; exact g3
    · simp only [Spec.setFinal]; rw [← h3]; exact g4

end

section
variable {κ ν : Type} [DecidableEq κ] [DecidableEq ν] {lt : κ → κ → Bool} {veq : ν → ν → Bool}

theorem lookup_some_iff (h : StrictWeak lt) {l : List (κ × ν)} (hs : Sorted lt Prod.fst l) {k : κ} {v : ν} :
    Spec.lookup l k = some v ↔ (k, v) ∈ l := by
  unfold Spec.lookup
  constructor
  · intro hf
    cases hx : l.find? (fun e => decide (e.1 = k)) with
    | none => rw [hx] at hf; cases hf
    | some e =>
      rw [hx] at hf
      simp only [Option.map_some, Option.some.injEq] at hf
      have h1 := List.mem_of_find?_eq_some hx
      have h2 : e.1 = k := by simpa using List.find?_some hx
      rw [← h2, ← hf]; exact h1
  · intro hm
    cases hx : l.find? (fun e => decide (e.1 = k)) with
    | none =>
      have := List.find?_eq_none.mp hx (k, v) hm
      simp at this
    | some e =>
      have h1 := List.mem_of_find?_eq_some hx
      have h2 : e.1 = k := by simpa using List.find?_some hx
      have : e = (k, v) := key_inj h hs h1 hm h2
      rw [this]; rfl

theorem lookup_isSome {l : List (κ × ν)} {k : κ} : (Spec.lookup l k).isSome = true ↔ ∃ e ∈ l, e.1 = k := by
  unfold Spec.lookup
  rw [Option.isSome_map, List.find?_isSome]; simp

theorem lookup_isNone {l : List (κ × ν)} {k : κ} : (Spec.lookup l k).isNone = !(Spec.lookup l k).isSome := by
  cases Spec.lookup l k <;> rfl

/-- The key is not among the current entries. -/
theorem not_cur (hcur : List (κ × ν)) {k : κ} (hn : ¬ (Spec.lookup hcur k).isSome = true) : ∀ e ∈ hcur, e.1 ≠ k :=
  fun e he hk => hn (lookup_isSome.mpr ⟨e, he, hk⟩)

theorem dictGet_spec (h : StrictWeak lt) (ht : Total lt) {s : State (κ × ν)} {cur : List (κ × ν)} (hi : Inv lt Prod.fst s cur) (k : κ) :
    dictGet lt s k = Spec.lookup cur k := by
  apply Option.ext
  intro v
  rw [lookup_some_iff h hi.sc, hi.cmem]
  unfold dictGet
  cases ha : find lt Prod.fst s.added k with
  | some e =>
    obtain ⟨h1, h2⟩ := (find_some_iff h ht hi.sa).mp ha
    simp only [Option.some.injEq]
    constructor
    · intro hv; left; rw [← hv, ← h2]; exact h1
    · rintro (g | ⟨g1, g2⟩)
      · have : e = (k, v) := key_inj h hi.sa h1 g h2
        rw [this]
      · exact absurd (hi.adis e h1 (k, v) g1 h2) g2
  | none =>
    have hna : ∀ v, (k, v) ∉ s.added := by
      intro v hm
      rw [(find_some_iff h ht hi.sa).mpr ⟨hm, rfl⟩] at ha; cases ha
    simp only
    cases hit : find lt Prod.fst s.items k with
    | none =>
      have hni : (k, v) ∉ s.items := by
        intro hm
        rw [(find_some_iff h ht hi.si).mpr ⟨hm, rfl⟩] at hit; cases hit
      simp [hna v, hni]
    | some e =>
      obtain ⟨h1, h2⟩ := (find_some_iff h ht hi.si).mp hit
      simp only
      cases hr : has lt Prod.fst s.removed k with
      | true =>
        obtain ⟨r, h3, h4⟩ := (has_iff h ht).mp hr
        have hre : r = e := key_inj h hi.si (hi.rsub r h3) h1 (h4.trans h2.symm)
        simp only [if_true, reduceCtorEq, false_iff]
        rintro (g | ⟨g1, g2⟩)
        · exact hna v g
        · have : (k, v) = e := key_inj h hi.si g1 h1 h2.symm
          rw [this, ← hre] at g2; exact g2 h3
      | false =>
        simp only [Bool.false_eq_true, if_false, Option.some.injEq]
        constructor
        · intro hv
          right
          have hke : (k, v) = e := by rw [← hv, ← h2]
          rw [hke]
          exact ⟨h1, fun hm => (has_false h ht).mp hr e hm h2⟩
        · rintro (g | ⟨g1, g2⟩)
          · exact absurd g (hna v)
          · have : (k, v) = e := key_inj h hi.si g1 h1 h2.symm
            rw [← this]

theorem dictAdd_spec (h : StrictWeak lt) (ht : Total lt) (hv : ∀ a b, veq a b = true ↔ a = b) {s : State (κ × ν)} {cur : List (κ × ν)}
    (hi : Inv lt Prod.fst s cur) (k : κ) (v : ν) :
    Inv lt Prod.fst (dictAdd lt veq s k v).1 (if (Spec.lookup cur k).isSome then cur else Spec.ins lt Prod.fst cur (k, v)) ∧
    (dictAdd lt veq s k v).2 = (Spec.lookup cur k).isNone ∧ (dictAdd lt veq s k v).1.items = s.items := by
  have hcont := contains_iff h ht hi k
  rw [← lookup_isSome] at hcont
  rw [lookup_isNone]
  -- adding a key that is not seen
  have addNew : ¬ (Spec.lookup cur k).isSome = true → (∀ e ∈ s.added, e.1 ≠ k) → (k, v) ∉ s.items → (∀ i ∈ s.items, k = i.1 → i ∈ s.removed) →
      Inv lt Prod.fst ⟨s.items, insert lt Prod.fst s.added (k, v), s.removed⟩ (Spec.ins lt Prod.fst cur (k, v)) := by
    intro hn hna hni hdis
    obtain ⟨i1, i2⟩ := ins_spec h ht hi.sc (k, v) (not_cur cur hn)
    obtain ⟨j1, j2⟩ := insert_absent h ht hi.sa (e := (k, v)) ((has_false h ht).mpr hna)
    refine ⟨hi.si, j1, hi.sr, i1, hi.rsub, ?_, ?_, ?_⟩
    · intro a ha i hii hk
      rcases (j2 a).mp ha with g | g
      · exact hi.adis a g i hii hk
      · rw [g] at hk; exact hdis i hii hk
    · intro a ha
      rcases (j2 a).mp ha with g | g
      · exact hi.anew a g
      · rw [g]; exact hni
    · intro e
      rw [i2, hi.cmem, j2]
      by_cases he : e = (k, v)
      · simp [he]
      · simp [he]
  unfold dictAdd
  cases hit : find lt Prod.fst s.items k with
  | some e =>
    obtain ⟨h1, h2⟩ := (find_some_iff h ht hi.si).mp hit
    have hasItems : has lt Prod.fst s.items k = true := (has_iff h ht).mpr ⟨e, h1, h2⟩
    simp only
    by_cases hc : (Spec.lookup cur k).isSome = true
    · rw [if_pos hc]
      have := hcont.mpr hc
      unfold contains at this
      rw [hasItems] at this
      have hcond : (!has lt Prod.fst s.removed k || has lt Prod.fst s.added k) = true := by
        revert this; cases has lt Prod.fst s.removed k <;> cases has lt Prod.fst s.added k <;> simp
      rw [if_pos hcond]
      exact ⟨hi, by rw [hc]; rfl, rfl⟩
    · rw [if_neg hc]
      have hcf : contains lt Prod.fst s k = false := by
        cases hx : contains lt Prod.fst s k with
        | false => rfl
        | true => exact absurd (hcont.mp hx) hc
      unfold contains at hcf
      rw [hasItems] at hcf
      have hra : has lt Prod.fst s.removed k = true ∧ has lt Prod.fst s.added k = false := by
        revert hcf; cases has lt Prod.fst s.removed k <;> cases has lt Prod.fst s.added k <;> simp
      obtain ⟨hr, ha⟩ := hra
      have hcond : ¬ (!has lt Prod.fst s.removed k || has lt Prod.fst s.added k) = true := by rw [hr, ha]; simp
      rw [if_neg hcond]
      have hsome : (Spec.lookup cur k).isSome = false := by revert hc; cases (Spec.lookup cur k).isSome <;> simp
      have her : e ∈ s.removed := by
        obtain ⟨r, h3, h4⟩ := (has_iff h ht).mp hr
        rw [← key_inj h hi.si (hi.rsub r h3) h1 (h4.trans h2.symm)]; exact h3
      have hna := (has_false h ht).mp ha
      cases hve : veq v e.2 with
      | true =>
        have hvv := (hv v e.2).mp hve
        have hke : (k, v) = e := by rw [hvv, ← h2]
        obtain ⟨i1, i2⟩ := ins_spec h ht hi.sc (k, v) (not_cur cur hc)
        simp only [if_true]
        refine ⟨⟨hi.si, hi.sa, sorted_erase hi.sr k, i1, ?_, ?_, hi.anew, ?_⟩, by rw [hsome]; rfl, trivial⟩
        · intro x hx; exact hi.rsub x ((mem_erase h ht).mp hx).1
        · intro a haa i hii hk
          refine (mem_erase h ht).mpr ⟨hi.adis a haa i hii hk, ?_⟩
          intro hik
          exact hna a haa (hk.trans hik)
        · intro x
          rw [i2, hi.cmem]
          simp only [mem_erase h ht]
          by_cases hx : x = (k, v)
          · rw [hx]; simp [hke, h1, h2]
          · constructor
            · rintro ((g | ⟨g1, g2⟩) | g)
              · exact Or.inl g
              · exact Or.inr ⟨g1, fun hm => g2 hm.1⟩
              · exact absurd g hx
            · rintro (g | ⟨g1, g2⟩)
              · exact Or.inl (Or.inl g)
              · refine Or.inl (Or.inr ⟨g1, fun hm => g2 ⟨hm, fun hk => ?_⟩⟩)
                exact hx (by rw [hke]; exact key_inj h hi.si g1 h1 (hk.trans h2.symm))
      | false =>
        have hvv : v ≠ e.2 := fun e' => by rw [(hv v e.2).mpr e'] at hve; cases hve
        simp only [Bool.false_eq_true, if_false]
        refine ⟨addNew hc hna ?_ ?_, by rw [hsome]; rfl, trivial⟩
        · intro hm
          have : (k, v) = e := key_inj h hi.si hm h1 h2.symm
          exact hvv (by rw [← this])
        · intro i hii hk
          rw [key_inj h hi.si hii h1 (hk.symm.trans h2.symm)]; exact her
  | none =>
    have hni : ∀ e ∈ s.items, e.1 ≠ k := by
      intro e hm hk
      rw [(find_some_iff h ht hi.si).mpr ⟨hm, hk⟩] at hit; cases hit
    have hitf : has lt Prod.fst s.items k = false := (has_false h ht).mpr hni
    simp only
    have hcadd : contains lt Prod.fst s k = has lt Prod.fst s.added k := by unfold contains; rw [hitf]; simp
    rw [hcadd] at hcont
    cases ha : has lt Prod.fst s.added k with
    | true =>
      have hc := hcont.mp ha
      rw [if_pos hc]
      simp only [if_true]
      exact ⟨hi, by rw [hc]; rfl, by first | rfl | trivial⟩
    | false =>
      have hc : ¬ (Spec.lookup cur k).isSome = true := fun hx => by rw [hcont.mpr hx] at ha; cases ha
      have hsome : (Spec.lookup cur k).isSome = false := by revert hc; cases (Spec.lookup cur k).isSome <;> simp
      rw [if_neg hc]
      simp only [Bool.false_eq_true, if_false]
      exact ⟨addNew hc ((has_false h ht).mp ha) (fun hm => hni _ hm rfl) (fun i hii hk => absurd hk.symm (hni i hii)), by rw [hsome]; rfl, by first | rfl | trivial⟩

/-- Replacing the value stored with a key. -/
theorem map_replace (h : StrictWeak lt) (ht : Total lt) {l : List (κ × ν)} (hs : Sorted lt Prod.fst l) {k : κ} {v w : ν} (hm : (k, w) ∈ l) :
    Sorted lt Prod.fst (l.map (fun x => if equiv lt x.1 k then (x.1, v) else x)) ∧
    ∀ x, x ∈ l.map (fun x => if equiv lt x.1 k then (x.1, v) else x) ↔ (x ∈ l ∧ x.1 ≠ k) ∨ x = (k, v) := by
  constructor
  · unfold Sorted
    rw [List.pairwise_map]
    refine List.Pairwise.imp ?_ hs
    intro a b hab
    split <;> split <;> exact hab
  · intro x
    rw [List.mem_map]
    constructor
    · rintro ⟨y, hy, rfl⟩
      by_cases he : equiv lt y.1 k = true
      · rw [if_pos he]; right; rw [ht _ _ he]
      · rw [if_neg he]; left
        exact ⟨hy, fun hk => he (by rw [hk]; exact equiv_refl h k)⟩
    · rintro (⟨h1, h2⟩ | h1)
      · exact ⟨x, h1, by rw [if_neg]; intro he; exact h2 (ht _ _ he)⟩
      · exact ⟨(k, w), hm, by rw [if_pos (equiv_refl h k), h1]⟩

/-- `cur` after `Set`. -/
theorem set_cur (h : StrictWeak lt) (ht : Total lt) {cur : List (κ × ν)} (hs : Sorted lt Prod.fst cur) (k : κ) (v : ν) :
    Sorted lt Prod.fst (Spec.ins lt Prod.fst (cur.filter (fun e => decide (e.1 ≠ k))) (k, v)) ∧
    ∀ x, x ∈ Spec.ins lt Prod.fst (cur.filter (fun e => decide (e.1 ≠ k))) (k, v) ↔ (x ∈ cur ∧ x.1 ≠ k) ∨ x = (k, v) := by
  obtain ⟨h1, h2⟩ := ins_spec h ht (sorted_filter hs (fun e => decide (e.1 ≠ k))) (k, v) (by
    intro x hx; simpa using (List.mem_filter.mp hx).2)
  refine ⟨h1, ?_⟩
  intro x; rw [h2, List.mem_filter]; simp

/-- The second half of `Set`, when the old value of the key (if any) is among the removed entries and the new value is not the committed one. -/
theorem dictSetAdded_spec (h : StrictWeak lt) (ht : Total lt) (hv : ∀ a b, veq a b = true ↔ a = b) {s : State (κ × ν)} {cur : List (κ × ν)}
    (hi : Inv lt Prod.fst s cur) (k : κ) (v : ν) (hni : (k, v) ∉ s.items) (hrem : ∀ i ∈ s.items, i.1 = k → i ∈ s.removed) :
    Inv lt Prod.fst (dictSetAdded lt veq s k v) (Spec.ins lt Prod.fst (cur.filter (fun e => decide (e.1 ≠ k))) (k, v)) ∧
    (dictSetAdded lt veq s k v).items = s.items := by
  obtain ⟨c1, c2⟩ := set_cur h ht hi.sc k v
  unfold dictSetAdded
  have build : ∀ added', Sorted lt Prod.fst added' → (∀ x, x ∈ added' ↔ (x ∈ s.added ∧ x.1 ≠ k) ∨ x = (k, v)) →
      Inv lt Prod.fst ⟨s.items, added', s.removed⟩ (Spec.ins lt Prod.fst (cur.filter (fun e => decide (e.1 ≠ k))) (k, v)) := by
    intro added' a1 a2
    refine ⟨hi.si, a1, hi.sr, c1, hi.rsub, ?_, ?_, ?_⟩
    · intro a ha i hii hk
      rcases (a2 a).mp ha with g | g
      · exact hi.adis a g.1 i hii hk
      · rw [g] at hk; exact hrem i hii hk.symm
    · intro a ha
      rcases (a2 a).mp ha with g | g
      · exact hi.anew a g.1
      · rw [g]; exact hni
    · intro x
      rw [c2, hi.cmem, a2]
      constructor
      · rintro (⟨g1 | g1, g2⟩ | g)
        · exact Or.inl (Or.inl ⟨g1, g2⟩)
        · exact Or.inr g1
        · exact Or.inl (Or.inr g)
      · rintro ((g | g) | ⟨g1, g2⟩)
        · exact Or.inl ⟨Or.inl g.1, g.2⟩
        · exact Or.inr g
        · exact Or.inl ⟨Or.inr ⟨g1, g2⟩, fun hk => g2 (hrem x g1 hk)⟩
  cases ha : find lt Prod.fst s.added k with
  | some e =>
    obtain ⟨h1, h2⟩ := (find_some_iff h ht hi.sa).mp ha
    have hke : (k, e.2) = e := by rw [← h2]
    have hem : (k, e.2) ∈ s.added := by rw [hke]; exact h1
    simp only
    cases hve : veq v e.2 with
    | true =>
      have hvv := (hv v e.2).mp hve
      simp only [if_true]
      refine ⟨build s.added hi.sa ?_, trivial⟩
      intro x
      constructor
      · intro hx
        by_cases hk : x.1 = k
        · right; rw [key_inj h hi.sa hx h1 (hk.trans h2.symm), ← hke, hvv]
        · exact Or.inl ⟨hx, hk⟩
      · rintro (g | g)
        · exact g.1
        · rw [g, hvv]; exact hem
    | false =>
      obtain ⟨m1, m2⟩ := map_replace h ht (v := v) hi.sa hem
      simp only [Bool.false_eq_true, if_false]
      exact ⟨build _ m1 m2, trivial⟩
  | none =>
    have hna : ∀ e ∈ s.added, e.1 ≠ k := by
      intro e hm hk
      rw [(find_some_iff h ht hi.sa).mpr ⟨hm, hk⟩] at ha; cases ha
    obtain ⟨j1, j2⟩ := insert_absent h ht hi.sa (e := (k, v)) ((has_false h ht).mpr hna)
    refine ⟨build _ j1 ?_, rfl⟩
    intro x
    rw [j2]
    constructor
    · rintro (g | g)
      · exact Or.inl ⟨g, hna x g⟩
      · exact Or.inr g
    · rintro (g | g)
      · exact Or.inl g.1
      · exact Or.inr g

/-- Moving the committed value of a key to the removed entries. -/
theorem inv_remove_item (h : StrictWeak lt) (ht : Total lt) {s : State (κ × ν)} {cur : List (κ × ν)} (hi : Inv lt Prod.fst s cur) {e : κ × ν}
    (he : e ∈ s.items) (hr : has lt Prod.fst s.removed e.1 = false) (hna : ∀ a ∈ s.added, a.1 ≠ e.1) :
    Inv lt Prod.fst ⟨s.items, s.added, insert lt Prod.fst s.removed (e.1, e.2)⟩ (cur.filter (fun x => decide (x.1 ≠ e.1))) := by
  obtain ⟨j1, j2⟩ := insert_absent h ht hi.sr (e := (e.1, e.2)) hr
  refine ⟨hi.si, hi.sa, j1, sorted_filter hi.sc _, ?_, ?_, hi.anew, ?_⟩
  · intro x hx
    rcases (j2 x).mp hx with g | g
    · exact hi.rsub x g
    · rw [g]; exact he
  · intro a ha i hii hk; exact (j2 i).mpr (Or.inl (hi.adis a ha i hii hk))
  · intro x
    simp only [List.mem_filter, decide_eq_true_eq]
    rw [hi.cmem, j2]
    constructor
    · rintro ⟨g1 | ⟨g1, g2⟩, g3⟩
      · exact Or.inl g1
      · refine Or.inr ⟨g1, ?_⟩
        rintro (g4 | g4)
        · exact g2 g4
        · rw [g4] at g3; exact g3 rfl
    · rintro (g | ⟨g1, g2⟩)
      · exact ⟨Or.inl g, hna x g⟩
      · refine ⟨Or.inr ⟨g1, fun g3 => g2 (Or.inl g3)⟩, fun hk => g2 (Or.inr ?_)⟩
        exact key_inj h hi.si g1 he hk

theorem dictSet_spec (h : StrictWeak lt) (ht : Total lt) (hv : ∀ a b, veq a b = true ↔ a = b) {s : State (κ × ν)} {cur : List (κ × ν)}
    (hi : Inv lt Prod.fst s cur) (k : κ) (v : ν) :
    Inv lt Prod.fst (dictSet lt veq s k v) (Spec.ins lt Prod.fst (cur.filter (fun e => decide (e.1 ≠ k))) (k, v)) ∧
    (dictSet lt veq s k v).items = s.items := by
  obtain ⟨c1, c2⟩ := set_cur h ht hi.sc k v
  unfold dictSet
  cases hit : find lt Prod.fst s.items k with
  | none =>
    have hni : ∀ e ∈ s.items, e.1 ≠ k := by
      intro e hm hk
      rw [(find_some_iff h ht hi.si).mpr ⟨hm, hk⟩] at hit; cases hit
    exact dictSetAdded_spec h ht hv hi k v (fun hm => hni _ hm rfl) (fun i hii hk => absurd hk (hni i hii))
  | some e =>
    obtain ⟨h1, h2⟩ := (find_some_iff h ht hi.si).mp hit
    have hke : (k, e.2) = e := by rw [← h2]
    simp only
    cases hve : veq v e.2 with
    | true =>
      have hvv := (hv v e.2).mp hve
      simp only [if_true]
      refine ⟨⟨hi.si, sorted_erase hi.sa k, sorted_erase hi.sr k, c1, ?_, ?_, ?_, ?_⟩, trivial⟩
      · intro x hx; exact hi.rsub x ((mem_erase h ht).mp hx).1
      · intro a ha i hii hk
        obtain ⟨g1, g2⟩ := (mem_erase h ht).mp ha
        exact (mem_erase h ht).mpr ⟨hi.adis a g1 i hii hk, fun hik => g2 (hk.trans hik)⟩
      · intro a ha; exact hi.anew a ((mem_erase h ht).mp ha).1
      · intro x
        rw [c2, hi.cmem]
        simp only [mem_erase h ht]
        by_cases hk : x.1 = k
        · constructor
          · rintro (g | g)
            · exact absurd hk g.2
            · right
              rw [g, hvv, hke]
              exact ⟨h1, fun hm => hm.2 h2⟩
          · rintro (g | ⟨g1, g2⟩)
            · exact absurd hk g.2
            · right; rw [hvv, hke]; exact key_inj h hi.si g1 h1 (hk.trans h2.symm)
        · constructor
          · rintro (⟨g1 | g1, _⟩ | g)
            · exact Or.inl ⟨g1, hk⟩
            · exact Or.inr ⟨g1.1, fun hm => g1.2 hm.1⟩
            · rw [g] at hk; exact absurd rfl hk
          · rintro (g | ⟨g1, g2⟩)
            · exact Or.inl ⟨Or.inl g.1, hk⟩
            · exact Or.inl ⟨Or.inr ⟨g1, fun hm => g2 ⟨hm, hk⟩⟩, hk⟩
    | false =>
      have hvv : v ≠ e.2 := fun e' => by rw [(hv v e.2).mpr e'] at hve; cases hve
      have hni : (k, v) ∉ s.items := by
        intro hm
        have : (k, v) = e := key_inj h hi.si hm h1 h2.symm
        exact hvv (by rw [← this])
      simp only [Bool.false_eq_true, if_false]
      cases hr : has lt Prod.fst s.removed e.1 with
      | true =>
        simp only [Bool.not_true, Bool.false_eq_true, if_false]
        obtain ⟨r, h3, h4⟩ := (has_iff h ht).mp hr
        have hre : r = e := key_inj h hi.si (hi.rsub r h3) h1 h4
        exact dictSetAdded_spec h ht hv hi k v hni (fun i hii hk => by rw [key_inj h hi.si hii h1 (hk.trans h2.symm), ← hre]; exact h3)
      | false =>
        simp only [Bool.not_false, if_true]
        have hna : ∀ a ∈ s.added, a.1 ≠ e.1 := by
          intro a ha hk
          exact (has_false h ht).mp hr e (hi.adis a ha e h1 hk) rfl
        have hi' := inv_remove_item h ht hi h1 hr hna
        have hj2 := (insert_absent h ht hi.sr (e := (e.1, e.2)) hr).2
        obtain ⟨g1, g2⟩ := dictSetAdded_spec h ht hv hi' k v hni (fun i hii hk => by
          rw [key_inj h hi.si hii h1 (hk.trans h2.symm)]
          exact (hj2 e).mpr (Or.inr rfl))
        refine ⟨?_, g2⟩
        have hff : (cur.filter (fun x => decide (x.1 ≠ e.1))).filter (fun x => decide (x.1 ≠ k)) = cur.filter (fun x => decide (x.1 ≠ k)) := by
          rw [List.filter_filter, h2]; simp
        rw [hff] at g1
        exact g1

theorem dictRemove_spec (h : StrictWeak lt) (ht : Total lt) {s : State (κ × ν)} {cur : List (κ × ν)} (hi : Inv lt Prod.fst s cur) (k : κ) :
    Inv lt Prod.fst (dictRemove lt s k).1 (cur.filter (fun e => decide (e.1 ≠ k))) ∧ (dictRemove lt s k).2 = (Spec.lookup cur k).isSome ∧
    (dictRemove lt s k).1.items = s.items := by
  have hcont := contains_iff h ht hi k
  rw [← lookup_isSome] at hcont
  have hnone : contains lt Prod.fst s k = false → (Spec.lookup cur k).isSome = false ∧ cur.filter (fun e => decide (e.1 ≠ k)) = cur := by
    intro hc
    have h1 : (Spec.lookup cur k).isSome = false := by
      cases hx : (Spec.lookup cur k).isSome with
      | false => rfl
      | true => rw [hcont.mpr hx] at hc; cases hc
    refine ⟨h1, ?_⟩
    rw [List.filter_eq_self]
    intro e he
    simpa using not_cur cur (by rw [h1]; simp) e he
  unfold dictRemove
  cases ha : has lt Prod.fst s.added k with
  | true =>
    have hc : (Spec.lookup cur k).isSome = true := hcont.mp (by unfold contains; rw [ha]; rfl)
    simp only [if_true]
    refine ⟨⟨hi.si, sorted_erase hi.sa k, hi.sr, sorted_filter hi.sc _, hi.rsub, ?_, ?_, ?_⟩, hc.symm, trivial⟩
    · intro a haa; exact hi.adis a ((mem_erase h ht).mp haa).1
    · intro a haa; exact hi.anew a ((mem_erase h ht).mp haa).1
    · intro x
      simp only [List.mem_filter, mem_erase h ht, decide_eq_true_eq]
      rw [hi.cmem]
      constructor
      · rintro ⟨g1 | g1, g2⟩
        · exact Or.inl ⟨g1, g2⟩
        · exact Or.inr g1
      · rintro (g | ⟨g1, g2⟩)
        · exact ⟨Or.inl g.1, g.2⟩
        · refine ⟨Or.inr ⟨g1, g2⟩, fun hk => ?_⟩
          obtain ⟨a, h3, h4⟩ := (has_iff h ht).mp ha
          exact g2 (hi.adis a h3 x g1 (h4.trans hk.symm))
  | false =>
    simp only [Bool.false_eq_true, if_false]
    cases hr : has lt Prod.fst s.removed k with
    | true =>
      obtain ⟨h1, h2⟩ := hnone (by unfold contains; rw [ha, hr]; simp)
      simp only [if_true]
      rw [h2, h1]; exact ⟨hi, rfl, by first | rfl | trivial⟩
    | false =>
      simp only [Bool.false_eq_true, if_false]
      cases hit : find lt Prod.fst s.items k with
      | none =>
        have hif : has lt Prod.fst s.items k = false := by unfold has; rw [hit]; rfl
        obtain ⟨h1, h2⟩ := hnone (by unfold contains; rw [ha, hif]; simp)
        simp only
        rw [h2, h1]; exact ⟨hi, rfl, by first | rfl | trivial⟩
      | some e =>
        obtain ⟨h1, h2⟩ := (find_some_iff h ht hi.si).mp hit
        have hif : has lt Prod.fst s.items k = true := by unfold has; rw [hit]; rfl
        have hc : (Spec.lookup cur k).isSome = true := hcont.mp (by unfold contains; rw [ha, hif, hr]; rfl)
        simp only
        have hr' : has lt Prod.fst s.removed e.1 = false := by rw [h2]; exact hr
        have := inv_remove_item h ht hi h1 hr' (by intro a haa; rw [h2]; exact (has_false h ht).mp ha a haa)
        rw [show (fun x : κ × ν => decide (x.1 ≠ e.1)) = (fun x => decide (x.1 ≠ k)) by rw [h2]] at this
        exact ⟨this, hc.symm, trivial⟩

theorem dictStep_spec (h : StrictWeak lt) (ht : Total lt) (hv : ∀ a b, veq a b = true ↔ a = b) {s : State (κ × ν)} {cur : List (κ × ν)}
    (hi : Inv lt Prod.fst s cur) (op : DictOp κ ν) :
    ∃ s' o, dictStep lt veq s op = some (s', o) ∧ Spec.dictOut lt s.items cur op o ∧ s'.items = (Spec.dictNext lt s.items cur op).1 ∧
      Inv lt Prod.fst s' (Spec.dictNext lt s.items cur op).2 := by
  have hcont : ∀ k, contains lt Prod.fst s k = (Spec.lookup cur k).isSome := by
    intro k
    rw [Bool.eq_iff_iff, contains_iff h ht hi, lookup_isSome]
  cases op with
  | add k v =>
    obtain ⟨h1, h2, h3⟩ := dictAdd_spec h ht hv hi k v
    exact ⟨_, _, rfl, by simp only [Spec.dictOut]; rw [h2], h3, h1⟩
  | set k v =>
    obtain ⟨h1, h3⟩ := dictSet_spec h ht hv hi k v
    exact ⟨_, _, rfl, rfl, h3, h1⟩
  | remove k =>
    obtain ⟨h1, h2, h3⟩ := dictRemove_spec h ht hi k
    exact ⟨_, _, rfl, by simp only [Spec.dictOut]; rw [h2], h3, h1⟩
  | removeWhere p =>
    obtain ⟨h1, h2⟩ := removeWhere_spec h ht hi (fun e => p e.1 e.2)
    exact ⟨_, _, rfl, by simp only [Spec.dictOut]; rw [h2], rfl, h1⟩
  | clear => exact ⟨_, _, rfl, rfl, rfl, inv_clear hi⟩
  | get k => exact ⟨_, _, rfl, by simp only [Spec.dictOut]; rw [dictGet_spec h ht hi], rfl, hi⟩
  | containsKey k => exact ⟨_, _, rfl, by simp only [Spec.dictOut]; rw [hcont], rfl, hi⟩
  | count => exact ⟨s, .num cur.length, by simp only [dictStep]; rw [count_spec h hi]; rfl, rfl, rfl, hi⟩
  | isEmpty => exact ⟨_, _, rfl, by simp only [Spec.dictOut]; rw [isEmpty_spec h hi], rfl, hi⟩
  | isDirty => exact ⟨_, _, rfl, by simp only [Spec.dictOut]; rw [isDirty_spec h hi], rfl, hi⟩
  | enumerate => exact ⟨s, .list cur, by simp only [dictStep]; rw [enumerate_cur h ht hi]; rfl, rfl, rfl, hi⟩
  | reverse => exact ⟨s, .list cur.reverse, by simp only [dictStep]; rw [revEnum_cur h ht hi]; rfl, rfl, rfl, hi⟩
  | find k =>
    refine ⟨s, _, by simp only [dictStep]; rw [findEnum_cur h ht hi]; rfl, ?_, rfl, hi⟩
    simp only [Spec.dictOut]; rw [hcont]
  | reverseFind k =>
    refine ⟨s, _, by simp only [dictStep]; rw [revFindEnum_cur h ht hi]; rfl, ?_, rfl, hi⟩
    simp only [Spec.dictOut]; rw [hcont]
  | diff => exact ⟨s, _, rfl, ⟨_, rfl, diff_spec h ht hi⟩, rfl, hi⟩
  | commit =>
    obtain ⟨d, h1, h2⟩ := commit_spec h ht hi
    refine ⟨⟨cur, [], []⟩, .changed d, by simp only [dictStep]; rw [h1]; rfl, ?_, rfl, inv_clean hi.sc⟩
    simp only [Spec.dictOut]
    split
    · rename_i he; rw [if_pos he] at h2; rw [h2]
    · rename_i he; rw [if_neg he] at h2
      obtain ⟨x, h3, h4⟩ := h2
      exact ⟨x, by rw [h3], h4⟩
  | revert => exact ⟨_, _, rfl, rfl, rfl, inv_clean hi.si⟩
  | renew => exact ⟨_, _, rfl, rfl, rfl, inv_clean hi.si⟩
  | committed => exact ⟨s, _, rfl, rfl, rfl, hi⟩

theorem dictRun_spec (h : StrictWeak lt) (ht : Total lt) (hv : ∀ a b, veq a b = true ↔ a = b) : ∀ (ops : List (DictOp κ ν)) {s : State (κ × ν)}
    {cur : List (κ × ν)}, Inv lt Prod.fst s cur →
    ∃ s' outs, dictRun lt veq s ops = some (s', outs) ∧ Spec.dictTrace lt s.items cur ops outs ∧ s'.items = (Spec.dictFinal lt s.items cur ops).1 ∧
      Inv lt Prod.fst s' (Spec.dictFinal lt s.items cur ops).2
  | [], s, cur, hi => ⟨s, [], rfl, rfl, rfl, hi⟩
  | op :: ops, s, cur, hi => by
    obtain ⟨s', o, h1, h2, h3, h4⟩ := dictStep_spec h ht hv hi op
    obtain ⟨s'', outs, g1, g2, g3, g4⟩ := dictRun_spec h ht hv ops h4
    refine ⟨s'', o :: outs, ?_, ⟨o, outs, rfl, h2, ?_⟩, ?_, ?_⟩
    · simp only [dictRun, h1, g1]; rfl
    · rw [← h3]; exact g2
    · simp only [Spec.dictFinal]; rw [← h3]; exact g3
    · simp only [Spec.dictFinal]; rw [← h3]; exact g4

end
end Verif.Trans

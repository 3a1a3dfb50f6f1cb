import Verif.Coll.ObservableProps
/-
Observable multi sets and multi dictionaries.
-/
namespace Verif.Coll.Obs
open Verif.Order
variable {κ ν : Type} {lt : κ → κ → Bool}

theorem removeFirst_eraseP (h : StrictWeak lt) {xs : List (κ × ν)} (hs : xs.Pairwise (fun a b => lt b.1 a.1 = false)) (k : κ) (ok : ν → Bool) :
    (Multi.removeFirst lt ok xs k).getD xs = xs.eraseP (fun e => equiv lt e.1 k && ok e.2) := by
  obtain ⟨a, b, c, s⟩ := split_exists h hs k
  unfold Multi.removeFirst
  rw [s.range h, s.lower h]
  rcases firstIn_spec ok b 0 with ⟨h1, h2⟩ | ⟨p, x, q, h1, h2, h3, h4⟩
  · rw [h1]
    simp only [Option.getD_none]
    symm
    apply eraseP_none
    intro e he
    cases hk : equiv lt e.1 k with
    | false => rfl
    | true =>
      have : e ∈ Spec.all lt xs k := by unfold Spec.all; rw [List.mem_filter]; exact ⟨he, hk⟩
      rw [s.all h] at this
      rw [h2 e this]; rfl
  · rw [h4]
    simp only [Option.getD_some]
    have hxk := s.at_ x (by rw [h1]; simp)
    have hsplit : xs = (a ++ p) ++ x :: (q ++ c) := by rw [s.eq, h1]; simp
    have hys : xs.eraseIdx (a.length + (0 + p.length)) = (a ++ p) ++ (q ++ c) := by
      rw [hsplit, List.eraseIdx_append_of_length_le (by simp)]
      simp
    rw [hys, hsplit]
    symm
    apply eraseP_split
    · intro y hy
      rcases List.mem_append.mp hy with hy | hy
      · unfold equiv; rw [s.before y hy]; simp
      · rw [h3 y hy]; simp
    · rw [hxk, h2]; rfl

variable [DecidableEq ν]

/-- The same key (as far as the comparer can tell) and the same value. -/
def same (lt : κ → κ → Bool) (e x : κ × ν) : Bool := equiv lt x.1 e.1 && decide (x.2 = e.2)

theorem same_trans (h : StrictWeak lt) {a b c : κ × ν} (h1 : same lt a b = true) (h2 : same lt b c = true) : same lt a c = true := by
  simp only [same, Bool.and_eq_true, decide_eq_true_eq] at h1 h2 ⊢
  exact ⟨equiv_trans h h2.1 h1.1, h2.2.trans h1.2⟩

theorem same_comm (a b : κ × ν) : same lt a b = same lt b a := by
  unfold same
  rw [equiv_comm]
  congr 1
  rw [Bool.eq_iff_iff, decide_eq_true_iff, decide_eq_true_iff]
  exact ⟨Eq.symm, Eq.symm⟩

theorem same_refl (h : StrictWeak lt) (a : κ × ν) : same lt a a = true := by
  simp [same, equiv_refl h]

theorem countP_eraseP {β : Type} {p q : β → Bool} (hpq : ∀ x, p x = true → q x = true) (l : List β) (hex : ∃ x ∈ l, p x = true) :
    (l.eraseP p).countP q + 1 = l.countP q := by
  induction l with
  | nil => obtain ⟨x, hx, _⟩ := hex; cases hx
  | cons y l ih =>
    rw [List.eraseP_cons]
    cases hp : p y with
    | true =>
      simp only [cond_true]
      rw [List.countP_cons_of_pos (hpq y hp)]
    | false =>
      simp only [cond_false]
      have hex' : ∃ x ∈ l, p x = true := by
        obtain ⟨x, hx, hpx⟩ := hex
        rcases List.mem_cons.mp hx with rfl | hx
        · rw [hp] at hpx; cases hpx
        · exact ⟨x, hx, hpx⟩
      rw [List.countP_cons, List.countP_cons, ← ih hex']
      omega

theorem countP_eraseP_disjoint {β : Type} {p q : β → Bool} (hpq : ∀ x, p x = true → q x = false) (l : List β) : (l.eraseP p).countP q = l.countP q := by
  rw [List.countP_eq_length_filter, List.countP_eq_length_filter, filter_eraseP_disjoint hpq]

/-- How many entries are the same as this one. -/
def cnt (lt : κ → κ → Bool) (l : List (κ × ν)) (e : κ × ν) : Nat := l.countP (same lt e)

theorem cnt_erase (h : StrictWeak lt) (l : List (κ × ν)) (e d : κ × ν) (hex : 0 < cnt lt l e) :
    cnt lt (l.eraseP (same lt e)) d = cnt lt l d - (if same lt d e then 1 else 0) := by
  have hex' : ∃ x ∈ l, same lt e x = true := List.countP_pos_iff.mp hex
  unfold cnt
  by_cases hd : same lt d e = true
  · have hall : ∀ x, same lt e x = true → same lt d x = true := fun x hx => same_trans h hd hx
    have := countP_eraseP hall l hex'
    rw [if_pos hd]; omega
  · have hall : ∀ x, same lt e x = true → same lt d x = false := by
      intro x hx
      cases hdx : same lt d x with
      | false => rfl
      | true => exact absurd (same_trans h hdx (by rw [same_comm]; exact hx)) hd
    rw [countP_eraseP_disjoint hall l, if_neg hd]; rfl

theorem multiRemoval_eq (h : StrictWeak lt) {veq : ν → ν → Bool} (hv : ∀ a b, veq a b = true ↔ b = a) {xs : List (κ × ν)}
    (hs : xs.Pairwise (fun a b => lt b.1 a.1 = false)) (e : κ × ν) : (multiRemoval lt veq e).1 xs = xs.eraseP (same lt e) := by
  simp only [multiRemoval]
  rw [removeFirst_eraseP h hs]
  congr 1
  funext x
  unfold same
  congr 1
  simp only [Multi.accept]
  rw [Bool.eq_iff_iff, hv, decide_eq_true_iff]

/-- Removing the first entry that is the same keeps two arrangements in step. -/
theorem erase_arranged (h : StrictWeak lt) {xs l : List (κ × ν)} (hm : Spec.MultiArranged lt xs l) (e : κ × ν) :
    Spec.MultiArranged lt (xs.eraseP (same lt e)) (l.eraseP (same lt e)) := by
  have := removeFirst_eraseP h hm.sorted e.1 (fun v => decide (v = e.2))
  rcases removeFirst_spec h hm e.1 (fun v => decide (v = e.2)) with ⟨h1, h2⟩ | ⟨_, ys, h1, h2⟩
  · have e1 : xs.eraseP (same lt e) = xs := eraseP_none (fun y hy => h2 y (hm.perm.mem_iff.mp hy))
    have e2 : l.eraseP (same lt e) = l := eraseP_none h2
    rw [e1, e2]; exact hm
  · rw [h1] at this
    simp only [Option.getD_some] at this
    have e1 : xs.eraseP (same lt e) = ys := this.symm
    rw [e1]; exact h2

theorem multi_removals (h : StrictWeak lt) {veq : ν → ν → Bool} (hv : ∀ a b, veq a b = true ↔ b = a) : ∀ (es xs l : List (κ × ν)), Spec.MultiArranged lt xs l →
    (∀ d, cnt lt es d ≤ cnt lt xs d) →
    Chain (Spec.followMulti lt) (Spec.MultiArranged lt) xs (es.map (multiRemoval lt veq)) ∧
    final xs (es.map (multiRemoval lt veq)) = es.foldl (fun xs e => xs.eraseP (same lt e)) xs
  | [], xs, l, _, _ => ⟨trivial, rfl⟩
  | e :: es, xs, l, hm, hc => by
    have hpos : 0 < cnt lt xs e := by
      have h1 := hc e
      have h2 : 0 < cnt lt (e :: es) e := List.countP_pos_iff.mpr ⟨e, by simp, same_refl h e⟩
      omega
    have hr := multiRemoval_eq h hv hm.sorted e
    have ih := multi_removals h hv es (xs.eraseP (same lt e)) (l.eraseP (same lt e)) (erase_arranged h hm e) (by
      intro d
      rw [cnt_erase h xs e d hpos]
      have := hc d
      unfold cnt at this ⊢
      rw [List.countP_cons] at this
      by_cases hd : same lt d e = true
      · rw [if_pos hd] at this ⊢; omega
      · rw [if_neg hd] at this ⊢; omega)
    simp only [List.map_cons, Chain, final, List.foldl_cons]
    rw [hr]
    refine ⟨⟨?_, ih.1⟩, ih.2⟩
    intro l1 hm1
    refine ⟨l1.eraseP (same lt e), ?_, erase_arranged h hm1 e⟩
    have : l1.any (fun x => equiv lt x.1 e.1 && decide (x.2 = e.2)) = true := by
      obtain ⟨x, hx, hxe⟩ := List.countP_pos_iff.mp hpos
      rw [List.any_eq_true]
      exact ⟨x, hm1.perm.mem_iff.mp hx, hxe⟩
    exact if_pos this

theorem foldl_erase_filter {p : κ × ν → Bool} : ∀ (es xs : List (κ × ν)), (∀ e ∈ es, ∀ x, same lt e x = true → p x = true) →
    (es.foldl (fun xs e => xs.eraseP (same lt e)) xs).filter (fun x => !p x) = xs.filter (fun x => !p x)
  | [], _, _ => rfl
  | e :: es, xs, hp => by
    rw [List.foldl_cons, foldl_erase_filter es _ (fun d hd => hp d (by simp [hd]))]
    apply filter_eraseP_disjoint
    intro x hx
    rw [hp e (by simp) x hx]; rfl

theorem foldl_erase_cnt (h : StrictWeak lt) : ∀ (es xs : List (κ × ν)), (∀ d, cnt lt es d ≤ cnt lt xs d) → ∀ d,
    cnt lt (es.foldl (fun xs e => xs.eraseP (same lt e)) xs) d = cnt lt xs d - cnt lt es d
  | [], xs, _, d => by simp [cnt]
  | e :: es, xs, hc, d => by
    have hpos : 0 < cnt lt xs e := by
      have h1 := hc e
      have h2 : 0 < cnt lt (e :: es) e := List.countP_pos_iff.mpr ⟨e, by simp, same_refl h e⟩
      omega
    rw [List.foldl_cons, foldl_erase_cnt h es (xs.eraseP (same lt e)), cnt_erase h xs e d hpos]
    · have : cnt lt (e :: es) d = cnt lt es d + (if same lt d e then 1 else 0) := by unfold cnt; rw [List.countP_cons]
      rw [this]; omega
    · intro d
      rw [cnt_erase h xs e d hpos]
      have := hc d
      unfold cnt at this ⊢
      rw [List.countP_cons] at this
      by_cases hd : same lt d e = true
      · rw [if_pos hd] at this ⊢; omega
      · rw [if_neg hd] at this ⊢; omega

theorem cnt_filter_le (p : κ × ν → Bool) (xs : List (κ × ν)) (d : κ × ν) : cnt lt (xs.filter p) d ≤ cnt lt xs d :=
  List.Sublist.countP_le List.filter_sublist

/-- Removing one by one all entries with a property that does not tell apart entries that are the same. -/
theorem foldl_erase_all (h : StrictWeak lt) {p : κ × ν → Bool} (hp : ∀ e x, same lt e x = true → p e = p x) (xs : List (κ × ν)) :
    (xs.filter p).foldl (fun xs e => xs.eraseP (same lt e)) xs = xs.filter (fun x => !p x) := by
  have h1 := foldl_erase_filter (lt := lt) (p := p) (xs.filter p) xs (fun e he x hx => by rw [← hp e x hx]; exact (List.mem_filter.mp he).2)
  rw [← h1]
  symm
  rw [List.filter_eq_self]
  intro e he
  cases hpe : p e with
  | false => rfl
  | true =>
    have h2 := foldl_erase_cnt h (xs.filter p) xs (cnt_filter_le p xs) e
    have h3 : cnt lt (xs.filter p) e = cnt lt xs e := by
      unfold cnt
      rw [List.countP_filter]
      apply List.countP_congr
      intro x _
      simp only [Bool.and_eq_true]
      exact ⟨fun hh => hh.1, fun hh => ⟨hh, by rw [← hp e x hh]; exact hpe⟩⟩
    rw [h3, Nat.sub_self] at h2
    have h4 : 0 < cnt lt ((xs.filter p).foldl (fun xs e => xs.eraseP (same lt e)) xs) e := List.countP_pos_iff.mpr ⟨e, he, same_refl h e⟩
    omega

/-- A predicate for RemoveWhere that does not tell apart keys which the comparer does not tell apart. -/
def Respects (lt : κ → κ → Bool) : Multi.Op κ ν → Prop
  | .removeWhere p => ∀ k k' v, equiv lt k k' = true → p k v = p k' v
  | _ => True

theorem multi_plan_chain (h : StrictWeak lt) {veq : ν → ν → Bool} (hv : ∀ a b, veq a b = true ↔ b = a) {xs l : List (κ × ν)} (hm : Spec.MultiArranged lt xs l) (op : Multi.Op κ ν) :
    Chain (Spec.followMulti lt) (Spec.MultiArranged lt) xs (multiPlan lt veq xs op).1 ∧
    (Respects lt op → (final xs (multiPlan lt veq xs op).1, (multiPlan lt veq xs op).2) = Multi.step lt veq xs op) := by
  cases op with
  | add k v => exact ⟨⟨fun l1 hm1 => ⟨_, rfl, add_arranged h hm1 k v⟩, trivial⟩, fun _ => rfl⟩
  | removeFirst k v =>
    obtain ⟨a, b, c, s⟩ := split_exists h hm.sorted k
    have hga : Multi.getAll lt xs k = b.map Prod.snd := by unfold Multi.getAll; rw [s.range h]
    simp only [multiPlan, hga]
    cases hf : (b.map Prod.snd).find? (Multi.accept veq v) with
    | none =>
      simp only []
      refine ⟨trivial, fun _ => ?_⟩
      have hb : ∀ e ∈ b, Multi.accept veq v e.2 = false := by
        intro e he
        rw [List.find?_eq_none] at hf
        simpa using hf e.2 (List.mem_map.mpr ⟨e, he, rfl⟩)
      have : Multi.removeFirst lt (Multi.accept veq v) xs k = none := by
        unfold Multi.removeFirst
        rw [s.range h]
        rcases firstIn_spec (Multi.accept veq v) b 0 with ⟨h1, _⟩ | ⟨p, x, q, h1, h2, _, _⟩
        · rw [h1]
        · rw [hb x (by rw [h1]; simp)] at h2; cases h2
      simp [Multi.step, this, final]
    | some t =>
      simp only []
      -- the first accepted entry is also the first one with its value
      rw [List.find?_eq_some_iff_append] at hf
      obtain ⟨ht, as', bs', heq, hno⟩ := hf
      obtain ⟨p, q', hb, hp', hq'⟩ := List.map_eq_append_iff.mp heq
      obtain ⟨x, q, hq, hx, _⟩ := List.map_eq_cons_iff.mp hq'
      subst hq
      have hnop : ∀ e ∈ p, Multi.accept veq v e.2 = false := by
        intro e he
        simpa using hno e.2 (by rw [← hp']; exact List.mem_map.mpr ⟨e, he, rfl⟩)
      have hnot : ∀ e ∈ p, e.2 ≠ t := by
        intro e he hh
        have := hnop e he
        rw [hh, ht] at this; cases this
      have hxk := s.at_ x (by rw [hb]; simp)
      have hsplit : xs = (a ++ p) ++ x :: (q ++ c) := by rw [s.eq, hb]; simp
      have hmem : x ∈ xs := by rw [hsplit]; simp
      have hsame : same lt (k, t) x = true := by simp [same, hxk, hx]
      have hpos : 0 < cnt lt xs (k, t) := List.countP_pos_iff.mpr ⟨x, hmem, hsame⟩
      have hr := multiRemoval_eq h hv hm.sorted (k, t)
      refine ⟨⟨?_, trivial⟩, fun _ => ?_⟩
      · intro l1 hm1
        refine ⟨l1.eraseP (same lt (k, t)), ?_, by rw [hr]; exact erase_arranged h hm1 (k, t)⟩
        have : l1.any (fun x => equiv lt x.1 k && decide (x.2 = t)) = true := by
          rw [List.any_eq_true]
          exact ⟨x, hm1.perm.mem_iff.mp hmem, hsame⟩
        exact if_pos this
      · have hfin : final xs [multiRemoval lt veq (k, t)] = xs.eraseP (same lt (k, t)) := hr
        rw [hfin]
        have e1 : xs.eraseP (same lt (k, t)) = (a ++ p) ++ (q ++ c) := by
          rw [hsplit]
          apply eraseP_split
          · intro y hy
            rcases List.mem_append.mp hy with hy | hy
            · simp [same, equiv, s.before y hy]
            · simp [same, hnot y hy]
          · exact hsame
        have e2 : Multi.removeFirst lt (Multi.accept veq v) xs k = some ((a ++ p) ++ (q ++ c)) := by
          have h1 := removeFirst_eraseP h hm.sorted k (Multi.accept veq v)
          have h2 : xs.eraseP (fun e => equiv lt e.1 k && Multi.accept veq v e.2) = (a ++ p) ++ (q ++ c) := by
            rw [hsplit]
            apply eraseP_split
            · intro y hy
              rcases List.mem_append.mp hy with hy | hy
              · simp [equiv, s.before y hy]
              · simp [hnop y hy]
            · rw [hxk, hx, ht]; rfl
          rw [h2] at h1
          rcases removeFirst_spec h hm k (Multi.accept veq v) with ⟨_, h4⟩ | ⟨_, ys, h3, _⟩
          · have := h4 x (hm.perm.mem_iff.mp hmem)
            rw [hxk, hx, ht] at this; cases this
          · rw [h3] at h1 ⊢
            exact congrArg some h1
        rw [e1]
        simp [Multi.step, e2]
  | removeAll k =>
    obtain ⟨a, b, c, s⟩ := split_exists h hm.sorted k
    have hes : (Multi.findFrom lt xs k).takeWhile (fun e => !(lt e.1 k || lt k e.1)) = xs.filter (fun e => equiv lt e.1 k) := by
      have hb : xs.filter (fun e => equiv lt e.1 k) = b := s.all h
      rw [hb]
      unfold Multi.findFrom
      rw [s.atLower h]
      cases b with
      | nil => rfl
      | cons y b =>
        simp only []
        rw [s.dropA, takeWhile_append_stop]
        · intro e he
          have := equiv_iff.mp (s.at_ e he)
          rw [this.1, this.2]; rfl
        · intro e he
          rw [s.after e he]; simp
    have hrm := multi_removals h hv (xs.filter (fun e => equiv lt e.1 k)) xs l hm (cnt_filter_le _ xs)
    simp only [multiPlan, hes]
    refine ⟨hrm.1, fun _ => ?_⟩
    rw [hrm.2, foldl_erase_all h (p := fun e => equiv lt e.1 k)]
    · simp only [Multi.step, Multi.removeAll]
      rw [s.range h, s.lower h, s.upper h, s.takeA, s.drop]
      have hb : xs.filter (fun e => equiv lt e.1 k) = b := s.all h
      rw [hb]
      congr 1
      rw [s.eq, List.filter_append, List.filter_append]
      have h1 : a.filter (fun e => !equiv lt e.1 k) = a := by
        rw [List.filter_eq_self]; intro e he; unfold equiv; rw [s.before e he]; rfl
      have h2 : b.filter (fun e => !equiv lt e.1 k) = [] := by
        rw [List.filter_eq_nil_iff]; intro e he; rw [s.at_ e he]; simp
      have h3 : c.filter (fun e => !equiv lt e.1 k) = c := by
        rw [List.filter_eq_self]; intro e he; unfold equiv; rw [s.after e he]; simp
      rw [h1, h2, h3]; simp
    · intro e x hx
      simp only [same, Bool.and_eq_true] at hx
      rw [Bool.eq_iff_iff]
      exact ⟨fun hh => equiv_trans h hx.1 hh, fun hh => equiv_trans h (by rw [equiv_comm]; exact hx.1) hh⟩
  | removeWhere p =>
    have hrm := multi_removals h hv (xs.filter (fun e => p e.1 e.2)) xs l hm (cnt_filter_le _ xs)
    refine ⟨hrm.1, fun hresp => ?_⟩
    simp only [multiPlan, Multi.step]
    rw [hrm.2, foldl_erase_all h (p := fun e => p e.1 e.2)]
    intro e x hx
    simp only [same, Bool.and_eq_true, decide_eq_true_eq] at hx
    rw [hx.2]
    exact hresp _ _ _ (by rw [equiv_comm]; exact hx.1)
  | clear =>
    have hrm := multi_removals h hv xs xs l hm (fun _ => Nat.le_refl _)
    refine ⟨hrm.1, fun _ => ?_⟩
    simp only [multiPlan, Multi.step]
    rw [hrm.2]
    have := foldl_erase_all h (p := fun _ : κ × ν => true) (fun _ _ _ => rfl) xs
    rw [List.filter_eq_self.mpr (fun _ _ => rfl)] at this
    rw [this]
    simp

theorem multi_populate {xs l : List (κ × ν)} {veq : ν → ν → Bool} (hm : Spec.MultiArranged lt xs l) :
    ∃ l', Spec.replay (Spec.followMulti lt) [] ((multi lt veq).populate xs) = some l' ∧ Spec.MultiArranged lt xs l' := by
  have aux : ∀ (es acc : List (κ × ν)), Spec.replay (Spec.followMulti lt) acc (es.map fun e => (⟨.added, e.1, e.2⟩ : Event κ ν)) = some (acc ++ es) := by
    intro es
    induction es with
    | nil => intro acc; simp [Spec.replay]
    | cons e es ih =>
      intro acc
      simp only [List.map_cons, Spec.replay, Spec.followMulti]
      have := ih (acc ++ [e])
      simpa using this
  exact ⟨xs, aux xs [], List.Perm.refl _, hm.sorted, fun _ => rfl⟩

theorem multi_nil : Spec.MultiArranged lt ([] : List (κ × ν)) [] := ⟨List.Perm.refl _, List.Pairwise.nil, fun _ => rfl⟩

/-- Every observer of an observable multi dictionary or multi set, whenever it connected: following its reports, which always make sense, it has exactly the contents, also in the
    middle of each report.  For observers which do not themselves change the collection. -/
theorem multi_observers_partial (h : StrictWeak lt) {veq : ν → ν → Bool} (hv : ∀ a b, veq a b = true ↔ b = a) (n : Nat) (as : List (Act (List (κ × ν)) (Event κ ν) (Multi.Op κ ν)))
    (hq : ∀ react, Act.connect react ∈ as → ∀ e s, react e s = []) :
    let w := (run (multi lt veq) (n + 1) ⟨[], []⟩ as).1
    ∀ ob ∈ w.observers,
      (ob.connected = true → ∃ l, Spec.replay (Spec.followMulti lt) [] (ob.log.map Note.ev) = some l ∧ Spec.MultiArranged lt w.contents l) ∧
      (∀ pre r post, ob.log = pre ++ r :: post → r.pop = false →
        ∃ l, Spec.replay (Spec.followMulti lt) [] ((pre ++ [r]).map Note.ev) = some l ∧ Spec.MultiArranged lt r.seen l) := by
  intro w ob hob
  have := (run_follows (follow := Spec.followMulti lt) (l0 := []) (Rel := Spec.MultiArranged lt) (multi lt veq) n (fun s l o hm => (multi_plan_chain h hv hm o).1) (fun s l hm => multi_populate hm)
    as ⟨[], []⟩ hq (by intro ob hob; cases hob) ⟨[], multi_nil⟩ (by intro ob hob; cases hob)).2.2 ob hob
  exact ⟨this.now, this.always⟩

/-- Being observed changes nothing, as long as the predicates given to RemoveWhere do not tell apart keys which the comparer does not tell apart. -/
theorem multi_observed_partial (h : StrictWeak lt) {veq : ν → ν → Bool} (hv : ∀ a b, veq a b = true ↔ b = a) (n : Nat) (as : List (Act (List (κ × ν)) (Event κ ν) (Multi.Op κ ν)))
    (hq : ∀ react, Act.connect react ∈ as → ∀ e s, react e s = [])
    (hp : ∀ p, Multi.Op.removeWhere p ∈ calls as → ∀ k k' v, equiv lt k k' = true → p k v = p k' v) :
    (run (multi lt veq) (n + 1) ⟨[], []⟩ as).1.contents = (Multi.run lt veq [] (calls as)).1 ∧
    (run (multi lt veq) (n + 1) ⟨[], []⟩ as).2.filterMap id = (Multi.run lt veq [] (calls as)).2 :=
  run_contents (follow := Spec.followMulti lt) (l0 := []) (Rel := Spec.MultiArranged lt) (multi lt veq) n (Multi.step lt veq) (fun s l o hm => (multi_plan_chain h hv hm o).1) (fun s l hm => multi_populate hm)
    (Respects lt) (fun s l o hm ho => (multi_plan_chain h hv hm o).2 ho) (Multi.run lt veq) (fun _ => rfl) (fun _ _ _ => rfl)
    as ⟨[], []⟩ hq (by intro ob hob; cases hob) ⟨[], multi_nil⟩ (by intro ob hob; cases hob) (by
      intro o ho
      cases o with
      | removeWhere p => exact hp p ho
      | _ => trivial)

/-- A multi set whose order does not tell 3 and 13 apart, asked to remove the element 13: it removes 3 instead and keeps the 13. -/
theorem removeWhere_coarse_violated :
    let w := (run (multi (fun a b : Nat => decide (a % 10 < b % 10)) (fun a b : Unit => decide (a = b))) 5 ⟨[], []⟩
      [.connect (fun _ _ => []), .call (.add 3 ()), .call (.add 13 ()), .call (.removeWhere (fun k _ => k = 13))]).1
    w.contents = [(13, ())] ∧ w.observers.map (fun ob => ob.log.map Note.ev) = [[⟨.added, 3, ()⟩, ⟨.added, 13, ()⟩, ⟨.removed, 13, ()⟩]] ∧
    (Multi.run (fun a b : Nat => decide (a % 10 < b % 10)) (fun a b : Unit => decide (a = b)) [] [.add 3 (), .add 13 (), .removeWhere (fun k _ => k = 13)]).1 = [(3, ())] := by
  decide

/-- Entries of one key with different values. -/
example : let w := (run (multi (fun a b : Nat => decide (a < b)) (fun a b : Char => decide (a = b))) 1 ⟨[], []⟩
      [.connect (fun _ _ => []), .call (.add 2 'a'), .call (.add 1 'b'), .call (.add 2 'c'), .connect (fun _ _ => []), .call (.removeFirst 2 (some 'c')), .call (.add 2 'a'), .call (.removeFirst 2 none), .call (.removeAll 2)]).1
    w.contents = [(1, 'b')] ∧ w.observers.map (fun ob => ob.log.map Note.ev)
      = [[⟨.added, 2, 'a'⟩, ⟨.added, 1, 'b'⟩, ⟨.added, 2, 'c'⟩, ⟨.removed, 2, 'c'⟩, ⟨.added, 2, 'a'⟩, ⟨.removed, 2, 'a'⟩, ⟨.removed, 2, 'a'⟩],
         [⟨.added, 1, 'b'⟩, ⟨.added, 2, 'a'⟩, ⟨.added, 2, 'c'⟩, ⟨.removed, 2, 'c'⟩, ⟨.added, 2, 'a'⟩, ⟨.removed, 2, 'a'⟩, ⟨.removed, 2, 'a'⟩]] := by
  decide

end Verif.Coll.Obs

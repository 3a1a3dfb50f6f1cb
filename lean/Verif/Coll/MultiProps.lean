import Verif.Coll.DictProps
/-
SortedMultiSet and MultiMapDictionary.
-/
namespace Verif.Coll
open Verif.Order
variable {κ ν : Type} {lt : κ → κ → Bool}

/-- Entries before, at and after a key. -/
structure Split (lt : κ → κ → Bool) (k : κ) (xs a b c : List (κ × ν)) : Prop where
  eq : xs = a ++ b ++ c
  before : ∀ e ∈ a, lt e.1 k = true
  at_ : ∀ e ∈ b, equiv lt e.1 k = true
  after : ∀ e ∈ c, lt k e.1 = true

theorem takeWhile_append_stop {α : Type} {p : α → Bool} : ∀ {a b : List α}, (∀ x ∈ a, p x = true) → (∀ x ∈ b, p x = false) → (a ++ b).takeWhile p = a
  | [], [], _, _ => rfl
  | [], y :: b, _, hb => by rw [List.nil_append, List.takeWhile_cons, hb y (by simp)]; rfl
  | x :: a, b, ha, hb => by
    rw [List.cons_append, List.takeWhile_cons, ha x (by simp), if_pos rfl, takeWhile_append_stop (fun y hy => ha y (by simp [hy])) hb]

theorem split_exists (h : StrictWeak lt) {xs : List (κ × ν)} (hs : xs.Pairwise (fun a b => lt b.1 a.1 = false)) (k : κ) : ∃ a b c, Split lt k xs a b c := by
  induction xs with
  | nil => exact ⟨[], [], [], rfl, by simp, by simp, by simp⟩
  | cons x xs ih =>
    rw [List.pairwise_cons] at hs
    obtain ⟨a, b, c, s⟩ := ih hs.2
    by_cases h1 : lt x.1 k = true
    · exact ⟨x :: a, b, c, by rw [s.eq]; rfl, by
        exact List.forall_mem_cons.mpr ⟨h1, s.before⟩, s.at_, s.after⟩
    · have h1' : lt x.1 k = false := by simpa using h1
      have ha : a = [] := by
        cases a with
        | nil => rfl
        | cons y a =>
          have hy := s.before y (by simp)
          have := hs.1 y (by rw [s.eq]; simp)
          rcases h.incomp y.1 x.1 k hy with h2 | h2
          · rw [this] at h2; cases h2
          · rw [h1'] at h2; cases h2
      subst ha
      by_cases h2 : lt k x.1 = true
      · have hb : b = [] := by
          cases b with
          | nil => rfl
          | cons y b =>
            have hy := s.at_ y (by simp)
            have := hs.1 y (by rw [s.eq]; simp)
            rw [h.lt_of_equiv_left hy h2] at this; cases this
        subst hb
        exact ⟨[], [], x :: c, by rw [s.eq]; rfl, by simp, by simp, by
          exact List.forall_mem_cons.mpr ⟨h2, s.after⟩⟩
      · exact ⟨[], x :: b, c, by rw [s.eq]; rfl, by simp, by
          exact List.forall_mem_cons.mpr ⟨equiv_iff.mpr ⟨h1', by simpa using h2⟩, s.at_⟩, s.after⟩

section
variable {k : κ} {xs a b c : List (κ × ν)}

theorem Split.lower (h : StrictWeak lt) (s : Split lt k xs a b c) : lowerBound lt Prod.fst xs k = a.length := by
  unfold lowerBound
  rw [s.eq, List.append_assoc, takeWhile_append_stop s.before]
  intro e he
  rcases List.mem_append.mp he with he | he
  · exact (equiv_iff.mp (s.at_ e he)).1
  · exact h.asymm (s.after e he)

theorem Split.upper (h : StrictWeak lt) (s : Split lt k xs a b c) : Multi.upperBound lt xs k = a.length + b.length := by
  unfold Multi.upperBound
  rw [s.eq, takeWhile_append_stop]
  · simp
  · intro e he
    rcases List.mem_append.mp he with he | he
    · rw [h.asymm (s.before e he)]; rfl
    · rw [(equiv_iff.mp (s.at_ e he)).2]; rfl
  · intro e he
    rw [s.after e he]; rfl

theorem Split.take (s : Split lt k xs a b c) : xs.take (a.length + b.length) = a ++ b := by
  rw [s.eq, List.take_append_of_le_length (by simp), List.take_of_length_le (by simp)]

theorem Split.drop (s : Split lt k xs a b c) : xs.drop (a.length + b.length) = c := by
  rw [s.eq]
  have : a.length + b.length = (a ++ b).length := by simp
  rw [this, List.drop_left]

theorem Split.takeA (s : Split lt k xs a b c) : xs.take a.length = a := by
  rw [s.eq, List.append_assoc, List.take_left]

theorem Split.dropA (s : Split lt k xs a b c) : xs.drop a.length = b ++ c := by
  rw [s.eq, List.append_assoc, List.drop_left]

theorem Split.range (h : StrictWeak lt) (s : Split lt k xs a b c) : Multi.range lt xs k = b := by
  unfold Multi.range
  rw [s.lower h, s.upper h, s.take, List.drop_left]

theorem Split.all (h : StrictWeak lt) (s : Split lt k xs a b c) : Spec.all lt xs k = b := by
  unfold Spec.all
  rw [s.eq, List.filter_append, List.filter_append]
  have h1 : a.filter (fun e => equiv lt e.1 k) = [] := by
    rw [List.filter_eq_nil_iff]; intro e he; unfold equiv; rw [s.before e he]; simp
  have h2 : b.filter (fun e => equiv lt e.1 k) = b := by
    rw [List.filter_eq_self]; exact s.at_
  have h3 : c.filter (fun e => equiv lt e.1 k) = [] := by
    rw [List.filter_eq_nil_iff]; intro e he; unfold equiv; rw [s.after e he]; simp
  rw [h1, h2, h3]; simp

theorem Split.atLower (h : StrictWeak lt) (s : Split lt k xs a b c) :
    Dict.atLower lt xs k = (match b with | [] => none | _ :: _ => some a.length) := by
  unfold Dict.atLower
  rw [s.lower h]
  have : xs[a.length]? = (b ++ c).head? := by rw [← s.dropA, List.head?_drop]
  rw [this]
  cases b with
  | cons y b =>
    simp only [List.cons_append, List.head?_cons]
    rw [(equiv_iff.mp (s.at_ y (by simp))).2]; rfl
  | nil =>
    cases c with
    | nil => rfl
    | cons y c =>
      simp only [List.nil_append, List.head?_cons]
      rw [s.after y (by simp)]; rfl
end

theorem firstIn_spec (ok : ν → Bool) : ∀ (b : List (κ × ν)) (n : Nat),
    (Multi.firstIn ok b n = none ∧ ∀ e ∈ b, ok e.2 = false) ∨
    ∃ p x q, b = p ++ x :: q ∧ ok x.2 = true ∧ (∀ e ∈ p, ok e.2 = false) ∧ Multi.firstIn ok b n = some (n + p.length)
  | [], n => .inl ⟨rfl, by simp⟩
  | e :: es, n => by
    cases he : ok e.2 with
    | true => exact .inr ⟨[], e, es, rfl, he, by simp, by simp [Multi.firstIn, he]⟩
    | false =>
      rcases firstIn_spec ok es (n + 1) with ⟨h1, h2⟩ | ⟨p, x, q, h1, h2, h3, h4⟩
      · exact .inl ⟨by simp [Multi.firstIn, he, h1], by
          exact List.forall_mem_cons.mpr ⟨he, h2⟩⟩
      · refine .inr ⟨e :: p, x, q, by rw [h1]; rfl, h2, ?_, ?_⟩
        · exact List.forall_mem_cons.mpr ⟨he, h3⟩
        · simp [Multi.firstIn, he, h4]; omega

/-- The first element that passes the test is removed. -/
theorem eraseP_split {α : Type} {p : α → Bool} {a : List α} {x : α} {b : List α} (ha : ∀ y ∈ a, p y = false) (hx : p x = true) : (a ++ x :: b).eraseP p = a ++ b := by
  induction a with
  | nil => simp [hx]
  | cons y a ih =>
    rw [List.cons_append, List.eraseP_cons, ha y (by simp)]
    simp only [cond_false, List.cons_append]
    rw [ih (fun z hz => ha z (by simp [hz]))]

theorem eraseP_none {α : Type} {p : α → Bool} {l : List α} (h : ∀ y ∈ l, p y = false) : l.eraseP p = l :=
  List.eraseP_of_forall_not (fun y hy => by simp [h y hy])

theorem filter_eraseP {α : Type} {p q : α → Bool} (hpq : ∀ x, p x = true → q x = true) (l : List α) :
    (l.eraseP p).filter q = (l.filter q).eraseP p := by
  induction l with
  | nil => rfl
  | cons x l ih =>
    rw [List.eraseP_cons]
    cases hp : p x with
    | true =>
      rw [List.filter_cons, hpq x hp, if_pos rfl, List.eraseP_cons, hp]; rfl
    | false =>
      simp only [cond_false]
      rw [List.filter_cons, List.filter_cons]
      by_cases hq : q x = true
      · rw [if_pos hq, if_pos hq, List.eraseP_cons, hp, ih]; rfl
      · rw [if_neg hq, if_neg hq, ih]

theorem filter_eraseP_disjoint {α : Type} {p q : α → Bool} (hpq : ∀ x, p x = true → q x = false) (l : List α) :
    (l.eraseP p).filter q = l.filter q := by
  induction l with
  | nil => rfl
  | cons x l ih =>
    rw [List.eraseP_cons]
    cases hp : p x with
    | true => rw [List.filter_cons, hpq x hp]; rfl
    | false =>
      simp only [cond_false]
      rw [List.filter_cons, List.filter_cons, ih]

/-- Removing the first entry that passes a test from two lists with the same elements which agree on the order of those entries. -/
theorem perm_eraseP {α : Type} {p : α → Bool} {xs l : List α} (hp : xs.Perm l) (hf : xs.filter p = l.filter p) : (xs.eraseP p).Perm (l.eraseP p) := by
  cases hc : l.filter p with
  | nil =>
    rw [List.filter_eq_nil_iff] at hc
    have hc' := hf.trans (List.filter_eq_nil_iff.mpr hc)
    rw [List.filter_eq_nil_iff] at hc'
    rw [eraseP_none (fun y hy => by simpa using hc' y hy), eraseP_none (fun y hy => by simpa using hc y hy)]
    exact hp
  | cons x r =>
    have one : ∀ {m : List α}, m.filter p = x :: r → m.Perm (x :: m.eraseP p) := by
      intro m
      induction m with
      | nil => intro h; cases h
      | cons y m ih =>
        intro h
        rw [List.eraseP_cons]
        cases hy : p y with
        | true =>
          rw [List.filter_cons, hy, if_pos rfl] at h
          injection h with h1 h2
          subst h1
          exact List.Perm.refl _
        | false =>
          rw [List.filter_cons, hy] at h
          simp only [cond_false]
          exact ((ih (by simpa using h)).cons y).trans (List.Perm.swap _ _ _)
    have h1 := one (hf.trans hc)
    have h2 := one hc
    exact List.Perm.cons_inv (h1.symm.trans (hp.trans h2))

variable [DecidableEq ν]

theorem equiv_other (h : StrictWeak lt) {x y k : κ} (hx : equiv lt x k = true) (hy : equiv lt x y = false) : equiv lt k y = false := by
  cases he : equiv lt k y with
  | false => rfl
  | true => rw [equiv_trans h hx he] at hy; cases hy

/-- Removing the first accepted entry of a key. -/
theorem removeFirst_spec (h : StrictWeak lt) {xs l : List (κ × ν)} (hm : Spec.MultiArranged lt xs l) (k : κ) (ok : ν → Bool) :
    (Multi.removeFirst lt ok xs k = none ∧ (∀ e ∈ l, (equiv lt e.1 k && ok e.2) = false)) ∨
    ((∃ e ∈ l, (equiv lt e.1 k && ok e.2) = true) ∧ ∃ ys, Multi.removeFirst lt ok xs k = some ys ∧ Spec.MultiArranged lt ys (l.eraseP (fun e => equiv lt e.1 k && ok e.2))) := by
  obtain ⟨a, b, c, s⟩ := split_exists h hm.sorted k
  unfold Multi.removeFirst
  rw [s.range h, s.lower h]
  rcases firstIn_spec ok b 0 with ⟨h1, h2⟩ | ⟨p, x, q, h1, h2, h3, h4⟩
  · left
    refine ⟨by rw [h1], ?_⟩
    intro e he
    cases hk : equiv lt e.1 k with
    | false => rfl
    | true =>
      have : e ∈ Spec.all lt l k := by unfold Spec.all; rw [List.mem_filter]; exact ⟨he, hk⟩
      rw [← hm.stable k, s.all h] at this
      rw [h2 e this]; rfl
  · right
    have hxb : x ∈ b := by rw [h1]; simp
    have hxx : x ∈ xs := by rw [s.eq]; simp [hxb]
    have hxk := s.at_ x hxb
    refine ⟨⟨x, hm.perm.mem_iff.mp hxx, by rw [hxk, h2]; rfl⟩, ?_⟩
    rw [h4]
    refine ⟨_, rfl, ?_⟩
    have hsplit : xs = (a ++ p) ++ x :: (q ++ c) := by rw [s.eq, h1]; simp
    have hys : xs.eraseIdx (a.length + (0 + p.length)) = (a ++ p) ++ (q ++ c) := by
      rw [hsplit, List.eraseIdx_append_of_length_le (by simp)]
      simp
    have hya : xs.eraseP (fun e => equiv lt e.1 k && ok e.2) = (a ++ p) ++ (q ++ c) := by
      rw [hsplit]
      apply eraseP_split
      · intro y hy
        rcases List.mem_append.mp hy with hy | hy
        · unfold equiv; rw [s.before y hy]; simp
        · rw [h3 y hy]; simp
      · rw [hxk, h2]; rfl
    rw [hys, ← hya]
    refine ⟨?_, ?_, ?_⟩
    · apply perm_eraseP hm.perm
      have : ∀ m : List (κ × ν), m.filter (fun e => equiv lt e.1 k && ok e.2) = (Spec.all lt m k).filter (fun e => ok e.2) := by
        intro m
        unfold Spec.all
        rw [List.filter_filter]
        congr 1
        funext e
        exact Bool.and_comm _ _
      rw [this, this, hm.stable k]
    · exact List.Pairwise.sublist List.eraseP_sublist hm.sorted
    · intro k'
      unfold Spec.all
      cases hkk : equiv lt k k' with
      | true =>
        have : ∀ e : κ × ν, (equiv lt e.1 k && ok e.2) = true → equiv lt e.1 k' = true := by
          intro e he
          rw [Bool.and_eq_true] at he
          exact equiv_trans h he.1 hkk
        rw [filter_eraseP this, filter_eraseP this]
        congr 1
        exact hm.stable k'
      | false =>
        have : ∀ e : κ × ν, (equiv lt e.1 k && ok e.2) = true → equiv lt e.1 k' = false := by
          intro e he
          rw [Bool.and_eq_true] at he
          cases hek : equiv lt e.1 k' with
          | false => rfl
          | true =>
            rw [equiv_trans h (by rw [equiv_comm]; exact he.1) hek] at hkk; cases hkk
        rw [filter_eraseP_disjoint this, filter_eraseP_disjoint this]
        exact hm.stable k'

theorem add_arranged (h : StrictWeak lt) {xs l : List (κ × ν)} (hm : Spec.MultiArranged lt xs l) (k : κ) (v : ν) :
    Spec.MultiArranged lt (Multi.add lt xs k v) (l ++ [(k, v)]) := by
  obtain ⟨a, b, c, s⟩ := split_exists h hm.sorted k
  have hadd : Multi.add lt xs k v = (a ++ b) ++ (k, v) :: c := by
    unfold Multi.add
    rw [s.upper h, s.take, s.drop]
  rw [hadd]
  refine ⟨?_, ?_, ?_⟩
  · refine List.perm_middle.trans ?_
    rw [← s.eq]
    exact (hm.perm.cons _).trans (List.perm_append_comm (l₁ := [(k, v)]))
  · have hs := hm.sorted
    rw [s.eq, List.pairwise_append] at hs
    rw [List.pairwise_append]
    refine ⟨hs.1, List.pairwise_cons.mpr ⟨fun e he => h.asymm (s.after e he), hs.2.1⟩, ?_⟩
    intro x hx y hy
    rcases List.mem_cons.mp hy with rfl | hy
    · rcases List.mem_append.mp hx with hx | hx
      · exact h.asymm (s.before x hx)
      · exact (equiv_iff.mp (s.at_ x hx)).2
    · exact hs.2.2 x hx y hy
  · intro k'
    have e1 : Spec.all lt (l ++ [(k, v)]) k' = Spec.all lt l k' ++ Spec.all lt [(k, v)] k' := by unfold Spec.all; rw [List.filter_append]
    have e2 : Spec.all lt ((a ++ b) ++ (k, v) :: c) k' = Spec.all lt (a ++ b) k' ++ (Spec.all lt [(k, v)] k' ++ Spec.all lt c k') := by
      unfold Spec.all; rw [List.filter_append, ← List.filter_append (l₁ := [(k, v)])]; rfl
    have e3 : Spec.all lt xs k' = Spec.all lt (a ++ b) k' ++ Spec.all lt c k' := by
      unfold Spec.all; rw [s.eq, List.filter_append]
    rw [e1, e2, ← hm.stable k', e3]
    cases hk : equiv lt k k' with
    | false =>
      have : Spec.all lt [(k, v)] k' = [] := by unfold Spec.all; rw [List.filter_cons]; simp [hk]
      rw [this]; simp
    | true =>
      have : Spec.all lt c k' = [] := by
        unfold Spec.all
        rw [List.filter_eq_nil_iff]
        intro e he hek
        have := equiv_trans h hk (by rw [equiv_comm]; exact hek)
        have h2 := s.after e he
        rw [(equiv_iff.mp this).1] at h2; cases h2
      rw [this]; simp

theorem filter_arranged {xs l : List (κ × ν)} (hm : Spec.MultiArranged lt xs l) (p : κ × ν → Bool) : Spec.MultiArranged lt (xs.filter p) (l.filter p) := by
  refine ⟨hm.perm.filter _, List.Pairwise.sublist List.filter_sublist hm.sorted, ?_⟩
  intro k
  have := hm.stable k
  unfold Spec.all at this ⊢
  have hc : ∀ m : List (κ × ν), (m.filter p).filter (fun e => equiv lt e.1 k) = (m.filter (fun e => equiv lt e.1 k)).filter p := by
    intro m
    rw [List.filter_filter, List.filter_filter]
    congr 1
    funext e
    exact Bool.and_comm _ _
  rw [hc, hc, this]

theorem multi_step (h : StrictWeak lt) {veq : ν → ν → Bool} (hv : ∀ a b, veq a b = true ↔ b = a) {xs l : List (κ × ν)} (hm : Spec.MultiArranged lt xs l) (op : Multi.Op κ ν) :
    Spec.MultiArranged lt (Multi.step lt veq xs op).1 (Spec.multiStep lt l op).1 ∧ (Multi.step lt veq xs op).2 = (Spec.multiStep lt l op).2 := by
  cases op with
  | add k v => exact ⟨add_arranged h hm k v, rfl⟩
  | removeFirst k v =>
    have key : ∀ (ok : ν → Bool), 
        Spec.MultiArranged lt ((Multi.removeFirst lt ok xs k).getD xs) (l.eraseP (fun e => equiv lt e.1 k && ok e.2)) ∧
        (Multi.removeFirst lt ok xs k).isSome = l.any (fun e => equiv lt e.1 k && ok e.2) := by
      intro ok
      rcases removeFirst_spec h hm k ok with ⟨h1, h2⟩ | ⟨⟨e, he, hek⟩, ys, h1, h2⟩
      · rw [h1]
        refine ⟨?_, ?_⟩
        · rw [eraseP_none h2]; exact hm
        · symm; rw [Option.isSome_none, List.any_eq_false]; intro e he; rw [h2 e he]; simp
      · rw [h1]
        exact ⟨h2, by symm; rw [Option.isSome_some, List.any_eq_true]; exact ⟨e, he, hek⟩⟩
    cases v with
    | none =>
      obtain ⟨h1, h2⟩ := key (Multi.accept veq none)
      have hp : (fun e : κ × ν => equiv lt e.1 k && Multi.accept veq none e.2) = fun e => equiv lt e.1 k := by
        funext e; simp [Multi.accept]
      rw [hp] at h1 h2
      simp only [Multi.step, Spec.multiStep, Spec.has]
      rw [← h2]
      cases hr : Multi.removeFirst lt (Multi.accept veq none) xs k <;> rw [hr] at h1 <;> exact ⟨h1, rfl⟩
    | some v =>
      obtain ⟨h1, h2⟩ := key (Multi.accept veq (some v))
      have hp : (fun e : κ × ν => equiv lt e.1 k && Multi.accept veq (some v) e.2) = fun e => equiv lt e.1 k && decide (e.2 = v) := by
        funext e
        congr 1
        simp only [Multi.accept]
        rw [Bool.eq_iff_iff, hv, decide_eq_true_iff]
      rw [hp] at h1 h2
      simp only [Multi.step, Spec.multiStep]
      rw [← h2]
      cases hr : Multi.removeFirst lt (Multi.accept veq (some v)) xs k <;> rw [hr] at h1 <;> exact ⟨h1, rfl⟩
  | removeAll k =>
    obtain ⟨a, b, c, s⟩ := split_exists h hm.sorted k
    simp only [Multi.step, Multi.removeAll, Spec.multiStep]
    rw [s.range h, s.lower h, s.upper h, s.takeA, s.drop, ← hm.stable k, s.all h]
    refine ⟨?_, rfl⟩
    have : a ++ c = xs.filter (fun e => !equiv lt e.1 k) := by
      rw [s.eq, List.filter_append, List.filter_append]
      have h1 : a.filter (fun e => !equiv lt e.1 k) = a := by
        rw [List.filter_eq_self]; intro e he; unfold equiv; rw [s.before e he]; rfl
      have h2 : b.filter (fun e => !equiv lt e.1 k) = [] := by
        rw [List.filter_eq_nil_iff]; intro e he; rw [s.at_ e he]; simp
      have h3 : c.filter (fun e => !equiv lt e.1 k) = c := by
        rw [List.filter_eq_self]; intro e he; unfold equiv; rw [s.after e he]; simp
      rw [h1, h2, h3]; simp
    rw [this]
    exact filter_arranged hm _
  | removeWhere p =>
    refine ⟨filter_arranged hm _, ?_⟩
    simp only [Multi.step, Spec.multiStep]
    rw [← List.countP_eq_length_filter, hm.perm.countP_eq]
  | clear => exact ⟨⟨List.Perm.refl _, List.Pairwise.nil, fun _ => rfl⟩, rfl⟩

theorem multi_run (h : StrictWeak lt) {veq : ν → ν → Bool} (hv : ∀ a b, veq a b = true ↔ b = a) (ops : List (Multi.Op κ ν)) : ∀ {xs l : List (κ × ν)}, Spec.MultiArranged lt xs l →
    Spec.MultiArranged lt (Multi.run lt veq xs ops).1 (Spec.multiRun lt l ops).1 ∧ (Multi.run lt veq xs ops).2 = (Spec.multiRun lt l ops).2 := by
  induction ops with
  | nil => intro xs l hg; exact ⟨hg, rfl⟩
  | cons op ops ih =>
    intro xs l hg
    obtain ⟨h1, h2⟩ := multi_step h hv hg op
    obtain ⟨h3, h4⟩ := ih h1
    exact ⟨h3, by simp only [Multi.run, Spec.multiRun]; rw [h2, h4]⟩

/-- Every history of calls on an empty multi set or multi dictionary: the same results as the abstract one, the same entries, in key order and for each key in the order of addition. -/
theorem multi_refines (h : StrictWeak lt) {veq : ν → ν → Bool} (hv : ∀ a b, veq a b = true ↔ b = a) (ops : List (Multi.Op κ ν)) :
    (Multi.run lt veq [] ops).2 = (Spec.multiRun lt [] ops).2 ∧ Spec.MultiArranged lt (Multi.run lt veq [] ops).1 (Spec.multiRun lt [] ops).1 :=
  let ⟨h1, h2⟩ := multi_run h hv ops ⟨List.Perm.refl _, List.Pairwise.nil, fun _ => rfl⟩
  ⟨h2, h1⟩

/-- Look-ups after any history.  Find enumerates from the first entry of the key on.  (ReverseFind is in `reverseFind_partial` and `reverseFind_largest_violated`.) -/
theorem multi_lookup (h : StrictWeak lt) {veq : ν → ν → Bool} (hv : ∀ a b, veq a b = true ↔ b = a) (ops : List (Multi.Op κ ν)) (k : κ) :
    let xs := (Multi.run lt veq [] ops).1
    let l := (Spec.multiRun lt [] ops).1
    Multi.contains lt xs k = Spec.has lt l k ∧ Multi.count lt xs k = (Spec.all lt l k).length ∧ Multi.getAll lt xs k = (Spec.all lt l k).map Prod.snd ∧
    Multi.getFirst lt xs k = Spec.value lt l k ∧
    ((Spec.has lt l k = false ∧ Multi.findFrom lt xs k = []) ∨
     ∃ pre post, xs = pre ++ post ∧ (∀ e ∈ pre, lt e.1 k = true) ∧ Multi.findFrom lt xs k = post ∧ Spec.all lt l k <+: post ∧ Spec.all lt l k ≠ []) := by
  intro xs l
  have hm : Spec.MultiArranged lt xs l := (multi_refines h hv ops).2
  obtain ⟨a, b, c, s⟩ := split_exists h hm.sorted k
  have hb : Spec.all lt l k = b := by rw [← hm.stable k, s.all h]
  have hh : Spec.has lt l k = !b.isEmpty := by
    rw [← hb]
    unfold Spec.has Spec.all
    rw [Bool.eq_iff_iff, List.any_eq_true, Bool.not_eq_true', List.isEmpty_eq_false_iff, Ne, List.filter_eq_nil_iff]
    simp
  have hal := s.atLower h
  refine ⟨?_, ?_, ?_, ?_, ?_⟩
  · unfold Multi.contains; rw [hal, hh]; cases b <;> rfl
  · unfold Multi.count; rw [s.range h, hb]
  · unfold Multi.getAll; rw [s.range h, hb]
  · unfold Multi.getFirst Spec.value
    rw [hal, hb]
    cases b with
    | nil => rfl
    | cons y b =>
      simp only [List.head?_cons]
      have : xs[a.length]? = some y := by rw [← List.head?_drop, s.dropA]; rfl
      rw [this]
  · cases b with
    | nil =>
      left
      exact ⟨by rw [hh]; rfl, by unfold Multi.findFrom; rw [hal]⟩
    | cons y b =>
      right
      refine ⟨a, (y :: b) ++ c, by rw [s.eq]; simp, s.before, ?_, ?_, ?_⟩
      · unfold Multi.findFrom; rw [hal]; exact s.dropA
      · rw [hb]; exact List.prefix_append _ _
      · rw [hb]; simp

/-- ReverseFind where it works: some entry is after the key and, if there is no entry of the key, some entry is before it. -/
theorem reverseFind_partial (h : StrictWeak lt) {xs : List (κ × ν)} (hs : xs.Pairwise (fun a b => lt b.1 a.1 = false)) (k : κ)
    (hafter : ∃ e ∈ xs, lt k e.1 = true) (hbefore : Spec.has lt xs k = true ∨ ∃ e ∈ xs, lt e.1 k = true) :
    ∃ pre post, xs = pre ++ post ∧ (∀ e ∈ pre, lt k e.1 = false) ∧ (∀ e ∈ post, lt k e.1 = true) ∧
      Multi.reverseFindFrom lt xs k = some (if Spec.has lt xs k then pre.reverse else []) := by
  obtain ⟨a, b, c, s⟩ := split_exists h hs k
  have hall := s.all h
  have hh : Spec.has lt xs k = !b.isEmpty := by
    rw [← hall]
    unfold Spec.has Spec.all
    rw [Bool.eq_iff_iff, List.any_eq_true, Bool.not_eq_true', List.isEmpty_eq_false_iff, Ne, List.filter_eq_nil_iff]
    simp
  have hpre : ∀ e ∈ a ++ b, lt k e.1 = false := by
    intro e he
    rcases List.mem_append.mp he with he | he
    · exact h.asymm (s.before e he)
    · exact (equiv_iff.mp (s.at_ e he)).2
  refine ⟨a ++ b, c, s.eq, hpre, s.after, ?_⟩
  have hc : c ≠ [] := by
    intro hc
    obtain ⟨e, he, hk⟩ := hafter
    rw [s.eq, hc, List.append_nil] at he
    rw [hpre e he] at hk; cases hk
  have hlen : a.length + b.length ≠ xs.length := by
    rw [s.eq]
    have : 0 < c.length := List.length_pos_iff.mpr hc
    simp; omega
  unfold Multi.reverseFindFrom
  rw [s.upper h, if_neg hlen]
  have hne : a ++ b ≠ [] := by
    rcases hbefore with hb | ⟨e, he, hk⟩
    · rw [hh] at hb
      cases b with
      | nil => simp at hb
      | cons y b => simp
    · intro hab
      have : e ∈ c := by rw [s.eq, hab] at he; simpa using he
      rw [h.asymm (s.after e this)] at hk; cases hk
  cases hn : a.length + b.length with
  | zero =>
    have : (a ++ b).length = 0 := by rw [List.length_append]; exact hn
    exact absurd (List.length_eq_zero_iff.mp this) hne
  | succ i =>
    simp only []
    have hi : i < (a ++ b).length := by simp; omega
    have hx : xs[i]? = some (a ++ b)[i] := by rw [s.eq, List.getElem?_append_left hi, List.getElem?_eq_getElem hi]
    rw [hx]
    simp only []
    rw [← hn, s.take, hh]
    have key : lt (a ++ b)[i].1 k = b.isEmpty := by
      by_cases hb : b = []
      · have hi' : i < a.length := by rw [hb] at hi; simpa using hi
        rw [List.getElem_append_left hi', s.before _ (List.getElem_mem hi'), hb]; rfl
      · have : 0 < b.length := List.length_pos_iff.mpr hb
        rw [List.getElem_append_right (by omega), (equiv_iff.mp (s.at_ _ (List.getElem_mem _))).1]
        symm
        exact List.isEmpty_eq_false_iff.mpr hb
    rw [key]
    cases b <;> simp

/-- ReverseFind of the largest key finds nothing, although the key is there. -/
theorem reverseFind_largest_violated :
    let xs := (Multi.run (fun a b : Nat => decide (a < b)) (fun a b : Unit => decide (a = b)) [] [.add 1 (), .add 2 ()]).1
    Multi.contains (fun a b : Nat => decide (a < b)) xs 2 = true ∧ Multi.reverseFindFrom (fun a b : Nat => decide (a < b)) xs 2 = some [] := by
  decide

/-- ReverseFind of a key before all others reads before the first entry. -/
theorem reverseFind_smallest_violated :
    let xs := (Multi.run (fun a b : Nat => decide (a < b)) (fun a b : Unit => decide (a = b)) [] [.add 1 (), .add 2 ()]).1
    Multi.reverseFindFrom (fun a b : Nat => decide (a < b)) xs 0 = none := by
  decide

/-- Three entries of key 3 (compared modulo 10): first in, first out. -/
example : Multi.run (fun a b : Nat => decide (a % 10 < b % 10)) (fun a b : Char => decide (a = b)) [] [.add 3 'x', .add 13 'y', .add 1 'z', .add 3 'y', .removeFirst 3 (some 'y'), .removeFirst 23 none, .removeAll 4]
    = ([(1, 'z'), (3, 'y')], [.unit, .unit, .unit, .unit, .bool true, .bool true, .num 0]) := by decide
/-- A key in the middle. -/
example : Multi.reverseFindFrom (fun a b : Nat => decide (a < b)) [(1, 'a'), (2, 'b'), (2, 'c'), (3, 'd')] 2 = some [(2, 'c'), (2, 'b'), (1, 'a')] := by decide

end Verif.Coll

import Verif.Flat.Spec
/- Simulation between the sorted vector and the bag. -/
set_option linter.unusedSectionVars false
namespace Verif.Flat
open Verif.Order

section
variable {κ ν : Type} {lt : κ → κ → Bool}

abbrev Srt (lt : κ → κ → Bool) (c : List (κ × ν)) : Prop := Sorted lt Prod.fst c

theorem srt_key_lt {c : List (κ × ν)} (hs : Srt lt c) {i j : Nat} {a b : κ × ν} (ha : c[i]? = some a) (hb : c[j]? = some b) (hij : i < j) :
    lt a.1 b.1 = true := by
  obtain ⟨hi', rfl⟩ := List.getElem?_eq_some_iff.mp ha
  obtain ⟨hj', rfl⟩ := List.getElem?_eq_some_iff.mp hb
  exact List.pairwise_iff_getElem.mp hs i j hi' hj' hij

/-- In a sorted vector the prefix satisfying a downward closed predicate is all that satisfies it. -/
theorem takeWhile_length_eq_countP {p : κ × ν → Bool} : ∀ {c : List (κ × ν)}, c.Pairwise (fun a b => p b = true → p a = true) →
    (c.takeWhile p).length = c.countP p
  | [], _ => rfl
  | a :: c, h => by
    rw [List.pairwise_cons] at h
    rw [List.takeWhile_cons, List.countP_cons]
    cases ha : p a with
    | true => simp only [if_true, List.length_cons]; rw [takeWhile_length_eq_countP h.2]
    | false =>
      simp only [Bool.false_eq_true, if_false, List.length_nil, Nat.add_zero]
      symm
      rw [List.countP_eq_zero]
      intro b hb hp
      have := h.1 b hb hp
      rw [ha] at this; cases this

theorem lower_eq_rank (h : StrictWeak lt) {c : List (κ × ν)} (hs : Srt lt c) (k : κ) : lower lt c k = Spec.rank lt c k := by
  unfold lower lowerBound Spec.rank
  apply takeWhile_length_eq_countP
  exact hs.imp (fun hab hb => h.trans _ _ _ hab hb)

theorem upper_eq_countP (h : StrictWeak lt) {c : List (κ × ν)} (hs : Srt lt c) (k : κ) :
    upper lt c k = c.countP (fun e => !lt k e.1) := by
  unfold upper
  apply takeWhile_length_eq_countP
  refine hs.imp ?_
  intro a b hab hb
  cases hk : lt k a.1 with
  | false => rfl
  | true => rw [h.trans _ _ _ hk hab] at hb; cases hb

/-- The element at position `i` of a sorted vector has rank `i`. -/
theorem rank_getElem (h : StrictWeak lt) {c : List (κ × ν)} (hs : Srt lt c) {i : Nat} {e : κ × ν} (he : c[i]? = some e) :
    Spec.rank lt c e.1 = i := by
  obtain ⟨hlt, hge⟩ := List.getElem?_eq_some_iff.mp he
  have hsplit : c = c.take i ++ e :: c.drop (i + 1) := by rw [← hge, List.getElem_cons_drop, List.take_append_drop]
  have hp := hs
  rw [hsplit] at hp
  unfold Srt Sorted at hp
  rw [List.pairwise_append, List.pairwise_cons] at hp
  unfold Spec.rank
  rw [hsplit, List.countP_append, List.countP_cons, h.irrefl]
  have h1 : (c.take i).countP (fun x => lt x.1 e.1) = (c.take i).length := by
    rw [List.countP_eq_length]
    intro a ha
    exact hp.2.2 a ha e List.mem_cons_self
  have h2 : (c.drop (i + 1)).countP (fun x => lt x.1 e.1) = 0 := by
    rw [List.countP_eq_zero]
    intro b hb hp'
    have := h.asymm (hp.2.1.1 b hb)
    rw [hp'] at this; cases this
  rw [h1, h2, List.length_take]
  simp; omega

/-- Removing by position is removing by rank. -/
theorem filter_rank (h : StrictWeak lt) {c : List (κ × ν)} (hs : Srt lt c) (i n : Nat) (hin : i + n ≤ c.length) :
    c.filter (fun e => !(decide (i ≤ Spec.rank lt c e.1) && decide (Spec.rank lt c e.1 < i + n))) = c.take i ++ c.drop (i + n) := by
  have hsplit : c = c.take i ++ ((c.drop i).take n ++ c.drop (i + n)) := by
    rw [← List.drop_drop, List.take_append_drop, List.take_append_drop]
  conv => lhs; arg 2; rw [hsplit]
  rw [List.filter_append, List.filter_append]
  have h1 : (c.take i).filter (fun e => !(decide (i ≤ Spec.rank lt c e.1) && decide (Spec.rank lt c e.1 < i + n))) = c.take i := by
    rw [List.filter_eq_self]
    intro a ha
    obtain ⟨m, hm⟩ := List.mem_iff_getElem?.mp ha
    have hmi : m < i := by
      obtain ⟨hh, -⟩ := List.getElem?_eq_some_iff.mp hm
      rw [List.length_take] at hh; omega
    rw [List.getElem?_take_of_lt hmi] at hm
    rw [rank_getElem h hs hm]
    simp; omega
  have h2 : ((c.drop i).take n).filter (fun e => !(decide (i ≤ Spec.rank lt c e.1) && decide (Spec.rank lt c e.1 < i + n))) = [] := by
    rw [List.filter_eq_nil_iff]
    intro a ha
    obtain ⟨m, hm⟩ := List.mem_iff_getElem?.mp ha
    have hmi : m < n := by
      obtain ⟨hh, -⟩ := List.getElem?_eq_some_iff.mp hm
      rw [List.length_take] at hh; omega
    rw [List.getElem?_take_of_lt hmi, List.getElem?_drop] at hm
    rw [rank_getElem h hs hm]
    simp; omega
  have h3 : (c.drop (i + n)).filter (fun e => !(decide (i ≤ Spec.rank lt c e.1) && decide (Spec.rank lt c e.1 < i + n))) = c.drop (i + n) := by
    rw [List.filter_eq_self]
    intro a ha
    obtain ⟨m, hm⟩ := List.mem_iff_getElem?.mp ha
    rw [List.getElem?_drop] at hm
    rw [rank_getElem h hs hm]
    simp
  rw [h1, h2, h3, List.nil_append]

/-- Simulation: sorted, and the same pairs. -/
structure Sim (lt : κ → κ → Bool) (c l : List (κ × ν)) : Prop where
  srt : Srt lt c
  perm : c.Perm l

theorem Sim.length {c l : List (κ × ν)} (hs : Sim lt c l) : c.length = l.length := hs.perm.length_eq

theorem Sim.rank {c l : List (κ × ν)} (hs : Sim lt c l) (k : κ) : Spec.rank lt c k = Spec.rank lt l k := by
  unfold Spec.rank; exact hs.perm.countP_eq _

theorem Sim.has {c l : List (κ × ν)} (hs : Sim lt c l) (k : κ) : Spec.has lt c k = Spec.has lt l k := by
  unfold Spec.has
  rw [Bool.eq_iff_iff, List.any_eq_true, List.any_eq_true]
  constructor
  · rintro ⟨x, hx, hk⟩; exact ⟨x, hs.perm.mem_iff.mp hx, hk⟩
  · rintro ⟨x, hx, hk⟩; exact ⟨x, hs.perm.mem_iff.mpr hx, hk⟩

theorem srt_unique (h : StrictWeak lt) {c : List (κ × ν)} (hs : Srt lt c) {i j : Nat} {a b : κ × ν} (ha : c[i]? = some a) (hb : c[j]? = some b)
    (he : equiv lt a.1 b.1 = true) : i = j := sorted_unique h hs ha hb he

theorem mem_unique (h : StrictWeak lt) {c : List (κ × ν)} (hs : Srt lt c) {a b : κ × ν} (ha : a ∈ c) (hb : b ∈ c)
    (he : equiv lt a.1 b.1 = true) : a = b := by
  obtain ⟨i, hi⟩ := List.mem_iff_getElem?.mp ha
  obtain ⟨j, hj⟩ := List.mem_iff_getElem?.mp hb
  have := srt_unique h hs hi hj he
  subst this
  rw [hi] at hj; exact Option.some.inj hj

theorem get_unique {l : List (κ × ν)} {k : κ} {x : κ × ν} (hx : x ∈ l) (hk : equiv lt x.1 k = true)
    (hu : ∀ y ∈ l, equiv lt y.1 k = true → y = x) : Spec.get lt l k = some x.2 := by
  unfold Spec.get
  cases hf : l.find? (fun e => equiv lt e.1 k) with
  | none => have := List.find?_eq_none.mp hf x hx; rw [hk] at this; exact absurd rfl this
  | some y =>
    have := hu y (List.mem_of_find?_eq_some hf) (List.find?_some (p := fun e : κ × ν => equiv lt e.1 k) hf)
    rw [this]; rfl

/-- The two ways a search ends. -/
theorem search_cases (h : StrictWeak lt) {c l : List (κ × ν)} (hs : Sim lt c l) (k : κ) :
    (endOrBefore lt c k (lower lt c k) = true ∧ Spec.has lt l k = false ∧ (∀ e ∈ l, equiv lt e.1 k = false) ∧
      (∀ v, Srt lt (vecInsert c (lower lt c k) (k, v))) ∧ find lt c k = c.length ∧ Spec.get lt l k = none) ∨
    (∃ e, endOrBefore lt c k (lower lt c k) = false ∧ Spec.has lt l k = true ∧ c[lower lt c k]? = some e ∧ equiv lt e.1 k = true ∧
      lower lt c k < c.length ∧ find lt c k = lower lt c k ∧ Spec.get lt l k = some e.2 ∧
      (∀ m y, c[m]? = some y → equiv lt y.1 k = true → m = lower lt c k)) := by
  cases hb : endOrBefore lt c k (lower lt c k) with
  | true =>
    left
    have hc : ∀ e, c[lowerBound lt Prod.fst c k]? = some e → lt k e.1 = true := by
      intro e he
      unfold endOrBefore at hb
      rw [show c[lower lt c k]? = some e from he] at hb
      exact hb
    obtain ⟨h1, h2⟩ := lowerBound_absent h c hs.srt k hc
    have h1' : ∀ e ∈ l, equiv lt e.1 k = false := fun e he => h1 e (hs.perm.mem_iff.mpr he)
    refine ⟨rfl, ?_, h1', fun v => h2 (k, v) rfl, ?_, ?_⟩
    · unfold Spec.has; rw [List.any_eq_false]; intro x hx; rw [h1' x hx]; simp
    · unfold find
      cases hx : c[lower lt c k]? with
      | none =>
        have h3 := List.getElem?_eq_none_iff.mp hx
        have h4 : lower lt c k ≤ c.length := lowerBound_le c k
        simp only; omega
      | some e => simp only [hc e hx, if_true]
    · unfold Spec.get; rw [List.find?_eq_none.mpr (by intro x hx; rw [h1' x hx]; simp)]; rfl
  | false =>
    right
    unfold endOrBefore at hb
    cases hx : c[lower lt c k]? with
    | none => rw [hx] at hb; cases hb
    | some e =>
      rw [hx] at hb
      obtain ⟨h1, h2⟩ := lowerBound_present c k e hx hb
      have hml : e ∈ l := hs.perm.mem_iff.mp h1
      refine ⟨e, rfl, ?_, rfl, h2, ?_, ?_, ?_, ?_⟩
      · unfold Spec.has; rw [List.any_eq_true]; exact ⟨e, hml, h2⟩
      · obtain ⟨hh, -⟩ := List.getElem?_eq_some_iff.mp hx; exact hh
      · unfold find; rw [hx]; simp only at hb; simp only [hb]; rfl
      · refine get_unique hml h2 ?_
        intro y hy hk
        exact mem_unique h hs.srt (hs.perm.mem_iff.mpr hy) h1 (equiv_trans h hk (by rw [equiv_comm]; exact h2))
      · intro m y hm hk
        exact srt_unique h hs.srt hm hx (equiv_trans h hk (by rw [equiv_comm]; exact h2))

theorem vecInsert_perm (c : List (κ × ν)) (i : Nat) (x : κ × ν) : (vecInsert c i x).Perm (x :: c) := by
  unfold vecInsert
  refine List.perm_middle.trans ?_
  rw [List.take_append_drop]

theorem insert_spec (h : StrictWeak lt) {c l : List (κ × ν)} (hs : Sim lt c l) (k : κ) (v : ν) :
    Sim lt (insert lt c k v).1 (Spec.add lt l k v) ∧ (insert lt c k v).2.1 = Spec.rank lt l k ∧ (insert lt c k v).2.2 = !Spec.has lt l k := by
  have hr : lower lt c k = Spec.rank lt l k := by rw [lower_eq_rank h hs.srt, hs.rank]
  unfold insert Spec.add
  rcases search_cases h hs k with ⟨h1, h2, -, h3, -, -⟩ | ⟨e, h1, h2, -⟩
  · rw [h1, h2]
    exact ⟨⟨h3 v, (vecInsert_perm c _ _).trans (List.Perm.cons _ hs.perm)⟩, hr, rfl⟩
  · rw [h1, h2]; exact ⟨hs, hr, rfl⟩

theorem insertAll_spec (h : StrictWeak lt) : ∀ (xs : List (κ × ν)) {c l : List (κ × ν)}, Sim lt c l → Sim lt (insertAll lt c xs) (Spec.addAll lt l xs)
  | [], c, l, hs => hs
  | (k, v) :: xs, c, l, hs => insertAll_spec h xs (insert_spec h hs k v).1

/-- A hint that passes the two tests is the lower bound, and the key is absent. -/
theorem hint_ok (h : StrictWeak lt) {c : List (κ × ν)} (hs : Srt lt c) (i : Nat) (hi : i ≤ c.length) (k : κ)
    (hb : beginOrAfter lt c k i = true) (he : endOrBefore lt c k i = true) : lower lt c k = i ∧ endOrBefore lt c k (lower lt c k) = true := by
  have hl : lower lt c k = i := by
    rw [lower_eq_rank h hs]
    unfold Spec.rank
    have hsplit : c = c.take i ++ c.drop i := (List.take_append_drop i c).symm
    rw [hsplit, List.countP_append]
    have h1 : (c.take i).countP (fun x => lt x.1 k) = (c.take i).length := by
      rw [List.countP_eq_length]
      intro a ha
      cases i with
      | zero => simp at ha
      | succ j =>
        obtain ⟨m, hm⟩ := List.mem_iff_getElem?.mp ha
        have hmi : m < j + 1 := by
          obtain ⟨hh, -⟩ := List.getElem?_eq_some_iff.mp hm
          rw [List.length_take] at hh; omega
        rw [List.getElem?_take_of_lt hmi] at hm
        unfold beginOrAfter at hb
        cases hj : c[j]? with
        | none => rw [List.getElem?_eq_none_iff] at hj; omega
        | some e =>
          simp only [hj] at hb
          by_cases hmj : m = j
          · subst hmj; rw [hj] at hm; cases hm; exact hb
          · exact h.trans _ _ _ (srt_key_lt hs hm hj (by omega)) hb
    have h2 : (c.drop i).countP (fun x => lt x.1 k) = 0 := by
      rw [List.countP_eq_zero]
      intro a ha hp
      obtain ⟨m, hm⟩ := List.mem_iff_getElem?.mp ha
      rw [List.getElem?_drop] at hm
      have hka : lt k a.1 = true := by
        unfold endOrBefore at he
        cases hj : c[i]? with
        | none =>
          rw [List.getElem?_eq_none_iff] at hj
          rw [List.getElem?_eq_none (by omega)] at hm; cases hm
        | some e =>
          simp only [hj] at he
          by_cases hm0 : m = 0
          · subst hm0; rw [Nat.add_zero, hj] at hm; cases hm; exact he
          · exact h.trans _ _ _ he (srt_key_lt hs hj hm (by omega))
      have := h.asymm hka
      rw [hp] at this; cases this
    rw [h1, h2, List.length_take]; omega
  exact ⟨hl, by rw [hl]; exact he⟩

theorem insertHint_spec (h : StrictWeak lt) {c l : List (κ × ν)} (hs : Sim lt c l) (i : Nat) (hi : i ≤ c.length) (k : κ) (v : ν) :
    insertHint lt c i k v = ((insert lt c k v).1, (insert lt c k v).2.1) := by
  unfold insertHint
  split
  · rename_i ht
    rw [Bool.and_eq_true] at ht
    obtain ⟨h1, h2⟩ := hint_ok h hs.srt i hi k ht.1 ht.2
    unfold insert
    rw [h2, h1]; rfl
  · rfl

theorem index_eq (dflt : ν) (c : List (κ × ν)) (k : κ) : index lt dflt c k = ((insert lt c k dflt).1, (insert lt c k dflt).2.1) := by
  unfold index insert
  split <;> rfl

/-- After inserting, the position returned is the unique place of the key, holding the old value or the new one. -/
theorem insert_pos (h : StrictWeak lt) {c l : List (κ × ν)} (hs : Sim lt c l) (k : κ) (v : ν) :
    ∃ x, (insert lt c k v).1[(insert lt c k v).2.1]? = some x ∧ equiv lt x.1 k = true ∧ x.2 = (Spec.get lt l k).getD v ∧
      ∀ m y, (insert lt c k v).1[m]? = some y → equiv lt y.1 k = true → m = (insert lt c k v).2.1 := by
  have hsim := (insert_spec h hs k v).1
  have hex : ∃ x, (insert lt c k v).1[(insert lt c k v).2.1]? = some x ∧ equiv lt x.1 k = true ∧ x.2 = (Spec.get lt l k).getD v := by
    unfold insert
    rcases search_cases h hs k with ⟨h1, -, -, -, -, h6⟩ | ⟨e, h1, -, h3, h4, -, -, h7, -⟩
    · rw [h1, h6]
      refine ⟨(k, v), ?_, equiv_refl h k, rfl⟩
      simp only [if_true, vecInsert]
      have hle : lower lt c k ≤ c.length := lowerBound_le c k
      rw [List.getElem?_append_right (by rw [List.length_take]; omega), List.length_take, Nat.min_eq_left hle, Nat.sub_self]; rfl
    · rw [h1, h7]; exact ⟨e, h3, h4, rfl⟩
  obtain ⟨x, h1, h2, h3⟩ := hex
  refine ⟨x, h1, h2, h3, ?_⟩
  intro m y hm hk
  exact srt_unique h hsim.srt hm h1 (equiv_trans h hk (by rw [equiv_comm]; exact h2))

theorem modify_setVal {c : List (κ × ν)} {k : κ} {v : ν} {n : Nat} {x : κ × ν} (hn : c[n]? = some x) (hx : equiv lt x.1 k = true)
    (hu : ∀ m y, c[m]? = some y → equiv lt y.1 k = true → m = n) : c.modify n (fun e => (e.1, v)) = Spec.setVal lt c k v := by
  apply List.ext_getElem?
  intro m
  unfold Spec.setVal
  rw [List.getElem?_modify, List.getElem?_map]
  cases hm : c[m]? with
  | none => rfl
  | some y =>
    simp only [Option.map_some, Option.map_eq_map]
    by_cases hmn : n = m
    · subst hmn
      rw [hn] at hm; cases hm
      simp [hx]
    · rw [if_neg hmn]
      cases hy : equiv lt y.1 k with
      | false => simp
      | true => exact absurd (hu m y hm hy).symm hmn

theorem setVal_sim {c l : List (κ × ν)} (hs : Sim lt c l) (k : κ) (v : ν) : Sim lt (Spec.setVal lt c k v) (Spec.setVal lt l k v) := by
  refine ⟨?_, List.Perm.map _ hs.perm⟩
  unfold Srt Sorted Spec.setVal
  rw [List.pairwise_map]
  refine hs.srt.imp ?_
  intro a b hab
  split <;> split <;> exact hab

/-- Removing the unique matching position is filtering the key out. -/
theorem eraseIdx_filter {c : List (κ × ν)} {k : κ} {n : Nat} {x : κ × ν} (hn : c[n]? = some x) (hx : equiv lt x.1 k = true)
    (hu : ∀ m y, c[m]? = some y → equiv lt y.1 k = true → m = n) : c.eraseIdx n = c.filter (fun e => !equiv lt e.1 k) := by
  obtain ⟨hlt, hge⟩ := List.getElem?_eq_some_iff.mp hn
  have hsplit : c = c.take n ++ x :: c.drop (n + 1) := by rw [← hge, List.getElem_cons_drop, List.take_append_drop]
  rw [List.eraseIdx_eq_take_drop_succ]
  conv => rhs; rw [hsplit]
  rw [List.filter_append, List.filter_cons, hx]
  simp only [Bool.not_true, Bool.false_eq_true, if_false]
  congr 1
  · symm
    rw [List.filter_eq_self]
    intro y hy
    obtain ⟨m, hm⟩ := List.mem_iff_getElem?.mp hy
    have hmn : m < n := by
      obtain ⟨h, -⟩ := List.getElem?_eq_some_iff.mp hm
      rw [List.length_take] at h; omega
    rw [List.getElem?_take_of_lt hmn] at hm
    cases hpy : equiv lt y.1 k with
    | false => rfl
    | true => have := hu m y hm hpy; omega
  · symm
    rw [List.filter_eq_self]
    intro y hy
    obtain ⟨m, hm⟩ := List.mem_iff_getElem?.mp hy
    rw [List.getElem?_drop] at hm
    cases hpy : equiv lt y.1 k with
    | false => rfl
    | true => have := hu _ y hm hpy; omega

theorem Sim.filter {c l : List (κ × ν)} (hs : Sim lt c l) (p q : κ × ν → Bool) (hpq : p = q) : Sim lt (c.filter p) (l.filter q) := by
  subst hpq
  exact ⟨List.Pairwise.sublist List.filter_sublist hs.srt, hs.perm.filter _⟩

theorem step_spec (h : StrictWeak lt) (dflt : ν) {c l : List (κ × ν)} (hs : Sim lt c l) (op : Op κ ν) :
    (∃ c' l' out, step lt dflt c op = some (c', out) ∧ Spec.step lt dflt l op = some (l', out) ∧ Sim lt c' l') ∨
    (step lt dflt c op = none ∧ Spec.step lt dflt l op = none) := by
  have hlen := hs.length
  cases op with
  | insert k v =>
    obtain ⟨h1, h2, h3⟩ := insert_spec h hs k v
    exact .inl ⟨_, _, _, by simp only [step, h2, h3], rfl, h1⟩
  | insertHint i k v =>
    obtain ⟨h1, h2, h3⟩ := insert_spec h hs k v
    by_cases hl : c.length < i
    · right; exact ⟨by simp only [step, hl, if_true], by simp only [Spec.step, ← hlen, hl, if_true]⟩
    · left
      refine ⟨_, _, _, ?_, by simp only [Spec.step, ← hlen, hl, if_false]; rfl, h1⟩
      simp only [step, hl, if_false, insertHint_spec h hs i (by omega) k v, h2]
  | insertAll xs => exact .inl ⟨_, _, _, rfl, rfl, insertAll_spec h xs hs⟩
  | indexSet k v =>
    obtain ⟨h1, h2, h3⟩ := insert_spec h hs k dflt
    obtain ⟨x, g1, g2, -, g4⟩ := insert_pos h hs k dflt
    refine .inl ⟨_, _, _, rfl, rfl, ?_⟩
    rw [index_eq]
    simp only
    rw [modify_setVal g1 g2 g4]
    exact setVal_sim h1 k v
  | indexGet k =>
    obtain ⟨h1, h2, h3⟩ := insert_spec h hs k dflt
    obtain ⟨x, g1, g2, g3, g4⟩ := insert_pos h hs k dflt
    refine .inl ⟨_, _, _, ?_, rfl, h1⟩
    simp only [step, index_eq, g1, Option.map_some, g3]
  | find k =>
    refine .inl ⟨_, _, _, rfl, ?_, hs⟩
    rcases search_cases h hs k with ⟨h1, h2, -, -, h5, -⟩ | ⟨e, h1, h2, -, -, -, h5, -, -⟩
    · simp only [Spec.step, h2, h5, hlen]; rfl
    · simp only [Spec.step, h2, h5, if_true, lower_eq_rank h hs.srt, hs.rank]
  | count k =>
    refine .inl ⟨_, _, _, rfl, ?_, hs⟩
    unfold count
    rcases search_cases h hs k with ⟨h1, h2, -, -, h5, -⟩ | ⟨e, h1, h2, -, -, h4, h5, -, -⟩
    · simp only [Spec.step, h2, h5, if_true]; rfl
    · simp only [Spec.step, h2, h5, if_true]; rw [if_neg (by omega)]
  | «at» k =>
    refine .inl ⟨_, _, _, rfl, ?_, hs⟩
    unfold at'
    rcases search_cases h hs k with ⟨h1, h2, -, -, h5, h6⟩ | ⟨e, h1, h2, h3, -, h4, h5, h6, -⟩
    · simp only [Spec.step, h5, h6, if_true]
    · simp only [Spec.step, h5, h6]; rw [if_neg (by omega), h3]; rfl
  | lower k => exact .inl ⟨_, _, _, rfl, by simp only [Spec.step, lower_eq_rank h hs.srt, hs.rank], hs⟩
  | upper k => exact .inl ⟨_, _, _, rfl, by simp only [Spec.step, upper_eq_countP h hs.srt, hs.perm.countP_eq], hs⟩
  | eraseAt i =>
    by_cases hl : i < c.length
    · left
      refine ⟨_, _, _, by simp only [step, eraseAt, hl, if_true]; rfl, by simp only [Spec.step, ← hlen, hl, if_true]; rfl, ?_⟩
      have h1 := filter_rank h hs.srt i 1 (by omega)
      rw [List.eraseIdx_eq_take_drop_succ, ← h1]
      apply hs.filter
      funext e
      rw [hs.rank]
      by_cases he : Spec.rank lt l e.1 = i
      · simp [he]
      · simp [he]; omega
    · right; exact ⟨by simp only [step, eraseAt, hl, if_false]; rfl, by simp only [Spec.step, ← hlen, hl, if_false]⟩
  | eraseRange i n =>
    by_cases hl : i + n ≤ c.length
    · left
      refine ⟨_, _, _, by simp only [step, eraseRange, hl, if_true]; rfl, by simp only [Spec.step, ← hlen, hl, if_true]; rfl, ?_⟩
      rw [← filter_rank h hs.srt i n hl]
      apply hs.filter
      funext e
      rw [hs.rank]
    · right; exact ⟨by simp only [step, eraseRange, hl, if_false]; rfl, by simp only [Spec.step, ← hlen, hl, if_false]⟩
  | eraseKey k =>
    left
    rcases search_cases h hs k with ⟨h1, h2, h3, -, h5, -⟩ | ⟨e, h1, h2, h3, h4, h5, h6, -, h8⟩
    · refine ⟨_, _, _, by simp only [step, eraseKey, h5, if_true]; rfl, by simp only [Spec.step, h2]; rfl, ?_⟩
      rw [List.filter_eq_self.mpr (by intro x hx; rw [h3 x hx]; rfl)]
      exact hs
    · refine ⟨c.filter (fun e => !equiv lt e.1 k), _, _, ?_, by simp only [Spec.step, h2, if_true]; rfl, hs.filter _ _ rfl⟩
      simp only [step, eraseKey, eraseAt, h6, h5, if_true]
      rw [if_neg (by omega), eraseIdx_filter h3 h4 h8]; rfl
  | clear => exact .inl ⟨_, _, _, rfl, rfl, ⟨List.Pairwise.nil, List.Perm.nil⟩⟩
  | assign xs => exact .inl ⟨_, _, _, rfl, rfl, insertAll_spec h xs ⟨List.Pairwise.nil, List.Perm.nil⟩⟩
  | size => exact .inl ⟨_, _, _, rfl, by simp only [Spec.step, hlen], hs⟩

theorem run_spec (h : StrictWeak lt) (dflt : ν) : ∀ (ops : List (Op κ ν)) {c l : List (κ × ν)}, Sim lt c l →
    (∃ c' l' outs, run lt dflt c ops = some (c', outs) ∧ Spec.run lt dflt l ops = some (l', outs) ∧ Sim lt c' l') ∨
    (run lt dflt c ops = none ∧ Spec.run lt dflt l ops = none)
  | [], c, l, hs => .inl ⟨c, l, [], rfl, rfl, hs⟩
  | op :: ops, c, l, hs => by
    rcases step_spec h dflt hs op with ⟨c1, l1, out, h1, h2, h3⟩ | ⟨h1, h2⟩
    · rcases run_spec h dflt ops h3 with ⟨c2, l2, outs, g1, g2, g3⟩ | ⟨g1, g2⟩
      · left; exact ⟨c2, l2, out :: outs, by simp only [run, h1, g1]; rfl, by simp only [Spec.run, h2, g2]; rfl, g3⟩
      · right; exact ⟨by simp only [run, h1, g1]; rfl, by simp only [Spec.run, h2, g2]; rfl⟩
    · right; exact ⟨by simp only [run, h1], by simp only [Spec.run, h2]⟩

end
end Verif.Flat

import Verif.Coll.Derived
import Verif.Trans.Props
/-
Views of one key and of the keys of transactional dictionaries.
-/
namespace Verif.Trans
open Verif.Order
variable {κ ν : Type} {lt : κ → κ → Bool}

/-- The order of the entries of a diff. -/
def Ordered (lt : κ → κ → Bool) (d : List (DiffOp × κ × ν)) : Prop :=
  d.Pairwise (fun x y => lt x.2.1 y.2.1 = true ∨ (x.2.1 = y.2.1 ∧ x.1 = .removed ∧ y.1 = .added))

theorem ordered_rest (h : StrictWeak lt) {x y : DiffOp × κ × ν} {d : List (DiffOp × κ × ν)} (ho : Ordered lt (x :: y :: d)) (hk : x.2.1 = y.2.1) :
    ∀ z ∈ d, z.2.1 ≠ x.2.1 := by
  intro z hz e
  have h1 := List.rel_of_pairwise_cons ho (a' := z) (by simp [hz])
  have h2 := List.rel_of_pairwise_cons (List.Pairwise.of_cons ho) (a' := z) hz
  have h3 := List.rel_of_pairwise_cons ho (a' := y) (by simp)
  rcases h2 with h2 | ⟨_, h2, _⟩
  · rw [← hk, e, h.irrefl] at h2; cases h2
  · rcases h3 with h3 | ⟨_, _, h3⟩
    · rw [hk, h.irrefl] at h3; cases h3
    · rw [h2] at h3; cases h3

/-- The entries that have no counterpart, by recursion. -/
def merged [DecidableEq κ] : List (DiffOp × κ × ν) → List (DiffOp × κ)
  | [] => []
  | [x] => [(x.1, x.2.1)]
  | x :: y :: d => if x.2.1 = y.2.1 then merged d else (x.1, x.2.1) :: merged (y :: d)

section
variable [DecidableEq κ] {ceq : κ → κ → Bool}

theorem loop_merged (h : StrictWeak lt) (hc : ∀ a b, ceq a b = true ↔ a = b) : ∀ (m n : Nat) (d : List (DiffOp × κ × ν)), d.length ≤ m → d.length ≤ n → Ordered lt d →
    keysDiffLoop ceq n d = some (merged d)
  | _, 0, [], _, _, _ => rfl
  | _, n + 1, [], _, _, _ => rfl
  | _, 0, x :: d, _, hn, _ => by simp at hn
  | 0, _, x :: d, hm, _, _ => by simp at hm
  | _, n + 1, [x], _, _, _ => by
    have : keysDiffLoop ceq n ([] : List (DiffOp × κ × ν)) = some [] := by cases n <;> rfl
    simp [keysDiffLoop, findNext, this, merged]
  | m + 1, n + 1, x :: y :: d, hm, hn, ho => by
    by_cases hk : x.2.1 = y.2.1
    · have hops : x.1 = .removed ∧ y.1 = .added := by
        rcases List.rel_of_pairwise_cons ho (a' := y) (by simp) with h1 | h1
        · rw [hk, h.irrefl] at h1; cases h1
        · exact h1.2
      have hstep : findNext ceq none (x :: y :: d) = findNext ceq none d := by
        have hck : ceq x.2.1 y.2.1 = true := (hc _ _).mpr hk
        simp [findNext, hck, hops.1, hops.2]
      have hd := (List.Pairwise.of_cons (List.Pairwise.of_cons ho))
      have ih := loop_merged h hc m (n + 1) d (by simp at hm; omega) (by simp at hn; omega) hd
      rw [merged, if_pos hk, ← ih]
      unfold keysDiffLoop
      rw [hstep]
    · have hck : ceq x.2.1 y.2.1 = false := by
        cases hx : ceq x.2.1 y.2.1 with
        | false => rfl
        | true => exact absurd ((hc _ _).mp hx) hk
      have hstep : findNext ceq none (x :: y :: d) = some (some x, y :: d) := by
        simp [findNext, hck]
      have ih := loop_merged h hc m n (y :: d) (by simp at hm ⊢; omega) (by simp at hn ⊢; omega) (List.Pairwise.of_cons ho)
      rw [merged, if_neg hk]
      unfold keysDiffLoop
      rw [hstep]
      simp [ih]

/-- The other kind of entry. -/
def other : DiffOp → DiffOp
  | .added => .removed
  | .removed => .added

theorem merged_mem (h : StrictWeak lt) : ∀ (m : Nat) (d : List (DiffOp × κ × ν)), d.length ≤ m → Ordered lt d → ∀ op k,
    (op, k) ∈ merged d ↔ (∃ v, (op, k, v) ∈ d) ∧ ∀ v, (other op, k, v) ∉ d
  | _, [], _, _, op, k => by simp [merged]
  | 0, x :: d, hm, _, _, _ => by simp at hm
  | _, [x], _, _, op, k => by
    obtain ⟨o, k', v'⟩ := x
    simp only [merged, List.mem_singleton, Prod.mk.injEq]
    constructor
    · rintro ⟨rfl, rfl⟩
      refine ⟨⟨v', rfl, rfl, rfl⟩, ?_⟩
      rintro v ⟨h1, _⟩
      cases op <;> cases h1
    · rintro ⟨⟨v, h1, h2, _⟩, _⟩; exact ⟨h1, h2⟩
  | m + 1, x :: y :: d, hm, ho, op, k => by
    by_cases hk : x.2.1 = y.2.1
    · have hr := ordered_rest h ho hk
      have hops : x.1 = .removed ∧ y.1 = .added := by
        rcases List.rel_of_pairwise_cons ho (a' := y) (by simp) with h1 | h1
        · rw [hk, h.irrefl] at h1; cases h1
        · exact h1.2
      have ih := merged_mem h m d (by simp at hm; omega) (List.Pairwise.of_cons (List.Pairwise.of_cons ho)) op k
      rw [merged, if_pos hk, ih]
      obtain ⟨xo, xk, xv⟩ := x
      obtain ⟨yo, yk, yv⟩ := y
      simp only [] at hk hops hr
      obtain ⟨rfl, rfl⟩ := hops
      subst hk
      constructor
      · rintro ⟨⟨v, hv⟩, hno⟩
        have hkx : k ≠ xk := hr _ hv
        refine ⟨⟨v, by simp [hv]⟩, ?_⟩
        intro v' hv'
        simp only [List.mem_cons, Prod.mk.injEq] at hv'
        rcases hv' with ⟨_, e, _⟩ | ⟨_, e, _⟩ | hv'
        · exact hkx e
        · exact hkx e
        · exact hno v' hv'
      · rintro ⟨⟨v, hv⟩, hno⟩
        have hkx : k ≠ xk := by
          rintro rfl
          cases op with
          | added => exact hno xv (by simp [other])
          | removed => exact hno yv (by simp [other])
        simp only [List.mem_cons, Prod.mk.injEq] at hv
        refine ⟨⟨v, ?_⟩, fun v' hv' => hno v' (by simp [hv'])⟩
        rcases hv with ⟨_, e, _⟩ | ⟨_, e, _⟩ | hv
        · exact absurd e hkx
        · exact absurd e hkx
        · exact hv
    · have ih := merged_mem h m (y :: d) (by simp at hm ⊢; omega) (List.Pairwise.of_cons ho) op k
      have hx : ∀ z ∈ y :: d, z.2.1 ≠ x.2.1 := by
        intro z hz e
        rcases List.rel_of_pairwise_cons ho hz with h1 | ⟨_, h1, h2⟩
        · rw [e, h.irrefl] at h1; cases h1
        · rcases List.mem_cons.mp hz with rfl | hz
          · exact hk e.symm
          · rcases List.rel_of_pairwise_cons ho (a' := y) (by simp) with h3 | h3
            · rcases List.rel_of_pairwise_cons (List.Pairwise.of_cons ho) hz with h4 | h4
              · rw [e] at h4
                have := h.trans _ _ _ h3 h4
                rw [h.irrefl] at this; cases this
              · rw [h4.1, e, h.irrefl] at h3; cases h3
            · exact hk h3.1
      rw [merged, if_neg hk, List.mem_cons, ih]
      obtain ⟨xo, xk, xv⟩ := x
      simp only [Prod.mk.injEq]
      simp only [] at hx
      constructor
      · rintro (⟨rfl, rfl⟩ | ⟨⟨v, hv⟩, hno⟩)
        · refine ⟨⟨xv, by simp⟩, ?_⟩
          intro v hv
          rcases List.mem_cons.mp hv with hv | hv
          · simp only [Prod.mk.injEq] at hv; cases op <;> cases hv.1
          · exact hx _ hv rfl
        · refine ⟨⟨v, by simp only [List.mem_cons] at hv ⊢; exact Or.inr hv⟩, ?_⟩
          intro v' hv'
          rcases List.mem_cons.mp hv' with hv' | hv'
          · simp only [Prod.mk.injEq] at hv'; exact hx _ hv hv'.2.1
          · exact hno v' hv'
      · rintro ⟨⟨v, hv⟩, hno⟩
        rcases List.mem_cons.mp hv with hv | hv
        · simp only [Prod.mk.injEq] at hv; exact Or.inl ⟨hv.1, hv.2.1⟩
        · exact Or.inr ⟨⟨v, hv⟩, fun v' hv' => hno v' (List.mem_cons_of_mem _ hv')⟩

theorem merged_keys : ∀ (m : Nat) (d : List (DiffOp × κ × ν)), d.length ≤ m → ∀ x ∈ merged d, ∃ v, (x.1, x.2, v) ∈ d
  | _, [], _, x, hx => by simp [merged] at hx
  | 0, y :: d, hm, _, _ => by simp at hm
  | _, [y], _, x, hx => by
    simp only [merged, List.mem_singleton] at hx
    subst hx; exact ⟨y.2.2, by simp⟩
  | m + 1, a :: y :: d, hm, x, hx => by
    by_cases hk : a.2.1 = y.2.1
    · rw [merged, if_pos hk] at hx
      obtain ⟨v, hv⟩ := merged_keys m d (by simp at hm; omega) x hx
      exact ⟨v, by simp [hv]⟩
    · rw [merged, if_neg hk, List.mem_cons] at hx
      rcases hx with rfl | hx
      · exact ⟨a.2.2, by simp⟩
      · obtain ⟨v, hv⟩ := merged_keys m (y :: d) (by simp at hm ⊢; omega) x hx
        exact ⟨v, List.mem_cons_of_mem _ hv⟩

theorem merged_ordered : ∀ (m : Nat) (d : List (DiffOp × κ × ν)), d.length ≤ m → Ordered lt d →
    (merged d).Pairwise (fun x y => lt x.2 y.2 = true ∨ (x.2 = y.2 ∧ x.1 = .removed ∧ y.1 = .added))
  | _, [], _, _ => by simp [merged]
  | 0, x :: d, hm, _ => by simp at hm
  | _, [x], _, _ => by simp [merged]
  | m + 1, x :: y :: d, hm, ho => by
    by_cases hk : x.2.1 = y.2.1
    · rw [merged, if_pos hk]
      exact merged_ordered m d (by simp at hm; omega) (List.Pairwise.of_cons (List.Pairwise.of_cons ho))
    · rw [merged, if_neg hk, List.pairwise_cons]
      refine ⟨?_, merged_ordered m (y :: d) (by simp at hm ⊢; omega) (List.Pairwise.of_cons ho)⟩
      intro z hz
      obtain ⟨v, hv⟩ := merged_keys m (y :: d) (by simp at hm ⊢; omega) z hz
      exact List.rel_of_pairwise_cons ho hv

theorem sorted_unique_value (h : StrictWeak lt) {l : List (κ × ν)} (hs : l.Pairwise (fun a b => lt a.1 b.1 = true)) {k : κ} {v v' : ν} (h1 : (k, v) ∈ l) (h2 : (k, v') ∈ l) : v = v' := by
  have := key_inj (f := Prod.fst) h hs h1 h2 rfl
  injection this

/-- The keys of a diff between two dictionaries are a diff between their keys; the checks do not fail. -/
theorem keys_diff (h : StrictWeak lt) (hc : ∀ a b, ceq a b = true ↔ a = b) {old new : List (κ × ν)} (ho : old.Pairwise (fun a b => lt a.1 b.1 = true))
    (hn : new.Pairwise (fun a b => lt a.1 b.1 = true)) {d : List (DiffOp × κ × ν)} (hd : IsDiff lt Prod.fst old new d) :
    ∃ d', keysDiff ceq d = some d' ∧ IsDiff lt id (old.map Prod.fst) (new.map Prod.fst) d' := by
  obtain ⟨h1, h2, h3⟩ := hd
  refine ⟨merged d, loop_merged h hc _ _ d (Nat.le_refl _) (Nat.le_refl _) h3, ?_, ?_, ?_⟩
  · intro k
    rw [merged_mem h _ d (Nat.le_refl _) h3]
    simp only [other, h1, h2, List.mem_map, Prod.exists, exists_and_right, exists_eq_right]
    constructor
    · rintro ⟨⟨v, hv, hvn⟩, hno⟩
      refine ⟨⟨v, hv⟩, ?_⟩
      rintro ⟨v', hv'⟩
      by_cases hin : (k, v') ∈ old
      · exact hvn (sorted_unique_value h ho hv hin ▸ hv')
      · exact hno v' ⟨hv', hin⟩
    · rintro ⟨⟨v, hv⟩, hno⟩
      exact ⟨⟨v, hv, fun hc => hno ⟨v, hc⟩⟩, fun v' hv' => hno ⟨v', hv'.1⟩⟩
  · intro k
    rw [merged_mem h _ d (Nat.le_refl _) h3]
    simp only [other, h1, h2, List.mem_map, Prod.exists, exists_and_right, exists_eq_right]
    constructor
    · rintro ⟨⟨v, hv, hvn⟩, hno⟩
      refine ⟨⟨v, hv⟩, ?_⟩
      rintro ⟨v', hv'⟩
      by_cases hin : (k, v') ∈ new
      · exact hvn (sorted_unique_value h hn hv hin ▸ hv')
      · exact hno v' ⟨hv', hin⟩
    · rintro ⟨⟨v, hv⟩, hno⟩
      exact ⟨⟨v, hv, fun hc => hno ⟨v, hc⟩⟩, fun v' hv' => hno ⟨v', hv'.1⟩⟩
  · exact merged_ordered _ d (Nat.le_refl _) h3

theorem fold_cases (hc : ∀ a b, ceq a b = true ↔ a = b) (key : κ) : ∀ (d : List (DiffOp × κ × ν)) (acc : Option (Option ν)),
    ((∀ z ∈ d, z.2.1 ≠ key) ∧ d.foldl (fun acc x => if ceq key x.2.1 then some (if x.1 = .removed then none else some x.2.2) else acc) acc = acc) ∨
    ∃ pre x post, d = pre ++ x :: post ∧ x.2.1 = key ∧ (∀ z ∈ post, z.2.1 ≠ key) ∧
      d.foldl (fun acc x => if ceq key x.2.1 then some (if x.1 = .removed then none else some x.2.2) else acc) acc = some (if x.1 = .removed then none else some x.2.2)
  | [], acc => .inl ⟨by simp, rfl⟩
  | y :: d, acc => by
    simp only [List.foldl_cons]
    rcases fold_cases hc key d (if ceq key y.2.1 then some (if y.1 = .removed then none else some y.2.2) else acc) with ⟨h1, h2⟩ | ⟨pre, x, post, h1, h2, h3, h4⟩
    · by_cases hk : y.2.1 = key
      · refine .inr ⟨[], y, d, rfl, hk, h1, ?_⟩
        rw [h2, if_pos ((hc _ _).mpr hk.symm)]
      · refine .inl ⟨List.forall_mem_cons.mpr ⟨hk, h1⟩, ?_⟩
        rw [h2]
        exact if_neg (fun e => hk ((hc _ _).mp e).symm)
    · exact .inr ⟨y :: pre, x, post, by rw [h1]; rfl, h2, h3, h4⟩

/-- The value reported for a diff is the new value of the key, and nothing is reported exactly if the key has kept its value. -/
theorem value_sent (h : StrictWeak lt) (hc : ∀ a b, ceq a b = true ↔ a = b) [DecidableEq ν] {old new : List (κ × ν)} (ho : old.Pairwise (fun a b => lt a.1 b.1 = true))
    (hn : new.Pairwise (fun a b => lt a.1 b.1 = true)) {d : List (DiffOp × κ × ν)} (hd : IsDiff lt Prod.fst old new d) (key : κ) :
    valueSent ceq key d = if Spec.lookup old key = Spec.lookup new key then none else some (Spec.lookup new key) := by
  obtain ⟨h1, h2, h3⟩ := hd
  unfold valueSent
  rcases fold_cases hc key d none with ⟨g1, g2⟩ | ⟨pre, ⟨op, k, v⟩, post, g1, g2, g3, g4⟩
  · rw [g2, if_pos]
    apply Option.ext
    intro v
    rw [lookup_some_iff h ho, lookup_some_iff h hn]
    constructor
    · intro hv
      by_cases hin : (key, v) ∈ new
      · exact hin
      · exact absurd rfl (g1 _ ((h1 _).mpr ⟨hv, hin⟩))
    · intro hv
      by_cases hin : (key, v) ∈ old
      · exact hin
      · exact absurd rfl (g1 _ ((h2 _).mpr ⟨hv, hin⟩))
  · rw [g4]
    simp only [] at g2 ⊢
    subst g2
    have hx : (op, k, v) ∈ d := by rw [g1]; simp
    cases op with
    | removed =>
      have hv := (h1 _).mp hx
      have hlo : Spec.lookup old k = some v := (lookup_some_iff h ho).mpr hv.1
      have hln : Spec.lookup new k = none := by
        cases hl : Spec.lookup new k with
        | none => rfl
        | some v' =>
          have hv' := (lookup_some_iff h hn).mp hl
          by_cases hin : (k, v') ∈ old
          · exact absurd (sorted_unique_value h ho hin hv.1 ▸ hv') hv.2
          · have hadd : (DiffOp.added, k, v') ∈ d := (h2 _).mpr ⟨hv', hin⟩
            rw [g1] at hadd h3
            rcases List.mem_append.mp hadd with hp | hp
            · rcases (List.pairwise_append.mp h3).2.2 _ hp (.removed, k, v) (by simp) with h5 | ⟨_, h5, _⟩
              · simp only [] at h5; rw [h.irrefl] at h5; cases h5
              · cases h5
            · rcases List.mem_cons.mp hp with hp | hp
              · simp at hp
              · exact absurd rfl (g3 _ hp)
      rw [hlo, hln]; simp
    | added =>
      have hv := (h2 _).mp hx
      have hln : Spec.lookup new k = some v := (lookup_some_iff h hn).mpr hv.1
      have hlo : Spec.lookup old k ≠ some v := fun e => hv.2 ((lookup_some_iff h ho).mp e)
      rw [hln, if_neg hlo]; simp

/-- Any two neighbours are different. -/
def Changing {A : Type} (l : List A) : Prop := ∀ pre a b post, l = pre ++ a :: b :: post → a ≠ b

theorem changing_one {A : Type} (a : A) : Changing [a] := by
  intro pre x y post he
  have := congrArg List.length he
  simp at this
  omega

theorem changing_cons {A : Type} {a b : A} {l : List A} (hab : a ≠ b) (hl : Changing (b :: l)) : Changing (a :: b :: l) := by
  intro pre x y post he
  cases pre with
  | nil => simp only [List.nil_append, List.cons.injEq] at he; rw [← he.1, ← he.2.1]; exact hab
  | cons z pre =>
    simp only [List.cons_append, List.cons.injEq] at he
    exact hl pre x y post he.2

theorem dictFinal_base [DecidableEq ν] {base cur : List (κ × ν)} {op : DictOp κ ν} {o : Out (κ × ν) ν} (ho : Spec.dictOut lt base cur op o) :
    (sent o = none ∧ (Spec.dictNext lt base cur op).1 = base) ∨ (∃ d, sent o = some d ∧ IsDiff lt Prod.fst base cur d ∧ (Spec.dictNext lt base cur op).1 = cur) := by
  cases op with
  | commit =>
    simp only [Spec.dictOut] at ho
    by_cases hb : cur = base
    · rw [if_pos hb] at ho; subst ho; exact .inl ⟨rfl, hb⟩
    · rw [if_neg hb] at ho
      obtain ⟨d, rfl, hd⟩ := ho
      exact .inr ⟨d, rfl, hd, rfl⟩
  | diff =>
    simp only [Spec.dictOut] at ho
    obtain ⟨d, rfl, hd⟩ := ho
    exact .inl ⟨rfl, rfl⟩
  | _ => simp only [Spec.dictOut] at ho; subst ho; exact .inl ⟨rfl, rfl⟩

variable [DecidableEq ν] {veq : ν → ν → Bool}

/-- Whoever observes the value of a key: from any moment on, whatever transactions are opened, changed, reverted and committed, the last thing told (the value on connecting, or the last report) is the
    committed value of the key, and each report differs from the one before. -/
theorem key_value_follows (h : StrictWeak lt) (ht : Total lt) (hv : ∀ a b, veq a b = true ↔ a = b) (hc : ∀ a b, ceq a b = true ↔ a = b) (key : κ) (before after : List (DictOp κ ν)) :
    ∃ s1 o1 s2 o2, dictRun lt veq ⟨[], [], []⟩ before = some (s1, o1) ∧ dictRun lt veq s1 after = some (s2, o2) ∧
      (Spec.lookup s1.items key :: valueReports ceq key o2).getLast? = some (Spec.lookup s2.items key) ∧
      Changing (Spec.lookup s1.items key :: valueReports ceq key o2) := by
  obtain ⟨s1, o1, h1, -, -, hi⟩ := dictRun_spec h ht hv before (s := ⟨[], [], []⟩) (inv_clean List.Pairwise.nil)
  generalize (Spec.dictFinal lt _ _ before).2 = cur at hi
  suffices hs : ∀ (ops : List (DictOp κ ν)) (s : State (κ × ν)) (cur : List (κ × ν)), Inv lt Prod.fst s cur →
      ∃ s2 o2, dictRun lt veq s ops = some (s2, o2) ∧ (Spec.lookup s.items key :: valueReports ceq key o2).getLast? = some (Spec.lookup s2.items key) ∧
        Changing (Spec.lookup s.items key :: valueReports ceq key o2) by
    obtain ⟨s2, o2, g1, g2, g3⟩ := hs after s1 cur hi
    exact ⟨s1, o1, s2, o2, h1, g1, g2, g3⟩
  intro ops
  induction ops with
  | nil => intro s cur _; exact ⟨s, [], rfl, rfl, changing_one _⟩
  | cons op ops ih =>
    intro s cur hi
    obtain ⟨s', o, g1, g2, g3, g4⟩ := dictStep_spec h ht hv hi op
    obtain ⟨s2, o2, k1, k2, k3⟩ := ih s' _ g4
    refine ⟨s2, o :: o2, by simp only [dictRun, g1, k1, Option.map_some], ?_⟩
    rcases dictFinal_base g2 with ⟨e1, e2⟩ | ⟨d, e1, hd, e2⟩
    · rw [e2] at g3
      have : valueReports ceq key (o :: o2) = valueReports ceq key o2 := by
        unfold valueReports; rw [List.filterMap_cons, e1]
      rw [this, ← g3]; exact ⟨k2, k3⟩
    · rw [e2] at g3
      have hvs := value_sent h hc hi.si hi.sc hd key
      have : valueReports ceq key (o :: o2) = (valueSent ceq key d).toList ++ valueReports ceq key o2 := by
        unfold valueReports; rw [List.filterMap_cons, e1]
        simp only [List.filterMap_cons]
        cases valueSent ceq key d <;> rfl
      rw [this, hvs]
      rw [g3] at k2 k3
      by_cases hl : Spec.lookup s.items key = Spec.lookup cur key
      · rw [if_pos hl, hl]; exact ⟨k2, k3⟩
      · rw [if_neg hl]
        refine ⟨?_, ?_⟩
        · simp only [Option.toList_some, List.singleton_append]
          rw [List.getLast?_cons_cons]; exact k2
        · simp only [Option.toList_some, List.singleton_append]
          exact changing_cons hl k3

/-- Whoever observes the keys: the checks in the conversion of diffs never fail; the diffs received are never empty, and putting them into effect on the keys that there were on connecting gives the keys
    of the committed dictionary. -/
theorem keys_follow (h : StrictWeak lt) (ht : Total lt) (hv : ∀ a b, veq a b = true ↔ a = b) (hc : ∀ a b, ceq a b = true ↔ a = b) (before after : List (DictOp κ ν)) :
    ∃ s1 o1 s2 o2 p ds, dictRun lt veq ⟨[], [], []⟩ before = some (s1, o1) ∧ dictRun lt veq s1 after = some (s2, o2) ∧
      keysPopulate ceq s1.items = some p ∧ keysReports ceq (o2.filterMap sent) = some ds ∧
      Spec.replay lt id [] (p.getD []) = s1.items.map Prod.fst ∧ (∀ d ∈ ds, d ≠ []) ∧
      ds.foldl (Spec.replay lt id) (s1.items.map Prod.fst) = s2.items.map Prod.fst := by
  obtain ⟨s1, o1, h1, -, -, hi⟩ := dictRun_spec h ht hv before (s := ⟨[], [], []⟩) (inv_clean List.Pairwise.nil)
  generalize (Spec.dictFinal lt _ _ before).2 = cur at hi
  have sorted_keys : ∀ l : List (κ × ν), Sorted lt Prod.fst l → Sorted lt id (l.map Prod.fst) := by
    intro l hl
    unfold Sorted
    rw [List.pairwise_map]
    exact hl
  have conv : ∀ (old new : List (κ × ν)) (d : List (DiffOp × κ × ν)), Sorted lt Prod.fst old → Sorted lt Prod.fst new → IsDiff lt Prod.fst old new d →
      ∃ p, keysSent ceq d = some p ∧ (∀ x ∈ p, x ≠ []) ∧ Spec.replay lt id (old.map Prod.fst) (p.getD []) = new.map Prod.fst := by
    intro old new d ho hn hd
    obtain ⟨d', g1, g2⟩ := keys_diff h hc ho hn hd
    have hr := replay_diff h ht (sorted_keys _ ho) (sorted_keys _ hn) g2
    unfold keysSent
    rw [g1]
    cases d' with
    | nil => exact ⟨none, rfl, by simp, hr⟩
    | cons x xs => exact ⟨some (x :: xs), rfl, by simp, hr⟩
  suffices hs : ∀ (ops : List (DictOp κ ν)) (s : State (κ × ν)) (cur : List (κ × ν)), Inv lt Prod.fst s cur →
      ∃ s2 o2 ds, dictRun lt veq s ops = some (s2, o2) ∧ keysReports ceq (o2.filterMap sent) = some ds ∧ (∀ d ∈ ds, d ≠ []) ∧
        ds.foldl (Spec.replay lt id) (s.items.map Prod.fst) = s2.items.map Prod.fst by
    obtain ⟨s2, o2, ds, g1, g2, g3, g4⟩ := hs after s1 cur hi
    have hp : ∃ p, keysPopulate ceq s1.items = some p ∧ Spec.replay lt id [] (p.getD []) = s1.items.map Prod.fst := by
      unfold keysPopulate
      by_cases he : s1.items = []
      · rw [he]; exact ⟨none, rfl, rfl⟩
      · rw [if_neg (by simpa using he)]
        have hd : IsDiff lt Prod.fst [] s1.items (s1.items.map fun e => (DiffOp.added, e)) := by
          refine ⟨by simp, by simp, ?_⟩
          rw [List.pairwise_map]
          exact List.Pairwise.imp (fun hab => Or.inl hab) hi.si
        obtain ⟨p, q1, -, q3⟩ := conv [] s1.items _ List.Pairwise.nil hi.si hd
        exact ⟨p, q1, q3⟩
    obtain ⟨p, q1, q2⟩ := hp
    exact ⟨s1, o1, s2, o2, p, ds, h1, g1, q1, g2, q2, g3, g4⟩
  intro ops
  induction ops with
  | nil => intro s cur _; exact ⟨s, [], [], rfl, rfl, by simp, rfl⟩
  | cons op ops ih =>
    intro s cur hi
    obtain ⟨s', o, g1, g2, g3, g4⟩ := dictStep_spec h ht hv hi op
    obtain ⟨s2, o2, ds, k1, k2, k3, k4⟩ := ih s' _ g4
    have hrun : dictRun lt veq s (op :: ops) = some (s2, o :: o2) := by simp only [dictRun, g1, k1, Option.map_some]
    rcases dictFinal_base g2 with ⟨e1, e2⟩ | ⟨d, e1, hd, e2⟩
    · rw [e2] at g3
      rw [g3] at k4
      exact ⟨s2, o :: o2, ds, hrun, by rw [List.filterMap_cons, e1]; exact k2, k3, k4⟩
    · rw [e2] at g3
      rw [g3] at k4
      obtain ⟨p, q1, q2, q3⟩ := conv _ _ _ hi.si hi.sc hd
      refine ⟨s2, o :: o2, p.toList ++ ds, hrun, ?_, ?_, ?_⟩
      · rw [List.filterMap_cons, e1]
        simp only [keysReports, q1, Option.bind_some, k2, Option.map_some]
      · intro x hx
        rcases List.mem_append.mp hx with hx | hx
        · exact q2 x (by simpa using hx)
        · exact k3 x hx
      · rw [List.foldl_append]
        have : (p.toList).foldl (Spec.replay lt id) (s.items.map Prod.fst) = cur.map Prod.fst := by
          rw [← q3]
          cases p <;> rfl
        rw [this]; exact k4
end

/-- A dictionary in which one value changes, one key goes and one comes: reports about key 1 and about the keys. -/
example : ∃ s o, dictRun natLt (fun (a b : Char) => a == b) ⟨[], [], []⟩ [.add 1 'a', .add 2 'b', .commit, .set 1 'c', .commit, .set 1 'd', .remove 2, .add 5 'e', .commit, .remove 1, .revert] = some (s, o) ∧
    valueReports (fun a b => decide (a = b)) 1 o = [some 'a', some 'c', some 'd'] ∧
    keysReports (fun a b => decide (a = b)) (o.filterMap sent) = some [[(.added, 1), (.added, 2)], [(.removed, 2), (.added, 5)]] :=
  ⟨_, _, by with_unfolding_all rfl, by with_unfolding_all rfl, by with_unfolding_all rfl⟩

/-- A view whose comparer takes 3 and 13 for the same key, of a dictionary which tells them apart: the check fails when the diff is looked at. -/
theorem coarser_comparer_violated : ∃ s o, dictRun natLt (fun (a b : Char) => a == b) ⟨[], [], []⟩ [.add 3 'a', .add 13 'b', .commit] = some (s, o) ∧
    keysReports (fun a b => decide (a % 10 = b % 10)) (o.filterMap sent) = none :=
  ⟨_, _, by with_unfolding_all rfl, by with_unfolding_all rfl⟩

end Verif.Trans

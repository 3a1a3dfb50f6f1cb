import Verif.Str.View

/-
String views, property C126.
-/
namespace Verif.Str.View

/-! ## Specification -/

/-- The lexicographic order: a proper prefix, or smaller where they first differ. -/
def Before (a b : List Nat) : Prop :=
  (∃ c t, b = a ++ c :: t) ∨ ∃ p x y s t, a = p ++ x :: s ∧ b = p ++ y :: t ∧ x < y

/-- `v` occurs in `d` at `i`. -/
def Occurs (d v : List Nat) (i : Nat) : Prop := ∃ a b, d = a ++ v ++ b ∧ a.length = i

/-- `r` is the least position from `pos` on with property `P`, or `npos`. -/
def IsFirst (P : Nat → Prop) (pos r : Nat) : Prop := (P r ∧ pos ≤ r ∧ ∀ i, pos ≤ i → i < r → ¬ P i) ∨ (r = npos ∧ ∀ i, pos ≤ i → ¬ P i)

/-- `r` is the greatest position up to `pos` with property `P`, or `npos`. -/
def IsLast (P : Nat → Prop) (pos r : Nat) : Prop := (P r ∧ r ≤ pos ∧ ∀ i, r < i → i ≤ pos → ¬ P i) ∨ (r = npos ∧ ∀ i, i ≤ pos → ¬ P i)

/-- The character at `i` is one of `v`, -/
def OneOf (d v : List Nat) (i : Nat) : Prop := ∃ c, d[i]? = some c ∧ c ∈ v
/-- is none of `v`. -/
def NoneOf (d v : List Nat) (i : Nat) : Prop := ∃ c, d[i]? = some c ∧ c ∉ v

/-- A size that exists. -/
def Fits (d : List Nat) : Prop := d.length < npos

/-! ## Comparison -/

theorem toInt_sizeSub {a b : Nat} (h1 : a < b + 2 ^ 31) (h2 : b ≤ a + 2 ^ 31) (ha : a < 2 ^ 64) (hb : b < 2 ^ 64) :
    toInt (sizeSub a b) = (a : Int) - b := by
  have e : sizeSub a b % 2 ^ 32 = (a + 2 ^ 64 - b) % 2 ^ 32 := by simp only [sizeSub]; omega
  simp only [toInt]
  generalize sizeSub a b % 2 ^ 32 = m at e
  by_cases hc : m < 2 ^ 31
  · rw [if_pos hc]; omega
  · rw [if_neg hc]; omega

theorem traitsCompare_cases : ∀ (a b : List Nat),
    (traitsCompare (min a.length b.length) a b = -1 ∧ ∃ p x y s t, a = p ++ x :: s ∧ b = p ++ y :: t ∧ x < y) ∨
    (traitsCompare (min a.length b.length) a b = 1 ∧ ∃ p x y s t, a = p ++ x :: s ∧ b = p ++ y :: t ∧ y < x) ∨
    (traitsCompare (min a.length b.length) a b = 0 ∧ ((∃ t, b = a ++ t) ∨ ∃ t, a = b ++ t)) := by
  intro a
  induction a with
  | nil => intro b; exact Or.inr (Or.inr ⟨by simp [traitsCompare], Or.inl ⟨b, rfl⟩⟩)
  | cons x a ih =>
    intro b
    cases b with
    | nil => exact Or.inr (Or.inr ⟨by simp [traitsCompare], Or.inr ⟨x :: a, rfl⟩⟩)
    | cons y b =>
      have hm : min (x :: a).length (y :: b).length = min a.length b.length + 1 := by simp only [List.length_cons]; omega
      rw [hm]
      simp only [traitsCompare]
      by_cases h1 : x < y
      · rw [if_pos h1]; exact Or.inl ⟨rfl, [], x, y, a, b, rfl, rfl, h1⟩
      · rw [if_neg h1]
        by_cases h2 : y < x
        · rw [if_pos h2]; exact Or.inr (Or.inl ⟨rfl, [], x, y, a, b, rfl, rfl, h2⟩)
        · rw [if_neg h2]
          have hxy : x = y := by omega
          subst hxy
          rcases ih b with ⟨e, p, u, v, s, t, ha, hb, hl⟩ | ⟨e, p, u, v, s, t, ha, hb, hl⟩ | ⟨e, h | h⟩
          · exact Or.inl ⟨e, x :: p, u, v, s, t, by rw [ha]; rfl, by rw [hb]; rfl, hl⟩
          · exact Or.inr (Or.inl ⟨e, x :: p, u, v, s, t, by rw [ha]; rfl, by rw [hb]; rfl, hl⟩)
          · obtain ⟨t, ht⟩ := h; exact Or.inr (Or.inr ⟨e, Or.inl ⟨t, by rw [ht]; rfl⟩⟩)
          · obtain ⟨t, ht⟩ := h; exact Or.inr (Or.inr ⟨e, Or.inr ⟨t, by rw [ht]; rfl⟩⟩)

theorem before_irrefl (a : List Nat) : ¬ Before a a := by
  rintro (⟨c, t, h⟩ | ⟨p, x, y, s, t, h1, h2, h3⟩)
  · have := congrArg List.length h; simp at this
  · rw [h1] at h2
    have := List.append_cancel_left h2
    simp only [List.cons.injEq] at this
    omega

theorem getElem?_mid (p : List Nat) (x : Nat) (s : List Nat) : (p ++ x :: s)[p.length]? = some x := by simp

theorem before_asymm {a b : List Nat} (h : Before a b) : ¬ Before b a := by
  intro h'
  rcases h with ⟨c, t, h⟩ | ⟨p, x, y, s, t, h1, h2, h3⟩
  · rcases h' with ⟨c', t', h'⟩ | ⟨p, x, y, s, t', h1, h2, h3⟩
    · have e1 := congrArg List.length h
      have e2 := congrArg List.length h'
      simp at e1 e2; omega
    · -- b = p ++ x :: s, a = p ++ y :: t', x < y, b = a ++ c :: t
      rw [h2] at h
      rw [h1, List.append_assoc] at h
      have := List.append_cancel_left h
      simp only [List.cons_append, List.cons.injEq] at this
      omega
  · rcases h' with ⟨c', t', h'⟩ | ⟨q, x', y', s', t', h1', h2', h3'⟩
    · rw [h2] at h'
      rw [h1, List.append_assoc] at h'
      have := List.append_cancel_left h'
      simp only [List.cons_append, List.cons.injEq] at this
      omega
    · -- first difference is at p.length and at q.length
      have key {u v : List Nat} {p q : List Nat} {x y x' y' : Nat} {s t s' t' : List Nat} (e1 : u = p ++ x :: s) (e2 : v = p ++ y :: t)
          (e3 : v = q ++ x' :: s') (e4 : u = q ++ y' :: t') (hx : x' ≠ y') : p.length ≤ q.length := by
        by_cases hl : p.length ≤ q.length
        · exact hl
        · exfalso
          have hlt : q.length < p.length := by omega
          have g1 : u[q.length]? = p[q.length]? := by rw [e1, List.getElem?_append_left hlt]
          have g2 : v[q.length]? = p[q.length]? := by rw [e2, List.getElem?_append_left hlt]
          rw [e4, getElem?_mid] at g1
          rw [e3, getElem?_mid] at g2
          rw [← g1] at g2
          exact hx (Option.some.inj g2)
      have k1 := key h1 h2 h1' h2' (by omega)
      have k2 := key h2' h1' h2 h1 (by omega)
      have k : p.length = q.length := by omega
      have g1 : some x = some y' := by rw [← getElem?_mid p x s, ← h1, h2', k, getElem?_mid]
      have g2 : some y = some x' := by rw [← getElem?_mid p y t, ← h2, h1', k, getElem?_mid]
      cases g1; cases g2; omega

/-- The sizes are not too different. -/
def Close (a b : List Nat) : Prop := a.length < 2 ^ 64 ∧ b.length < 2 ^ 64 ∧ a.length < b.length + 2 ^ 31 ∧ b.length ≤ a.length + 2 ^ 31

theorem compare_sign {a b : List Nat} (h : Close a b) :
    (compare a b < 0 ∧ Before a b) ∨ (compare a b = 0 ∧ a = b) ∨ (compare a b > 0 ∧ Before b a) := by
  obtain ⟨ha, hb, h1, h2⟩ := h
  simp only [compare]
  rcases traitsCompare_cases a b with ⟨e, p, x, y, s, t, e1, e2, hl⟩ | ⟨e, p, x, y, s, t, e1, e2, hl⟩ | ⟨e, hp⟩
  · rw [e, if_neg (by decide)]; exact Or.inl ⟨by decide, Or.inr ⟨p, x, y, s, t, e1, e2, hl⟩⟩
  · rw [e, if_neg (by decide)]; exact Or.inr (Or.inr ⟨by decide, Or.inr ⟨p, y, x, t, s, e2, e1, hl⟩⟩)
  · rw [e, if_pos rfl, toInt_sizeSub h1 h2 ha hb]
    rcases hp with ⟨t, ht⟩ | ⟨t, ht⟩
    · cases t with
      | nil => right; left; rw [List.append_nil] at ht; subst ht; exact ⟨by omega, rfl⟩
      | cons c t =>
        left
        refine ⟨?_, Or.inl ⟨c, t, ht⟩⟩
        rw [ht]; simp only [List.length_append, List.length_cons]; omega
    · cases t with
      | nil => right; left; rw [List.append_nil] at ht; subst ht; exact ⟨by omega, rfl⟩
      | cons c t =>
        right; right
        refine ⟨?_, Or.inl ⟨c, t, ht⟩⟩
        rw [ht]; simp only [List.length_append, List.length_cons]; omega

/-- `compare`, and with it the comparison operators, is the lexicographic order on views whose sizes differ by less than 2^31. -/
theorem compare_partial {a b : List Nat} (h : Close a b) :
    (compare a b < 0 ↔ Before a b) ∧ (compare a b = 0 ↔ a = b) ∧ (compare a b > 0 ↔ Before b a) := by
  rcases compare_sign h with ⟨e, hb⟩ | ⟨e, hb⟩ | ⟨e, hb⟩
  · refine ⟨⟨fun _ => hb, fun _ => e⟩, ⟨fun e' => by omega, fun e' => ?_⟩, ⟨fun e' => by omega, fun h' => absurd h' (before_asymm hb)⟩⟩
    subst e'; exact absurd hb (before_irrefl _)
  · subst hb
    exact ⟨⟨fun e' => by omega, fun h' => absurd h' (before_irrefl _)⟩, ⟨fun _ => rfl, fun _ => e⟩, ⟨fun e' => by omega, fun h' => absurd h' (before_irrefl _)⟩⟩
  · refine ⟨⟨fun e' => by omega, fun h' => absurd h' (before_asymm hb)⟩, ⟨fun e' => by omega, fun e' => ?_⟩, ⟨fun _ => hb, fun _ => e⟩⟩
    subst e'; exact absurd hb (before_irrefl _)

/-- The full claim fails: views of 4 GiB and of no characters are equal, -/
theorem compare_violated_equal (c : Nat) : compare (List.replicate (2 ^ 32) c) [] = 0 ∧ List.replicate (2 ^ 32) c ≠ [] := by
  constructor
  · simp only [compare, List.length_replicate, List.length_nil, Nat.min_zero, traitsCompare, if_true]
    decide
  · intro h
    have := congrArg List.length h
    rw [List.length_replicate] at this
    cases this

/-- and the longer one of 2 GiB more is the smaller one. -/
theorem compare_violated_order (c : Nat) : compare (List.replicate (2 ^ 31) c) [] < 0 ∧ Before [] (List.replicate (2 ^ 31) c) := by
  constructor
  · simp only [compare, List.length_replicate, List.length_nil, Nat.min_zero, traitsCompare, if_true]
    decide
  · refine Or.inl ⟨c, List.replicate (2 ^ 31 - 1) c, ?_⟩
    rw [List.nil_append, ← List.replicate_succ]

example : Close [1, 2, 3] [1, 2] ∧ compare [1, 2, 3] [1, 2] = 1 ∧ compare [1, 2, 3] [1, 5] = -1 := by
  refine ⟨⟨by decide, by decide, by decide, by decide⟩, by decide, by decide⟩

theorem compare_same_length {a b : List Nat} (hl : a.length = b.length) (ha : a.length < 2 ^ 64) : compare a b = 0 ↔ a = b :=
  (compare_partial ⟨ha, by omega, by omega, by omega⟩).2.1

/-! ## Parts -/

/-- `substr`, `remove_prefix`, `remove_suffix` and `at`. -/
theorem parts (d : List Nat) (pos n : Nat) :
    substr d pos n = (if pos ≤ d.length then .ok ((d.drop pos).take n) else .outOfRange) ∧
    removePrefix d n = (if n ≤ d.length then .ok (d.drop n) else .outOfRange) ∧
    (∀ a b : List Nat, d = a ++ b → removeSuffix d b.length = .ok a) ∧ (d.length < n → removeSuffix d n = .outOfRange) ∧
    (∀ c, charAt d pos = .ok c ↔ d[pos]? = some c) ∧ (charAt d pos = .outOfRange ↔ d.length ≤ pos) := by
  refine ⟨?_, ?_, fun a b h => ?_, fun h => ?_, fun c => ?_, ?_⟩
  · simp only [substr]
    by_cases h : pos ≤ d.length
    · rw [if_pos (by omega), if_pos h]
      congr 1
      by_cases h2 : n ≤ d.length - pos
      · rw [Nat.min_eq_left h2]
      · rw [Nat.min_eq_right (by omega), List.take_of_length_le (by simp), List.take_of_length_le (by simp; omega)]
    · rw [if_neg (by omega), if_neg h]
  · simp only [removePrefix]
    by_cases h : n ≤ d.length
    · rw [if_pos (by omega), if_pos h]
    · rw [if_neg (by omega), if_neg h]
  · subst h
    simp only [removeSuffix]
    rw [if_pos (by simp; omega)]
    simp
  · simp only [removeSuffix]; rw [if_neg (by omega)]
  · simp only [charAt]
    cases h : d[pos]? <;> simp
  · simp only [charAt]
    cases h : d[pos]? with
    | none => simp [List.getElem?_eq_none_iff.mp h]
    | some c =>
      have : pos < d.length := by
        by_cases hl : pos < d.length
        · exact hl
        · rw [List.getElem?_eq_none (by omega)] at h; cases h
      simp; omega

/-- `compare` of parts compares those parts, with each other; a part that begins outside is refused. -/
theorem compareSubs_spec (d v : List Nat) (p1 c1 p2 c2 : Nat) :
    compareSub d p1 c1 v = (if p1 ≤ d.length then .ok (compare ((d.drop p1).take c1) v) else .outOfRange) ∧
    compareSubs d p1 c1 v p2 c2 =
      (if p1 ≤ d.length ∧ p2 ≤ v.length then .ok (compare ((d.drop p1).take c1) ((v.drop p2).take c2)) else .outOfRange) := by
  have h1 (v : List Nat) : compareSub d p1 c1 v = (if p1 ≤ d.length then .ok (compare ((d.drop p1).take c1) v) else .outOfRange) := by
    simp only [compareSub, (parts d p1 c1).1]
    by_cases h : p1 ≤ d.length
    · rw [if_pos h, if_pos h]
    · rw [if_neg h, if_neg h]
  refine ⟨h1 v, ?_⟩
  simp only [compareSubs, (parts v p2 c2).1]
  by_cases h : p2 ≤ v.length
  · rw [if_pos h]
    simp only [h1, h, and_true]
  · rw [if_neg h, if_neg (fun e => h e.2)]

/-- `starts_with` and `ends_with`. -/
theorem startsWith_spec (d x : List Nat) (hd : Fits d) : startsWith d x = .ok (decide (x <+: d)) := by
  simp only [startsWith]
  by_cases h : x.length ≤ d.length
  · rw [if_pos h]
    have e : substr d 0 x.length = .ok (d.take x.length) := by
      rw [(parts d 0 x.length).1, if_pos (by omega), List.drop_zero]
    simp only [compareSub, e]
    have hl : (d.take x.length).length = x.length := by simp; omega
    have hc := compare_same_length hl (by rw [hl]; unfold Fits npos at hd; omega)
    congr 1
    by_cases hp : x <+: d
    · rw [decide_eq_true hp, beq_iff_eq, hc]
      exact (List.prefix_iff_eq_take.mp hp).symm
    · rw [decide_eq_false hp, beq_eq_false_iff_ne, ne_eq, hc]
      intro e; exact hp (List.prefix_iff_eq_take.mpr e.symm)
  · rw [if_neg h]
    congr 1
    refine (decide_eq_false fun hp => ?_).symm
    exact h hp.length_le

theorem endsWith_spec (d x : List Nat) (hd : Fits d) : endsWith d x = .ok (decide (x <:+ d)) := by
  simp only [endsWith]
  by_cases h : x.length ≤ d.length
  · rw [if_pos h]
    have e : substr d (d.length - x.length) npos = .ok (d.drop (d.length - x.length)) := by
      rw [(parts d (d.length - x.length) npos).1, if_pos (by omega), List.take_of_length_le]
      rw [List.length_drop]; unfold Fits at hd; omega
    simp only [compareSub, e]
    have hl : (d.drop (d.length - x.length)).length = x.length := by simp; omega
    have hc := compare_same_length hl (by rw [hl]; unfold Fits npos at hd; omega)
    congr 1
    by_cases hp : x <:+ d
    · rw [decide_eq_true hp, beq_iff_eq, hc]
      exact (List.suffix_iff_eq_drop.mp hp).symm
    · rw [decide_eq_false hp, beq_eq_false_iff_ne, ne_eq, hc]
      intro e; exact hp (List.suffix_iff_eq_drop.mpr e.symm)
  · rw [if_neg h]
    congr 1
    refine (decide_eq_false fun hp => ?_).symm
    exact h hp.length_le

example : startsWith [1, 2, 3] [1, 2] = .ok true ∧ endsWith [1, 2, 3] [1, 2] = .ok false ∧ endsWith [1, 2, 3] [2, 3] = .ok true := by decide +kernel

/-! ## Search -/

theorem hit_iff (d v : List Nat) (pos : Nat) (hd : Fits d) (h : pos + v.length ≤ d.length) : hit d v pos = true ↔ Occurs d v pos := by
  have hl : ((d.drop pos).take v.length).length = v.length := by simp; omega
  have hc := compare_same_length hl (by rw [hl]; unfold Fits npos at hd; omega)
  simp only [hit, beq_iff_eq, hc]
  constructor
  · intro e
    refine ⟨d.take pos, (d.drop pos).drop v.length, ?_, by simp; omega⟩
    conv => rhs; rw [← e]
    rw [hl, List.append_assoc, List.take_append_drop, List.take_append_drop]
  · rintro ⟨a, b, e, e2⟩
    rw [e, ← e2, List.append_assoc, List.drop_left, List.take_left]

theorem occurs_bound {d v : List Nat} {i : Nat} (h : Occurs d v i) : i + v.length ≤ d.length := by
  obtain ⟨a, b, e, e2⟩ := h
  rw [e, ← e2]; simp only [List.length_append]; omega

theorem findLoop_spec (d v : List Nat) (hd : Fits d) : ∀ (n pos : Nat), n + pos + v.length = d.length + 1 →
    IsFirst (Occurs d v) pos (findLoop d v n pos) := by
  intro n
  induction n with
  | zero =>
    intro pos h
    refine Or.inr ⟨rfl, fun i hi ho => ?_⟩
    have := occurs_bound ho; omega
  | succ n ih =>
    intro pos h
    simp only [findLoop]
    cases hh : hit d v pos with
    | true =>
      rw [if_pos rfl]
      exact Or.inl ⟨(hit_iff d v pos hd (by omega)).mp hh, Nat.le_refl _, fun i h1 h2 => by omega⟩
    | false =>
      rw [if_neg Bool.false_ne_true]
      have hno : ¬ Occurs d v pos := fun ho => by rw [(hit_iff d v pos hd (by omega)).mpr ho] at hh; cases hh
      rcases ih (pos + 1) (by omega) with ⟨h1, h2, h3⟩ | ⟨h1, h2⟩
      · refine Or.inl ⟨h1, by omega, fun i hi hi2 => ?_⟩
        by_cases e : i = pos
        · subst e; exact hno
        · exact h3 i (by omega) hi2
      · refine Or.inr ⟨h1, fun i hi => ?_⟩
        by_cases e : i = pos
        · subst e; exact hno
        · exact h2 i (by omega)

theorem occurs_nil (d : List Nat) (i : Nat) : Occurs d [] i ↔ i ≤ d.length := by
  constructor
  · intro h; have := occurs_bound h; simpa using this
  · intro h; exact ⟨d.take i, d.drop i, by simp, by simp; omega⟩

/-- `find` gives the first occurrence from the position on. -/
theorem find_spec (d v : List Nat) (pos : Nat) (hd : Fits d) : IsFirst (Occurs d v) pos (find d v pos) := by
  simp only [find]
  by_cases h1 : pos > d.length
  · rw [if_pos h1]
    refine Or.inr ⟨rfl, fun i hi ho => ?_⟩
    have := occurs_bound ho; omega
  · rw [if_neg h1]
    cases v with
    | nil =>
      show IsFirst (Occurs d []) pos pos
      exact Or.inl ⟨(occurs_nil d pos).mpr (by omega), Nat.le_refl _, fun i h1 h2 => by omega⟩
    | cons c v =>
      rw [if_neg (by simp)]
      by_cases h2 : (c :: v).length > d.length - pos
      · rw [if_pos h2]
        refine Or.inr ⟨rfl, fun i hi ho => ?_⟩
        have := occurs_bound ho; omega
      · rw [if_neg h2]
        exact findLoop_spec d _ hd _ _ (by simp only [List.length_cons] at h2 ⊢; omega)

theorem rfindLoop_spec (d v : List Nat) (hd : Fits d) : ∀ (pos : Nat), pos + v.length ≤ d.length → IsLast (Occurs d v) pos (rfindLoop d v pos) := by
  intro pos
  induction pos with
  | zero =>
    intro h
    simp only [rfindLoop]
    cases hh : hit d v 0 with
    | true => rw [if_pos rfl]; exact Or.inl ⟨(hit_iff d v 0 hd h).mp hh, Nat.le_refl _, fun i h1 h2 => by omega⟩
    | false =>
      rw [if_neg Bool.false_ne_true]
      refine Or.inr ⟨rfl, fun i hi ho => ?_⟩
      have : i = 0 := by omega
      subst this
      rw [(hit_iff d v 0 hd h).mpr ho] at hh; cases hh
  | succ pos ih =>
    intro h
    simp only [rfindLoop]
    cases hh : hit d v (pos + 1) with
    | true => rw [if_pos rfl]; exact Or.inl ⟨(hit_iff d v _ hd h).mp hh, Nat.le_refl _, fun i h1 h2 => by omega⟩
    | false =>
      rw [if_neg Bool.false_ne_true]
      have hno : ¬ Occurs d v (pos + 1) := fun ho => by rw [(hit_iff d v _ hd h).mpr ho] at hh; cases hh
      rcases ih (by omega) with ⟨h1, h2, h3⟩ | ⟨h1, h2⟩
      · refine Or.inl ⟨h1, by omega, fun i hi hi2 => ?_⟩
        by_cases e : i = pos + 1
        · subst e; exact hno
        · exact h3 i hi (by omega)
      · refine Or.inr ⟨h1, fun i hi => ?_⟩
        by_cases e : i = pos + 1
        · subst e; exact hno
        · exact h2 i (by omega)

theorem IsLast.widen {P : Nat → Prop} {p q r : Nat} (h : IsLast P p r) (hpq : p ≤ q) (hn : ∀ i, p < i → i ≤ q → ¬ P i) : IsLast P q r := by
  rcases h with ⟨h1, h2, h3⟩ | ⟨h1, h2⟩
  · refine Or.inl ⟨h1, by omega, fun i hi hq => ?_⟩
    by_cases e : i ≤ p
    · exact h3 i hi e
    · exact hn i (by omega) hq
  · refine Or.inr ⟨h1, fun i hq => ?_⟩
    by_cases e : i ≤ p
    · exact h2 i e
    · exact hn i (by omega) hq

/-- `rfind` gives the last occurrence up to the position. -/
theorem rfind_spec (d v : List Nat) (pos : Nat) (hd : Fits d) : IsLast (Occurs d v) pos (rfind d v pos) := by
  simp only [rfind]
  cases v with
  | nil =>
    show IsLast (Occurs d []) pos (if pos > d.length then d.length else pos)
    by_cases h : pos > d.length
    · rw [if_pos h]
      exact Or.inl ⟨(occurs_nil d _).mpr (Nat.le_refl _), by omega, fun i h1 h2 ho => by have := (occurs_nil d i).mp ho; omega⟩
    · rw [if_neg h]
      exact Or.inl ⟨(occurs_nil d _).mpr (by omega), Nat.le_refl _, fun i h1 h2 => by omega⟩
  | cons c v =>
    rw [if_neg (by simp)]
    by_cases h2 : (c :: v).length > d.length
    · rw [if_pos h2]
      refine Or.inr ⟨rfl, fun i hi ho => ?_⟩
      have := occurs_bound ho; omega
    · rw [if_neg h2]
      by_cases hm : pos ≤ d.length - (c :: v).length
      · rw [Nat.min_eq_left hm]
        exact rfindLoop_spec d _ hd pos (by omega)
      · rw [Nat.min_eq_right (by omega)]
        refine (rfindLoop_spec d _ hd _ (by omega)).widen (by omega) (fun i hi _ ho => ?_)
        have := occurs_bound ho; omega

example : find [1, 2, 1, 2, 3] [1, 2] 1 = 2 ∧ rfind [1, 2, 1, 2, 3] [1, 2] 1 = 0 ∧ find [1, 2] [] 2 = 2 ∧ find [1, 2] [2, 3] 0 = npos := by decide +kernel

theorem firstLoop_spec (p : Nat → Bool) (d : List Nat) : ∀ (r : List Nat) (pos : Nat), (∀ i, r[i]? = d[pos + i]?) →
    IsFirst (fun i => ∃ c, d[i]? = some c ∧ p c = true) pos (firstLoop p r pos) := by
  intro r
  induction r with
  | nil =>
    intro pos h
    refine Or.inr ⟨rfl, fun i hi => ?_⟩
    rintro ⟨c, hc, _⟩
    have := h (i - pos)
    rw [show pos + (i - pos) = i by omega, hc] at this
    cases this
  | cons x r ih =>
    intro pos h
    have h0 : d[pos]? = some x := (h 0).symm
    simp only [firstLoop]
    cases hp : p x with
    | true => rw [if_pos rfl]; exact Or.inl ⟨⟨x, h0, hp⟩, Nat.le_refl _, fun i h1 h2 => by omega⟩
    | false =>
      rw [if_neg Bool.false_ne_true]
      have hno : ¬ ∃ c, d[pos]? = some c ∧ p c = true := by
        rintro ⟨c, hc, hpc⟩
        rw [h0] at hc; cases hc; rw [hp] at hpc; cases hpc
      rcases ih (pos + 1) (fun i => by rw [show pos + 1 + i = pos + (i + 1) by omega, ← h (i + 1)]; rfl) with ⟨h1, h2, h3⟩ | ⟨h1, h2⟩
      · refine Or.inl ⟨h1, by omega, fun i hi hi2 => ?_⟩
        by_cases e : i = pos
        · subst e; exact hno
        · exact h3 i (by omega) hi2
      · refine Or.inr ⟨h1, fun i hi => ?_⟩
        by_cases e : i = pos
        · subst e; exact hno
        · exact h2 i (by omega)

theorem IsFirst.congr {P Q : Nat → Prop} (h : ∀ i, P i ↔ Q i) {pos r : Nat} (hp : IsFirst P pos r) : IsFirst Q pos r := by
  have : P = Q := funext fun i => propext (h i)
  exact this ▸ hp

theorem IsLast.congr {P Q : Nat → Prop} (h : ∀ i, P i ↔ Q i) {pos r : Nat} (hp : IsLast P pos r) : IsLast Q pos r := by
  have : P = Q := funext fun i => propext (h i)
  exact this ▸ hp

/-- `find_first_of` gives the first character from the position on that is in the set. -/
theorem findFirstOf_spec (d v : List Nat) (pos : Nat) : IsFirst (OneOf d v) pos (findFirstOf d v pos) := by
  cases v with
  | nil => exact Or.inr ⟨rfl, fun i _ h => by obtain ⟨c, _, hc⟩ := h; cases hc⟩
  | cons x v =>
    simp only [findFirstOf, List.isEmpty_cons, if_neg Bool.false_ne_true]
    exact (firstLoop_spec _ d (d.drop pos) pos (fun i => by rw [List.getElem?_drop])).congr (fun i => by simp [OneOf])

/-- `find_first_not_of` likewise, if the set is not empty or all of the view is searched and it is not empty. -/
theorem findFirstNotOf_partial (d v : List Nat) (pos : Nat) (h : v ≠ [] ∨ (pos = 0 ∧ d ≠ [])) : IsFirst (NoneOf d v) pos (findFirstNotOf d v pos) := by
  cases v with
  | nil =>
    obtain ⟨rfl, hd⟩ := h.resolve_left (fun h => h rfl)
    cases d with
    | nil => exact absurd rfl hd
    | cons c d => exact Or.inl ⟨⟨c, rfl, List.not_mem_nil⟩, Nat.le_refl _, fun i h1 h2 => by simp [findFirstNotOf] at h2⟩
  | cons x v =>
    simp only [findFirstNotOf, List.isEmpty_cons, if_neg Bool.false_ne_true]
    exact (firstLoop_spec _ d (d.drop pos) pos (fun i => by rw [List.getElem?_drop])).congr (fun i => by simp [NoneOf])

/-- With an empty set `find_first_not_of` answers 0, which may be before the position or outside of the view. -/
theorem findFirstNotOf_violated : findFirstNotOf [1, 2, 3] [] 1 = 0 ∧ findFirstNotOf [] [] 0 = 0 ∧
    ¬ IsFirst (NoneOf [1, 2, 3] []) 1 0 ∧ ¬ IsFirst (NoneOf [] []) 0 0 := by
  refine ⟨rfl, rfl, ?_, ?_⟩
  · rintro (⟨_, h, _⟩ | ⟨h, _⟩)
    · omega
    · cases h
  · rintro (⟨⟨c, h, _⟩, _⟩ | ⟨h, _⟩)
    · cases h
    · cases h

theorem lastLoop_spec (p : Nat → Bool) (d : List Nat) : ∀ (pos : Nat), pos < d.length →
    ∃ r, lastLoop d p pos = .ok r ∧ IsLast (fun i => ∃ c, d[i]? = some c ∧ p c = true) pos r := by
  intro pos
  induction pos with
  | zero =>
    intro h
    simp only [lastLoop]
    have h0 : d[0]? = some d[0] := List.getElem?_eq_getElem h
    rw [h0]
    simp only []
    cases hp : p d[0] with
    | true => rw [if_pos rfl]; exact ⟨0, rfl, Or.inl ⟨⟨_, h0, hp⟩, Nat.le_refl _, fun i h1 h2 => by omega⟩⟩
    | false =>
      rw [if_neg Bool.false_ne_true]
      refine ⟨npos, rfl, Or.inr ⟨rfl, fun i hi => ?_⟩⟩
      rintro ⟨c, hc, hpc⟩
      have : i = 0 := by omega
      subst this
      rw [h0] at hc; cases hc; rw [hp] at hpc; cases hpc
  | succ pos ih =>
    intro h
    simp only [lastLoop]
    have h0 : d[pos + 1]? = some d[pos + 1] := List.getElem?_eq_getElem h
    rw [h0]
    simp only []
    cases hp : p d[pos + 1] with
    | true => rw [if_pos rfl]; exact ⟨pos + 1, rfl, Or.inl ⟨⟨_, h0, hp⟩, Nat.le_refl _, fun i h1 h2 => by omega⟩⟩
    | false =>
      rw [if_neg Bool.false_ne_true]
      obtain ⟨r, e, hr⟩ := ih (by omega)
      refine ⟨r, e, hr.widen (by omega) (fun i hi hq => ?_)⟩
      rintro ⟨c, hc, hpc⟩
      have : i = pos + 1 := by omega
      subst this
      rw [h0] at hc; cases hc; rw [hp] at hpc; cases hpc

/-- Where the search for the last character begins: at the position given, inside of the view, or at its end. -/
def Inside (d : List Nat) (pos : Nat) : Prop := pos < d.length ∨ (pos = npos ∧ d ≠ [])

theorem last_spec (p : Nat → Bool) (d : List Nat) (pos : Nat) (hd : Fits d) (h : Inside d pos) :
    ∃ r, lastLoop d p (lastStart d pos) = .ok r ∧ IsLast (fun i => ∃ c, d[i]? = some c ∧ p c = true) pos r := by
  rcases h with h | ⟨h, hne⟩
  · have : pos ≠ npos := by unfold Fits at hd; omega
    rw [lastStart, if_neg this]
    exact lastLoop_spec p d pos h
  · have hl : 0 < d.length := List.length_pos_iff.mpr hne
    have e : sizeSub d.length 1 = d.length - 1 := by unfold Fits npos at hd; simp only [sizeSub]; omega
    rw [lastStart, if_pos h, e]
    obtain ⟨r, e, hr⟩ := lastLoop_spec p d (d.length - 1) (by omega)
    refine ⟨r, e, hr.widen (by unfold Fits at hd; omega) (fun i hi _ => ?_)⟩
    rintro ⟨c, hc, _⟩
    rw [List.getElem?_eq_none (by omega)] at hc
    cases hc

/-- `find_last_of` gives the last character up to the position that is in the set, if the position is inside of the view or `npos` and the view is not empty. -/
theorem findLastOf_partial (d v : List Nat) (pos : Nat) (hd : Fits d) (h : Inside d pos) :
    ∃ r, findLastOf d v pos = .ok r ∧ IsLast (OneOf d v) pos r := by
  cases v with
  | nil => exact ⟨npos, rfl, Or.inr ⟨rfl, fun i _ h => by obtain ⟨c, _, hc⟩ := h; cases hc⟩⟩
  | cons x v =>
    obtain ⟨r, e, hr⟩ := last_spec (fun c => (x :: v).contains c) d pos hd h
    exact ⟨r, e, hr.congr (fun i => by simp [OneOf])⟩

/-- `find_last_not_of` likewise, if moreover the set is not empty. -/
theorem findLastNotOf_partial (d v : List Nat) (pos : Nat) (hd : Fits d) (h : Inside d pos) (hv : v ≠ []) :
    ∃ r, findLastNotOf d v pos = .ok r ∧ IsLast (NoneOf d v) pos r := by
  cases v with
  | nil => exact absurd rfl hv
  | cons x v =>
    obtain ⟨r, e, hr⟩ := last_spec (fun c => !(x :: v).contains c) d pos hd h
    exact ⟨r, e, hr.congr (fun i => by simp [NoneOf])⟩

/-- On an empty view, and from any position beyond the end, `find_last_of` and `find_last_not_of` read outside of the view. -/
theorem findLast_violated (v : List Nat) (hv : v ≠ []) (d : List Nat) (pos : Nat) (hd : Fits d) (h : ¬ Inside d pos) :
    findLastOf d v pos = .ub ∧ findLastNotOf d v pos = .ub := by
  have key : lastStart d pos ≥ d.length := by
    simp only [Inside, not_or, not_and, Classical.not_not] at h
    by_cases e : pos = npos
    · have := h.2 e
      subst this
      simp
    · rw [lastStart, if_neg e]; omega
  have ub (p : Nat → Bool) : lastLoop d p (lastStart d pos) = .ub := by
    generalize lastStart d pos = q at key
    cases q with
    | zero => simp only [lastLoop, List.getElem?_eq_none key]
    | succ q => simp only [lastLoop, List.getElem?_eq_none key]
  cases v with
  | nil => exact absurd rfl hv
  | cons x v => exact ⟨ub _, ub _⟩

/-- With an empty set `find_last_not_of` finds nothing, though every character qualifies. -/
theorem findLastNotOf_violated : findLastNotOf [1, 2] [] npos = .ok npos ∧ NoneOf [1, 2] [] 1 := ⟨rfl, 2, rfl, List.not_mem_nil⟩

example : Inside [1, 2, 3] npos ∧ findLastOf [1, 2, 1, 3] [1, 5] npos = .ok 2 ∧ findLastNotOf [1, 2, 1] [1] npos = .ok 1 ∧
    findFirstOf [1, 2, 1, 3] [3, 1] 1 = 2 ∧ findFirstNotOf [1, 1, 2] [1] 0 = 2 ∧ findLastOf [] [1] npos = .ub ∧ findLastOf [1, 2] [1] 5 = .ub :=
  ⟨Or.inr ⟨rfl, by simp⟩, by decide +kernel, by decide +kernel, by decide +kernel, by decide +kernel, by decide +kernel, by decide +kernel⟩

end Verif.Str.View

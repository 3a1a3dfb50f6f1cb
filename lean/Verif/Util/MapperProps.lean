import Verif.Util.Mapper

/-
C150.  Tables of mappings.
-/
namespace Verif.Util.Mapper

/-! ### Specification -/

/-- The values a side stands for. -/
def Side.Means : Side → Int → Prop
  | .range start stop _, v => start ≤ v ∧ v < stop
  | .bi p o, v => v ∈ [p, o]
  | .tri p a b, v => v ∈ [p, a, b]
  | .quad p a b c, v => v ∈ [p, a, b, c]
  | .multi vs, v => v ∈ vs
  | .value w, v => v = w
  | .fail, _ => False

/-- The value it gives. -/
def Side.Gives : Side → Int → Prop
  | .range _ _ back, v => v = back
  | .bi p _, v => v = p
  | .tri p _ _, v => v = p
  | .quad p _ _ _, v => v = p
  | .multi vs, v => vs[0]? = some v
  | .value w, v => v = w
  | .fail, _ => False

/-- The entry of the table for a value: the first whose side stands for it, else the default. -/
def Chosen (side : Side × Side → Side) (t : Table) (v : Int) (e : Side × Side) : Prop :=
  (∃ i : Nat, t.list[i]? = some e ∧ (side e).Means v ∧ ∀ j e', j < i → t.list[j]? = some e' → ¬(side e').Means v) ∨
  (e = t.default ∧ ∀ e' ∈ t.list, ¬(side e').Means v)

/-! ### Proofs -/

theorem fitsAny_iff : ∀ (vs : List Int) (v : Int), fitsAny vs v = true ↔ v ∈ vs
  | [], v => by simp [fitsAny]
  | p :: vs, v => by simp [fitsAny, fitsAny_iff vs v]

theorem fits_iff (s : Side) (v : Int) : s.fits v = true ↔ s.Means v := by
  cases s <;> simp [Side.fits, Side.Means, fitsAny_iff, or_assoc]

theorem get_iff (s : Side) (v : Int) : s.get = some v ↔ s.Gives v := by
  cases s with
  | multi vs => simp only [Side.get, Side.Gives, List.head?_eq_getElem?]
  | fail => simp [Side.get, Side.Gives]
  | _ => simp [Side.get, Side.Gives, eq_comm]

theorem first_some (side : Side × Side → Side) (v : Int) : ∀ (l : List (Side × Side)) (e : Side × Side), first side v l = some e →
    ∃ i : Nat, l[i]? = some e ∧ (side e).Means v ∧ ∀ j e', j < i → l[j]? = some e' → ¬(side e').Means v
  | [], e, h => by simp [first] at h
  | x :: l, e, h => by
    simp only [first] at h
    split at h
    · rename_i hf
      cases h
      exact ⟨0, rfl, (fits_iff _ _).mp hf, by intro j _ hj; omega⟩
    · rename_i hf
      obtain ⟨i, h1, h2, h3⟩ := first_some side v l e h
      refine ⟨i + 1, by simpa using h1, h2, ?_⟩
      intro j e' hj he
      cases j with
      | zero => simp at he; subst he; exact fun h => hf ((fits_iff _ _).mpr h)
      | succ j => exact h3 j e' (by omega) (by simpa using he)

theorem first_none (side : Side × Side → Side) (v : Int) : ∀ (l : List (Side × Side)), first side v l = none → ∀ e' ∈ l, ¬(side e').Means v
  | [], _ => by simp
  | x :: l, h => by
    simp only [first] at h
    split at h
    · simp at h
    · rename_i hf
      intro e' he
      rcases List.mem_cons.mp he with rfl | he
      · exact fun h => hf ((fits_iff _ _).mpr h)
      · exact first_none side v l h e' he

/-- The entry is determined. -/
theorem chosen_unique {side : Side × Side → Side} {t : Table} {v : Int} {e e' : Side × Side} (h : Chosen side t v e) (h' : Chosen side t v e') : e = e' := by
  rcases h with ⟨i, h1, h2, h3⟩ | ⟨h1, h2⟩
  · rcases h' with ⟨j, k1, k2, k3⟩ | ⟨k1, k2⟩
    · rcases Nat.lt_trichotomy i j with h | h | h
      · exact absurd h2 (k3 i e h h1)
      · subst h; rw [h1] at k1; exact Option.some.inj k1
      · exact absurd k2 (h3 j e' h k1)
    · exact absurd h2 (k2 e (List.mem_of_getElem? h1))
  · rcases h' with ⟨j, k1, k2, k3⟩ | ⟨k1, k2⟩
    · exact absurd k2 (h2 e' (List.mem_of_getElem? k1))
    · rw [h1, k1]

theorem map_chosen (t : Table) (v : Int) : ∃ e, Chosen Prod.fst t v e ∧ t.map v = e.2.get ∧ t.hasMapping v = e.2.has := by
  cases h : first Prod.fst v t.list with
  | some e => exact ⟨e, .inl (first_some _ v _ e h), by simp [Table.map, h], by simp [Table.hasMapping, h]⟩
  | none => exact ⟨t.default, .inr ⟨rfl, first_none _ v _ h⟩, by simp [Table.map, h], by simp [Table.hasMapping, h]⟩

theorem unmap_chosen (t : Table) (v : Int) : ∃ e, Chosen Prod.snd t v e ∧ t.unmap v = e.1.get ∧ t.hasBackMapping v = e.1.has := by
  cases h : first Prod.snd v t.list with
  | some e => exact ⟨e, .inl (first_some _ v _ e h), by simp [Table.unmap, h], by simp [Table.hasBackMapping, h]⟩
  | none => exact ⟨t.default, .inr ⟨rfl, first_none _ v _ h⟩, by simp [Table.unmap, h], by simp [Table.hasBackMapping, h]⟩

/-! ### The theorems -/

/-- Mapping there: the value the other side of the first fitting entry gives; of the default if no entry fits. -/
theorem map_spec (t : Table) (v w : Int) : t.map v = some w ↔ ∃ e, Chosen Prod.fst t v e ∧ e.2.Gives w := by
  obtain ⟨e, h1, h2, -⟩ := map_chosen t v
  rw [h2]
  constructor
  · intro h; exact ⟨e, h1, (get_iff _ _).mp h⟩
  · rintro ⟨e', k1, k2⟩; rw [chosen_unique h1 k1]; exact (get_iff _ _).mpr k2

/-- Mapping back. -/
theorem unmap_spec (t : Table) (v w : Int) : t.unmap v = some w ↔ ∃ e, Chosen Prod.snd t v e ∧ e.1.Gives w := by
  obtain ⟨e, h1, h2, -⟩ := unmap_chosen t v
  rw [h2]
  constructor
  · intro h; exact ⟨e, h1, (get_iff _ _).mp h⟩
  · rintro ⟨e', k1, k2⟩; rw [chosen_unique h1 k1]; exact (get_iff _ _).mpr k2

/-- `MultiValue` always has a value. -/
def Table.Compiles (t : Table) : Prop := ∀ e ∈ t.default :: t.list, e.1 ≠ .multi [] ∧ e.2 ≠ .multi []

theorem has_get {s : Side} (h : s ≠ .multi []) : s.has = s.get.isSome := by
  cases s with
  | multi vs =>
    cases vs with
    | nil => simp at h
    | cons a l => rfl
  | _ => rfl

theorem chosen_mem {side : Side × Side → Side} {t : Table} {v : Int} {e : Side × Side} (h : Chosen side t v e) : e ∈ t.default :: t.list := by
  rcases h with ⟨i, h1, -⟩ | ⟨h1, -⟩
  · exact List.mem_cons_of_mem _ (List.mem_of_getElem? h1)
  · rw [h1]; exact List.mem_cons_self

/-- The questions tell exactly when the mappings throw. -/
theorem has_spec (t : Table) (ht : t.Compiles) (v : Int) :
    (t.hasMapping v = true ↔ ∃ w, t.map v = some w) ∧ (t.hasBackMapping v = true ↔ ∃ w, t.unmap v = some w) := by
  obtain ⟨e, h1, h2, h3⟩ := map_chosen t v
  obtain ⟨f, k1, k2, k3⟩ := unmap_chosen t v
  rw [h2, h3, k2, k3, has_get (ht e (chosen_mem h1)).2, has_get (ht f (chosen_mem k1)).1]
  simp [Option.isSome_iff_exists]

/-- There and back: in a table whose destinations do not overlap and give a value they stand for, what `Map` makes of a value listed leads back to
the entry: to the value itself where the source is a single one, and to the preferred one of the sources of the same entry otherwise. -/
theorem round_trip_partial (t : Table) (v w : Int)
    (hdis : ∀ (i j : Nat) e f x, t.list[i]? = some e → t.list[j]? = some f → e.2.Means x → f.2.Means x → i = j)
    (hself : ∀ e ∈ t.list, ∀ x, e.2.Gives x → e.2.Means x)
    (i : Nat) (e : Side × Side) (hi : t.list[i]? = some e) (hv : e.1.Means v) (hfirst : ∀ j e', j < i → t.list[j]? = some e' → ¬e'.1.Means v)
    (h : t.map v = some w) : t.unmap w = e.1.get ∧ (e.1 = .value v → t.unmap w = some v) := by
  obtain ⟨e', h1, h2⟩ := (map_spec t v w).mp h
  have : e' = e := chosen_unique h1 (.inl ⟨i, hi, hv, hfirst⟩)
  subst this
  have hw : e'.2.Means w := hself e' (List.mem_of_getElem? hi) w h2
  have hc : Chosen Prod.snd t w e' := .inl ⟨i, hi, hw, fun j f hj hf hm => by have := hdis i j e' f w hi hf hw hm; omega⟩
  obtain ⟨f, k1, k2, -⟩ := unmap_chosen t w
  rw [chosen_unique k1 hc] at k2
  exact ⟨k2, fun he => by rw [k2, he]; rfl⟩

/-- A table of scheduling policies, as in PosixThreadEngine.cpp 789-799, and one with ranges. -/
def policies : Table := ⟨[(.value 0, .value 0), (.value 1, .value 3), (.value 2, .value 5), (.value 3, .value 2), (.value 4, .value 1)], (.fail, .fail)⟩
def ranges : Table := ⟨[(.value 1, .range 0 10 5), (.bi 2 3, .multi [20, 21]), (.value 4, .fail)], (.value 0, .value 99)⟩

example : policies.Compiles ∧ ranges.Compiles := by
  constructor <;> intro e he <;> simp [policies, ranges] at he <;> rcases he with h | h | h | h | h | h <;> simp_all
example : ranges.map 1 = some 5 ∧ ranges.unmap 9 = some 1 ∧ ranges.map 3 = some 20 ∧ ranges.unmap 20 = some 2 ∧ ranges.map 4 = none ∧ ranges.map 7 = some 99 ∧
    ranges.unmap 99 = some 0 ∧ ranges.hasMapping 4 = false := by decide

/-- The policies of threads survive the way there and back; nothing else is accepted. -/
theorem policies_round_trip (p : Int) : (0 ≤ p ∧ p ≤ 4 → ∃ w, policies.map p = some w ∧ policies.unmap w = some p) ∧
    (p < 0 ∨ 4 < p → policies.map p = none) := by
  constructor
  · rintro ⟨h1, h2⟩
    have : p = 0 ∨ p = 1 ∨ p = 2 ∨ p = 3 ∨ p = 4 := by omega
    rcases this with rfl | rfl | rfl | rfl | rfl <;> exact ⟨_, rfl, rfl⟩
  · intro h
    have hn : ∀ e ∈ policies.list, ¬e.1.Means p := by
      intro e he
      simp [policies] at he
      rcases he with rfl | rfl | rfl | rfl | rfl <;> simp only [Side.Means] <;> omega
    cases hm : policies.map p with
    | none => rfl
    | some w =>
      obtain ⟨e, k1, k2⟩ := (map_spec _ _ _).mp hm
      rw [chosen_unique k1 (.inr ⟨rfl, hn⟩)] at k2
      exact k2.elim

/-- The hypotheses are met by the table of policies. -/
example : policies.unmap 5 = some 2 :=
  (round_trip_partial policies 2 5
    (by
      intro i j e f x hi hj he hf
      have hb : ∀ (k : Nat) g, policies.list[k]? = some g → k < 5 := fun k g hk => (List.getElem?_eq_some_iff.mp hk).1
      have h1 := hb i e hi
      have h2 := hb j f hj
      match i, h1, hi with
      | 0, _, hi | 1, _, hi | 2, _, hi | 3, _, hi | 4, _, hi =>
        match j, h2, hj with
        | 0, _, hj | 1, _, hj | 2, _, hj | 3, _, hj | 4, _, hj =>
          simp [policies] at hi hj
          subst hi; subst hj
          simp only [Side.Means] at he hf
          omega)
    (by intro e he x hx; simp [policies] at he; rcases he with rfl | rfl | rfl | rfl | rfl <;> exact hx)
    2 (.value 2, .value 5) rfl rfl (by intro j e' hj he; match j, hj with | 0, _ | 1, _ => simp [policies] at he; subst he; simp only [Side.Means]; omega) rfl).2 rfl

/-- Not without them: a range may give a value it does not stand for, and overlapping destinations lead to another entry. -/
theorem round_trip_violated :
    (∃ t : Table, ∃ v w, t.list = [(.value v, .range 0 10 10)] ∧ t.map v = some w ∧ t.unmap w = none) ∧
    (∃ t : Table, ∃ v w, t.map v = some w ∧ (∃ u, u ≠ v ∧ t.unmap w = some u) ∧ ∀ e ∈ t.list, ∃ a b, e = (.value a, .value b)) :=
  ⟨⟨⟨[(.value 1, .range 0 10 10)], (.fail, .fail)⟩, 1, 10, rfl, rfl, rfl⟩,
   ⟨⟨[(.value 1, .value 5), (.value 2, .value 5)], (.fail, .fail)⟩, 2, 5, rfl, ⟨1, by decide, rfl⟩,
    by intro e he; simp at he; rcases he with rfl | rfl <;> exact ⟨_, _, rfl⟩⟩⟩

end Verif.Util.Mapper

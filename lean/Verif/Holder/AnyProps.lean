import Verif.Holder.Any

/-! C84: `any` holds what was assigned, and destroys it once. -/

namespace Verif.Holder.Any

variable {V : Type}

/-! ### Specification: a variable is empty or a value with its type -/

abbrev Vals (V : Type) := Nat → Option (Option (Tag × V))

def Vals.set (m : Vals V) (i : Nat) (x : Option (Option (Tag × V))) : Vals V := fun k => if k = i then x else m k

/-- Copying may throw only for strings and objects. -/
def throws (x : Option (Tag × V)) (ok : Bool) : Bool :=
  match x with
  | some (t, _) => t.owned && !ok
  | none => false

def specStep (m : Vals V) : Op V → Vals V
  | .construct i => m.set i (some none)
  | .constructValue i t v ok => if throws (some (t, v)) ok then m else m.set i (some (some (t, v)))
  | .copyConstruct i j ok => if throws ((m j).getD none) ok then m else m.set i (m j)
  | .moveConstruct i j => (m.set j (some none)).set i (m j)
  | .assignValue i t v _ => m.set i (some (some (t, v)))
  | .assign i j ok => if throws ((m j).getD none) ok then m.set i (some none) else m.set i (m j)
  | .moveAssign i j => (m.set j (some none)).set i (m j)
  | .destroy i => m.set i none

def specRun : Vals V → List (Op V) → Vals V
  | m, [] => m
  | m, op :: ops => specRun (specStep m op) ops

/-- The variables used exist, the constructed ones do not; values have a type; no self-assignment; assigning a value does not
throw. -/
def Proper (exist : Nat → Prop) : Op V → Prop
  | .construct i => ¬ exist i
  | .constructValue i t _ _ => ¬ exist i ∧ t ≠ .empty
  | .copyConstruct i j _ | .moveConstruct i j => ¬ exist i ∧ exist j
  | .assignValue i t v ok => exist i ∧ t ≠ .empty ∧ throws (some (t, v)) ok = false
  | .assign i j _ | .moveAssign i j => exist i ∧ exist j ∧ i ≠ j
  | .destroy i => exist i

def ProperRun : Vals V → List (Op V) → Prop
  | _, [] => True
  | m, op :: ops => Proper (fun i => (m i).isSome) op ∧ ProperRun (specStep m op) ops

/-! ### Refinement -/

/-- The `any` with this content. -/
def box (x : Option (Tag × V)) : Any V :=
  match x with
  | some (t, v) => ⟨t, some (t, v)⟩
  | none => ⟨.empty, none⟩

def represent (m : Vals V) : Vars V := fun k => (m k).map box

/-- No value has the type `Empty`. -/
def Typed (m : Vals V) : Prop := ∀ i t v, m i = some (some (t, v)) → t ≠ .empty

theorem Typed.set {m : Vals V} (h : Typed m) (i : Nat) {x : Option (Option (Tag × V))} (hx : ∀ t v, x = some (some (t, v)) → t ≠ .empty) : Typed (m.set i x) := by
  intro k t v hk
  simp only [Vals.set] at hk
  by_cases hi : k = i
  · rw [if_pos hi] at hk; exact hx t v hk
  · rw [if_neg hi] at hk; exact h k t v hk

theorem represent_set (m : Vals V) (i : Nat) (x : Option (Option (Tag × V))) : (represent m).set i (x.map box) = represent (m.set i x) := by
  funext k
  simp only [Vars.set, represent, Vals.set]
  by_cases h : k = i <;> simp [h]

theorem box_destroy (x : Option (Tag × V)) : (box x).destroy = some ⟨.empty, none⟩ := by
  cases x with
  | none => rfl
  | some x =>
    obtain ⟨t, v⟩ := x
    cases t <;> simp [box, Any.destroy, Tag.owned]

theorem box_source {x : Option (Tag × V)} (h : ∀ t v, x = some (t, v) → t ≠ .empty) : (box x).source = some x := by
  cases x with
  | none => rfl
  | some x =>
    obtain ⟨t, v⟩ := x
    have := h t v rfl
    simp [box, Any.source, this]

theorem copy_box {x : Option (Tag × V)} (h : ∀ t v, x = some (t, v) → t ≠ .empty) (ok : Bool) :
    Any.copy ⟨.empty, none⟩ (box x) ok = if throws x ok then .threw (box none) else .ok (box x) := by
  unfold Any.copy
  rw [box_source h]
  cases x with
  | none => simp [throws, box]
  | some x =>
    obtain ⟨t, v⟩ := x
    rw [if_neg (by simp)]
    simp only [throws, box]
    by_cases h : (t.owned && !ok) = true <;> simp only [h, Bool.false_eq_true, if_true, if_false]

theorem move_box {x : Option (Tag × V)} (h : ∀ t v, x = some (t, v) → t ≠ .empty) :
    Any.move ⟨.empty, none⟩ (box x) = some (box x, box none) := by
  unfold Any.move
  rw [box_source h]
  cases x with
  | none => rfl
  | some x => rfl

theorem step_refines (m : Vals V) (op : Op V) (hm : Typed m) (hp : Proper (fun i => (m i).isSome) op) :
    (step (represent m) op = .ok (represent (specStep m op)) ∨ step (represent m) op = .threw (represent (specStep m op))) ∧ Typed (specStep m op) := by
  cases op with
  | construct i =>
    refine ⟨.inl ?_, hm.set i (by simp)⟩
    simp only [step, specStep]; rw [← represent_set]; rfl
  | constructValue i t v ok =>
    obtain ⟨_, ht⟩ := hp
    simp only [step, specStep, throws, Any.init]
    by_cases h : (t.owned && !ok) = true
    · simp only [h, if_true]; exact ⟨.inr rfl, hm⟩
    · simp only [h, Bool.false_eq_true, if_false]
      refine ⟨.inl ?_, hm.set i (by intro a b h; cases h; exact ht)⟩
      simp only [putNew]; rw [← represent_set]; rfl
  | copyConstruct i j ok =>
    obtain ⟨_, hj⟩ := hp
    obtain ⟨y, hy⟩ := Option.isSome_iff_exists.mp hj
    have hyt : ∀ t v, y = some (t, v) → t ≠ .empty := fun t v h => hm j t v (by rw [hy, h])
    have h1 : represent m j = some (box y) := by simp [represent, hy]
    simp only [step, h1, copy_box hyt, specStep, hy, Option.getD_some]
    cases throws y ok
    · refine ⟨.inl ?_, hm.set i (by intro t v h; injection h with h; exact hyt t v h)⟩
      simp only [putNew, Bool.false_eq_true, if_false]; rw [← represent_set]; rfl
    · exact ⟨.inr rfl, hm⟩
  | moveConstruct i j =>
    obtain ⟨hi, hj⟩ := hp
    obtain ⟨y, hy⟩ := Option.isSome_iff_exists.mp hj
    have hyt : ∀ t v, y = some (t, v) → t ≠ .empty := fun t v h => hm j t v (by rw [hy, h])
    have h1 : represent m j = some (box y) := by simp [represent, hy]
    simp only [step, h1, move_box hyt, specStep, hy]
    refine ⟨.inl ?_, (hm.set j (by simp)).set i (by intro t v h; injection h with h; exact hyt t v h)⟩
    rw [← represent_set, ← represent_set]; rfl
  | assignValue i t v ok =>
    obtain ⟨hi, ht, ho⟩ := hp
    obtain ⟨x, hx⟩ := Option.isSome_iff_exists.mp hi
    have h1 : represent m i = some (box x) := by simp [represent, hx]
    have ho : (t.owned && !ok) = false := ho
    simp only [step, h1, box_destroy, specStep, Any.init, ho, Bool.false_eq_true, if_false]
    refine ⟨.inl ?_, hm.set i (by intro a b h; cases h; exact ht)⟩
    simp only [putBack]; rw [← represent_set]; rfl
  | assign i j ok =>
    obtain ⟨hi, hj, hij⟩ := hp
    obtain ⟨x, hx⟩ := Option.isSome_iff_exists.mp hi
    obtain ⟨y, hy⟩ := Option.isSome_iff_exists.mp hj
    have hyt : ∀ t v, y = some (t, v) → t ≠ .empty := fun t v h => hm j t v (by rw [hy, h])
    have h1 : represent m i = some (box x) := by simp [represent, hx]
    have h2 : (represent m).set i (some ⟨.empty, none⟩) j = some (box y) := by
      simp only [Vars.set]; rw [if_neg (fun h => hij h.symm)]; simp [represent, hy]
    simp only [step, assignFrom, h1, box_destroy, h2, copy_box hyt, specStep, hy, Option.getD_some]
    cases throws y ok
    · refine ⟨.inl ?_, hm.set i (by intro t v h; injection h with h; exact hyt t v h)⟩
      simp only [putBack, Bool.false_eq_true, if_false]; rw [← represent_set]; rfl
    · refine ⟨.inr ?_, hm.set i (by simp)⟩
      simp only [putBack, if_true]; rw [← represent_set]; rfl
  | moveAssign i j =>
    obtain ⟨hi, hj, hij⟩ := hp
    obtain ⟨x, hx⟩ := Option.isSome_iff_exists.mp hi
    obtain ⟨y, hy⟩ := Option.isSome_iff_exists.mp hj
    have hyt : ∀ t v, y = some (t, v) → t ≠ .empty := fun t v h => hm j t v (by rw [hy, h])
    have h1 : represent m i = some (box x) := by simp [represent, hx]
    have h2 : (represent m).set i (some ⟨.empty, none⟩) j = some (box y) := by
      simp only [Vars.set]; rw [if_neg (fun h => hij h.symm)]; simp [represent, hy]
    simp only [step, moveFrom, h1, box_destroy, h2, move_box hyt, specStep, hy]
    refine ⟨.inl ?_, (hm.set j (by simp)).set i (by intro t v h; injection h with h; exact hyt t v h)⟩
    rw [← represent_set, ← represent_set]; rfl
  | destroy i =>
    obtain ⟨x, hx⟩ := Option.isSome_iff_exists.mp hp
    have h1 : represent m i = some (box x) := by simp [represent, hx]
    simp only [step, h1, box_destroy, specStep]
    refine ⟨.inl ?_, hm.set i (by simp)⟩
    rw [← represent_set]; rfl

/-- C84, for histories without self-assignment in which assigning a bare value does not throw (copying an `any` may): nothing undefined
happens, so strings and objects are destroyed once, and the variables hold what the specification says. -/
theorem any_refines_partial (ops : List (Op V)) : ∀ (m : Vals V), Typed m → ProperRun m ops → run (represent m) ops = .ok (represent (specRun m ops)) := by
  induction ops with
  | nil => intro m _ _; rfl
  | cons op ops ih =>
    intro m hm hp
    obtain ⟨h, ht⟩ := step_refines m op hm hp.1
    have ih := ih _ ht hp.2
    rcases h with h | h
    · simp only [run, specRun, h, ih]
    · simp only [run, specRun, h, ih]

/-- C84.  `any_cast` gives the value exactly for the type that is held. -/
theorem any_get (m : Vals V) (hm : Typed m) (i : Nat) (x : Option (Tag × V)) (h : m i = some x) (t : Tag) : ∃ a, represent m i = some a ∧
    a.get t = some (match x with
      | some (u, v) => if u = t then some v else none
      | none => none) := by
  refine ⟨box x, by simp [represent, h], ?_⟩
  cases x with
  | none => cases t <;> simp [box, Any.get]
  | some x =>
    obtain ⟨u, v⟩ := x
    have := hm i u v h
    simp only [box, Any.get]
    by_cases hu : u = t
    · subst hu; simp [this]
    · simp [hu]

example : ProperRun (fun _ => none) [.constructValue 1 .string "abc" true, .construct 2, .assign 2 1 true, .moveAssign 1 2, .assign 2 1 false, .destroy 1] ∧
    Typed (fun _ => none : Vals String) ∧
    (specRun (fun _ => none) [.constructValue 1 .string "abc" true, .construct 2, .assign 2 1 true, .moveAssign 1 2]) 1 = some (some (.string, "abc")) := by
  refine ⟨?_, fun _ _ _ h => (by cases h), rfl⟩
  simp [ProperRun, Proper, specStep, Vals.set, throws, Tag.owned]

/-- C84 is violated by self-assignment: the value is lost. -/
theorem self_assign_violated (m : Vals V) (i : Nat) (x : Option (Tag × V)) (h : m i = some x) (ok : Bool) :
    step (represent m) (.assign i i ok) = .ok (represent (m.set i (some none))) := by
  have h1 : represent m i = some (box x) := by simp [represent, h]
  rw [← represent_set]
  simp only [step, assignFrom, h1, box_destroy]
  simp [Vars.set, Any.copy, Any.source, putBack, box]

/-- C84 is violated when the copy of an assigned string or object throws: the `any` says it holds it, and its destructor destroys what
is not there. -/
theorem throwing_assign_violated (m : Vals V) (i : Nat) (x : Option (Tag × V)) (h : m i = some x) (t : Tag) (v : V) (ht : t.owned = true) :
    run (represent m) [.assignValue i t v false, .destroy i] = .ub := by
  have h1 : represent m i = some (box x) := by simp [represent, h]
  have h2 : step (represent m) (.assignValue i t v false) = .threw ((represent m).set i (some ⟨t, none⟩)) := by
    simp only [step, h1, box_destroy]
    simp [Any.init, ht, putBack]
  simp only [run, h2]
  simp [step, Vars.set, Any.destroy, ht]

example : Tag.owned .string = true ∧ Tag.owned (.object 3) = true := ⟨rfl, rfl⟩

end Verif.Holder.Any

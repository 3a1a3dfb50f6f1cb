import Verif.Holder.Optional

/-! C83: `optional` holds at most one value, and destroys it once. -/

namespace Verif.Holder.Opt

variable {V : Type}

/-! ### Specification -/

/-- The contents of the variables that exist. -/
abbrev Vals (V : Type) := Nat → Option (Option V)

def Vals.set (m : Vals V) (i : Nat) (x : Option (Option V)) : Vals V := fun k => if k = i then x else m k

/-- The content of a variable after an assignment of a value. -/
def assigned (old : Option V) (v : V) : How V → Option V
  | .ok => some v
  | .threw w => old.map (fun _ => w)

/-- After moving `v` out of variable `j`. -/
def movedOut (moved : V → V) (j : Nat) (v : V) (h : How V) (m : Vals V) : Vals V :=
  match h with
  | .ok => m.set j (some (some (moved v)))
  | .threw _ => m

/-- What the operations mean. -/
def specStep (moved : V → V) (m : Vals V) : Op V → Vals V
  | .construct i => m.set i (some none)
  | .constructValue i v .ok => m.set i (some (some v))
  | .constructValue _ _ (.threw _) => m
  | .copyConstruct i j h =>
    match m j, h with
    | some (some _), .threw _ => m
    | x, _ => m.set i x
  | .moveConstruct i j h =>
    match m j, h with
    | some (some _), .threw _ => m
    | some (some v), .ok => (m.set i (some (some v))).set j (some (some (moved v)))
    | x, _ => m.set i x
  | .assignValue i v h => m.set i ((m i).map (fun old => assigned old v h))
  | .assign i j h =>
    match m j with
    | some (some v) => m.set i ((m i).map (fun old => assigned old v h))
    | _ => m.set i (some none)
  | .moveAssign i j h =>
    match m j with
    | some (some v) => movedOut moved j v h (m.set i ((m i).map (fun old => assigned old v h)))
    | _ => m.set i (some none)
  | .emplace i v .ok => m.set i (some (some v))
  | .emplace i _ (.threw _) => m.set i (some none)
  | .swap i j h =>
    match m i, m j, h with
    | some (some _), some none, .threw _ => m
    | some none, some (some _), .threw _ => m
    | x, y, _ => (m.set i y).set j x
  | .reset i => m.set i (some none)
  | .destroy i => m.set i none

def specRun (moved : V → V) : Vals V → List (Op V) → Vals V
  | m, [] => m
  | m, op :: ops => specRun moved (specStep moved m op) ops

/-- The variables used exist, the constructed ones do not. -/
def Proper (exist : Nat → Prop) : Op V → Prop
  | .construct i | .constructValue i _ _ => ¬ exist i
  | .copyConstruct i j _ | .moveConstruct i j _ => ¬ exist i ∧ exist j
  | .assignValue i _ _ | .emplace i _ _ | .reset i | .destroy i => exist i
  | .assign i j _ | .moveAssign i j _ | .swap i j _ => exist i ∧ exist j

def ProperRun (moved : V → V) : Vals V → List (Op V) → Prop
  | _, [] => True
  | m, op :: ops => Proper (fun i => (m i).isSome) op ∧ ProperRun moved (specStep moved m op) ops

/-! ### Refinement -/

/-- The slot with this content. -/
def slot (x : Option V) : Slot V := ⟨x.isSome, x⟩

def represent (m : Vals V) : Vars V := fun k => (m k).map slot

theorem represent_set (m : Vals V) (i : Nat) (x : Option (Option V)) : (represent m).set i (x.map slot) = represent (m.set i x) := by
  funext k
  simp only [Vars.set, represent, Vals.set]
  by_cases h : k = i <;> simp [h]

theorem look_represent {m : Vals V} {j : Nat} {x : Option V} (h : m j = some x) : look (represent m) j = some x := by
  cases x <;> simp [look, represent, h, Slot.get, slot]

theorem resetVar_represent {m : Vals V} {i : Nat} {x : Option V} (h : m i = some x) : resetVar (represent m) i = .ok (represent (m.set i (some none))) := by
  rw [← represent_set]
  cases x <;> simp [resetVar, represent, h, Slot.reset, putBack, slot]

theorem assignVar_represent {m : Vals V} {i : Nat} {x : Option V} (hi : m i = some x) (v : V) (h : How V) :
    assignVar (represent m) i v h = match h with
      | .ok => .ok (represent (m.set i (some (some v))))
      | .threw w => .threw (represent (m.set i (some (x.map (fun _ => w))))) := by
  cases h with
  | ok => simp only []; rw [← represent_set]; cases x <;> simp [assignVar, represent, hi, Slot.assign, putBack, slot]
  | threw w => simp only []; rw [← represent_set]; cases x <;> simp [assignVar, represent, hi, Slot.assign, putBack, slot]

theorem leaveMoved_represent (moved : V → V) {m : Vals V} {j : Nat} {v w : V} (hj : m j = some (some w)) :
    leaveMoved moved j v (.ok (represent m)) = .ok (represent (m.set j (some (some (moved v))))) := by
  rw [← represent_set]
  simp [leaveMoved, represent, hj, slot]

theorem set_self (m : Vals V) {i : Nat} {x : Option (Option V)} (h : m i = x) : m.set i x = m := by
  funext k
  simp only [Vals.set]
  by_cases hk : k = i
  · rw [if_pos hk, hk, h]
  · rw [if_neg hk]

theorem set_set (m : Vals V) (i : Nat) (x y : Option (Option V)) : (m.set i x).set i y = m.set i y := by
  funext k
  simp only [Vals.set]
  by_cases hk : k = i <;> simp [hk]

theorem set_get (m : Vals V) (i : Nat) (x : Option (Option V)) : (m.set i x) i = x := by simp [Vals.set]

theorem set_get_ne (m : Vals V) {i j : Nat} (h : j ≠ i) (x : Option (Option V)) : (m.set i x) j = m j := by simp [Vals.set, h]

theorem set_comm (m : Vals V) {i j : Nat} (h : i ≠ j) (x y : Option (Option V)) : (m.set i x).set j y = (m.set j y).set i x := by
  funext k
  simp only [Vals.set]
  by_cases h1 : k = i
  · rw [if_pos h1, if_pos h1, if_neg (by omega)]
  · rw [if_neg h1, if_neg h1]

theorem step_refines (moved : V → V) (m : Vals V) (op : Op V) (hp : Proper (fun i => (m i).isSome) op) :
    step moved (represent m) op = .ok (represent (specStep moved m op)) ∨ step moved (represent m) op = .threw (represent (specStep moved m op)) := by
  cases op with
  | construct i => left; simp only [step, specStep]; rw [← represent_set]; rfl
  | constructValue i v h =>
    cases h with
    | ok => left; simp only [step, specStep, fromValue]; rw [← represent_set]; rfl
    | threw w => right; simp only [step, specStep, fromValue]
  | copyConstruct i j h =>
    obtain ⟨_, hj⟩ := hp
    obtain ⟨y, hy⟩ := Option.isSome_iff_exists.mp hj
    simp only [step, specStep, look_represent hy, hy]
    cases y with
    | none => left; simp only []; rw [← represent_set]; rfl
    | some v =>
      cases h with
      | ok => left; simp only [fromValue]; rw [← represent_set]; rfl
      | threw w => right; simp only [fromValue]
  | moveConstruct i j h =>
    obtain ⟨hi, hj⟩ := hp
    obtain ⟨y, hy⟩ := Option.isSome_iff_exists.mp hj
    have hij : j ≠ i := fun h => hi (h ▸ hj)
    simp only [step, specStep, look_represent hy, hy]
    cases y with
    | none => left; simp only []; rw [← represent_set]; rfl
    | some v =>
      cases h with
      | ok =>
        left
        simp only [fromValue]
        rw [show (represent m).set i (some ⟨true, some v⟩) = represent (m.set i (some (some v))) from by rw [← represent_set]; rfl]
        exact leaveMoved_represent moved (w := v) (by rw [set_get_ne m hij]; exact hy)
      | threw w => right; simp only [fromValue, leaveMoved]
  | assignValue i v h =>
    obtain ⟨x, hx⟩ := Option.isSome_iff_exists.mp hp
    simp only [step, specStep, assignVar_represent hx, hx, Option.map_some]
    cases h with
    | ok => left; rfl
    | threw w => right; rfl
  | assign i j h =>
    obtain ⟨hi, hj⟩ := hp
    obtain ⟨x, hx⟩ := Option.isSome_iff_exists.mp hi
    obtain ⟨y, hy⟩ := Option.isSome_iff_exists.mp hj
    simp only [step, specStep, look_represent hy, hy]
    cases y with
    | none => left; exact resetVar_represent hx
    | some v =>
      simp only [assignVar_represent hx, hx, Option.map_some]
      cases h with
      | ok => left; rfl
      | threw w => right; rfl
  | moveAssign i j h =>
    obtain ⟨hi, hj⟩ := hp
    obtain ⟨x, hx⟩ := Option.isSome_iff_exists.mp hi
    obtain ⟨y, hy⟩ := Option.isSome_iff_exists.mp hj
    simp only [step, specStep, look_represent hy, hy]
    cases y with
    | none => left; exact resetVar_represent hx
    | some v =>
      simp only [assignVar_represent hx, hx, Option.map_some]
      cases h with
      | ok =>
        left
        simp only [movedOut, assigned]
        by_cases hij : j = i
        · subst hij; exact leaveMoved_represent moved (w := v) (set_get _ _ _)
        · exact leaveMoved_represent moved (w := v) (by rw [set_get_ne m hij]; exact hy)
      | threw w => right; rfl
  | emplace i v h =>
    obtain ⟨x, hx⟩ := Option.isSome_iff_exists.mp hp
    have h1 : represent m i = some (slot x) := by simp [represent, hx]
    cases h with
    | ok =>
      left
      simp only [step, specStep, h1]
      rw [← represent_set]
      cases x <;> simp [Slot.emplace, Slot.reset, slot, putBack]
    | threw w =>
      right
      simp only [step, specStep, h1]
      rw [← represent_set]
      cases x <;> simp [Slot.emplace, Slot.reset, slot, putBack]
  | swap i j h =>
    obtain ⟨hi, hj⟩ := hp
    obtain ⟨x, hx⟩ := Option.isSome_iff_exists.mp hi
    obtain ⟨y, hy⟩ := Option.isSome_iff_exists.mp hj
    simp only [step, specStep, look_represent hx, look_represent hy, hx, hy]
    cases x with
    | none =>
      cases y with
      | none =>
        left
        simp only []
        rw [set_self m hx, set_self m hy]
      | some y =>
        have hij : j ≠ i := fun h => by rw [h, hx] at hy; cases hy
        simp only [assignVar_represent hx]
        cases h with
        | ok =>
          left
          simp only []
          exact resetVar_represent (x := some y) (by rw [set_get_ne m hij]; exact hy)
        | threw w => right; simp only [Option.map_none]; rw [set_self m hx]
    | some x =>
      cases y with
      | none =>
        have hij : i ≠ j := fun h => by rw [h, hy] at hx; cases hx
        simp only [assignVar_represent hy]
        cases h with
        | ok =>
          left
          simp only []
          rw [set_comm m hij]
          exact resetVar_represent (x := some x) (by rw [set_get_ne m hij]; exact hx)
        | threw w => right; simp only [Option.map_none]; rw [set_self m hy]
      | some y =>
        left
        simp only []
        rw [← represent_set, ← represent_set]
        rfl
  | reset i =>
    obtain ⟨x, hx⟩ := Option.isSome_iff_exists.mp hp
    left; exact resetVar_represent hx
  | destroy i =>
    obtain ⟨x, hx⟩ := Option.isSome_iff_exists.mp hp
    left
    simp only [step, resetVar_represent hx, specStep]
    rw [show (represent (m.set i (some none))).set i none = represent ((m.set i (some none)).set i none) from represent_set _ i none, set_set]

/-- C83.  Whatever throws, for every history of operations on existing variables (self-assignment and
self-swap included): nothing undefined happens, so a value that was constructed is destroyed once and no value is
constructed over another; and the optionals contain what the specification says. -/
theorem optional_refines (moved : V → V) (ops : List (Op V)) : ∀ (m : Vals V), ProperRun moved m ops →
    run moved (represent m) ops = .ok (represent (specRun moved m ops)) := by
  induction ops with
  | nil => intro m _; rfl
  | cons op ops ih =>
    intro m hp
    have ih := ih _ hp.2
    rcases step_refines moved m op hp.1 with h | h
    · simp only [run, specRun, h, ih]
    · simp only [run, specRun, h, ih]

/-- C83.  `get` returns the content or throws `NotInitializedException`. -/
theorem optional_get (m : Vals V) (i : Nat) (x : Option V) (h : m i = some x) : ∃ s, represent m i = some s ∧ s.get = some x := by
  refine ⟨slot x, by simp [represent, h], ?_⟩
  cases x <;> simp [Slot.get, slot]

example : ProperRun (fun _ => 0) (fun _ => none) [.construct 1, .constructValue 2 7 .ok, .assign 2 2 .ok, .swap 1 2 (.threw 9), .swap 1 2 .ok, .emplace 1 5 (.threw 5), .destroy 1] ∧
    (specRun (fun _ => 0) (fun _ => none) [.construct 1, .constructValue 2 7 .ok, .assign 2 2 .ok, .swap 1 2 (.threw 9), .swap 1 2 .ok]) 1 = some (some 7) := by
  refine ⟨?_, rfl⟩
  simp [ProperRun, Proper, specStep, Vals.set, assigned]

/-! ### Comparison -/

/-- C83.  The order: the empty optional first, then by value.  `Compare` agrees with `<` and `==` if that of the values
does. -/
theorem compare_agrees (cmp : V → V → Int) (a b : Option V) :
    (compare cmp a b < 0 ↔ less (fun x y => decide (cmp x y < 0)) a b = true) ∧
    (compare cmp a b = 0 ↔ equal (fun x y => decide (cmp x y = 0)) a b = true) := by
  cases a <;> cases b <;> simp [compare, less, equal]

theorem less_order (lt : V → V → Bool) (irr : ∀ a, lt a a = false) (tr : ∀ a b c, lt a b = true → lt b c = true → lt a c = true)
    (tot : ∀ a b, lt a b = true ∨ a = b ∨ lt b a = true) (a b c : Option V) :
    less lt a a = false ∧ (less lt a b = true → less lt b c = true → less lt a c = true) ∧
    (less lt a b = true ∨ a = b ∨ less lt b a = true) ∧ (∀ x, less lt none (some x) = true) ∧ (∀ x y, less lt (some x) (some y) = lt x y) := by
  refine ⟨?_, ?_, ?_, fun _ => rfl, fun _ _ => rfl⟩
  · cases a <;> simp [less, irr]
  · cases a <;> cases b <;> cases c <;> simp [less]
    exact tr _ _ _
  · cases a <;> cases b <;> simp [less]
    exact tot _ _

/-- C83.  Comparing with a value is comparing with an optional that holds it. -/
theorem compare_value (lt : V → V → Bool) (a : Option V) (y : V) : lessValue lt a y = less lt a (some y) ∧ valueLess lt y a = less lt (some y) a := by
  cases a <;> simp [lessValue, valueLess, less]

example : less (fun a b => decide (a < b)) (some 1) (some 2) = true ∧ less (fun a b => decide (a < b)) (some 1) none = false := by decide

end Verif.Holder.Opt

import Verif.Holder.Variant

/-! C82: `variant` holds one value, and destroys it once. -/

namespace Verif.Holder

variable {V : Type}

/-! ### Specification: a variable is an alternative and its value -/

/-- The values of the variables. -/
abbrev Vals (V : Type) := Nat → Option (Nat × V)

def Vals.set (m : Vals V) (i : Nat) (x : Option (Nat × V)) : Vals V := fun k => if k = i then x else m k

/-- What remains in a variable whose new value could not be constructed. -/
def fallback (em : Empty V) : Option (Nat × V) := em

/-- The new values of the variables; `none` if the program ends (`STINGRAYKIT_FATAL`). -/
def specStep (em : Empty V) (moved : V → V) (m : Vals V) : Op V → Option (Vals V)
  | .construct i t v c =>
    match c with
    | .ok => some (m.set i (some (t, v)))
    | _ => if em.isSome then some m else none
  | .copyConstruct i j c =>
    match c with
    | .ok => some (m.set i (m j))
    | _ => if em.isSome then some m else none
  | .moveConstruct i j c =>
    match c with
    | .ok => some ((m.set i (m j)).set j ((m j).map (fun x => (x.1, moved x.2))))
    | _ => if em.isSome then some m else none
  | .assignValue i t v c | .emplace i t v c =>
    match c with
    | .ok => some (m.set i (some (t, v)))
    | _ => em.map (fun e => m.set i (some e))
  | .assign i j c =>
    match c with
    | .ok => some (m.set i (m j))
    | _ => em.map (fun e => m.set i (some e))
  | .moveAssign i j c =>
    match c with
    | .ok => some ((m.set i (m j)).set j ((m j).map (fun x => (x.1, moved x.2))))
    | _ => em.map (fun e => m.set i (some e))
  | .destroy i => some (m.set i none)

/-- A history of the specification; `none` if the program ended. -/
def specRun (em : Empty V) (moved : V → V) : Vals V → List (Op V) → Option (Vals V)
  | m, [] => some m
  | m, op :: ops =>
    match specStep em moved m op with
    | some m' => specRun em moved m' ops
    | none => none

/-- Operations on variables that exist (a constructor: does not), not on one variable twice, and with constructors that throw
nothing but `std::exception`. -/
def Proper (exist : Nat → Prop) : Op V → Prop
  | .construct i _ _ c => ¬ exist i ∧ c ≠ .other
  | .copyConstruct i j c | .moveConstruct i j c => ¬ exist i ∧ exist j ∧ c ≠ .other
  | .assignValue i _ _ c | .emplace i _ _ c => exist i ∧ c ≠ .other
  | .assign i j c | .moveAssign i j c => exist i ∧ exist j ∧ i ≠ j ∧ c ≠ .other
  | .destroy i => exist i

/-- All operations of a history are proper at their time. -/
def ProperRun (em : Empty V) (moved : V → V) : Vals V → List (Op V) → Prop
  | _, [] => True
  | m, op :: ops => Proper (fun i => (m i).isSome) op ∧ ∀ m', specStep em moved m op = some m' → ProperRun em moved m' ops

/-! ### Refinement -/

/-- The variables that hold these values. -/
def represent (m : Vals V) : Vars V := fun k => (m k).map (fun x => ⟨x.1, some x⟩)

theorem represent_set (m : Vals V) (i : Nat) (x : Nat × V) : (represent m).set i (some ⟨x.1, some x⟩) = represent (m.set i (some x)) := by
  funext k
  simp only [Vars.set, represent, Vals.set]
  by_cases h : k = i <;> simp [h]

theorem represent_none (m : Vals V) (i : Nat) : (represent m).set i none = represent (m.set i none) := by
  funext k
  simp only [Vars.set, represent, Vals.set]
  by_cases h : k = i <;> simp [h]

/-- What an operation does to the code's variables, in terms of the values. -/
def stepOk (em : Empty V) (moved : V → V) (m : Vals V) (op : Op V) : Prop :=
  match specStep em moved m op with
  | some m' => step em moved (represent m) op = .ok (represent m') ∨ step em moved (represent m) op = .threw (represent m')
  | none => step em moved (represent m) op = .fatal

theorem overwrite_ok (em : Empty V) (m : Vals V) {i : Nat} {x : Nat × V} (hi : m i = some x) (t : Nat) (v : V) {c : Ctor} (hc : c ≠ .other) :
    overwrite em (represent m) i t v c =
      match c, em with
      | .ok, _ => .ok (represent (m.set i (some (t, v))))
      | _, some e => .threw (represent (m.set i (some e)))
      | _, none => .fatal := by
  have h1 : represent m i = some ⟨x.1, some x⟩ := by simp [represent, hi]
  have h2 : (⟨x.1, some x⟩ : Slot V).destruct = some ⟨x.1, none⟩ := by simp [Slot.destruct]
  unfold overwrite
  rw [h1]
  simp only [h2]
  cases c with
  | ok =>
    simp only [Slot.assignVal, putBack]
    rw [← represent_set m i (t, v)]
  | std =>
    cases em with
    | none => simp only [Slot.assignVal, putBack]
    | some e =>
      obtain ⟨e, ev⟩ := e
      simp only [Slot.assignVal, putBack]
      rw [← represent_set m i (e, ev)]
  | other => exact absurd rfl hc

theorem overwriteFrom_ok (em : Empty V) (m : Vals V) {i j : Nat} {x y : Nat × V} (hi : m i = some x) (hj : m j = some y) (hij : i ≠ j) {c : Ctor}
    (fin : V → Res (Vars V) → Res (Vars V)) : overwriteFrom em (represent m) i j c fin = fin y.2 (overwrite em (represent m) i y.1 y.2 c) := by
  have h1 : represent m i = some ⟨x.1, some x⟩ := by simp [represent, hi]
  have h2 : (⟨x.1, some x⟩ : Slot V).destruct = some ⟨x.1, none⟩ := by simp [Slot.destruct]
  have h3 : (represent m).set i (some ⟨x.1, none⟩) j = some ⟨y.1, some y⟩ := by
    simp only [Vars.set]
    rw [if_neg (fun h => hij h.symm)]
    simp [represent, hj]
  have h4 : (⟨y.1, some y⟩ : Slot V).read = some y.2 := by simp [Slot.read]
  unfold overwriteFrom overwrite
  rw [h1]
  simp only [h2, h3, h4]

theorem leaveMoved_ok (moved : V → V) (m : Vals V) {j : Nat} {y : Nat × V} (hj : m j = some y) :
    leaveMoved moved j y.2 (.ok (represent m)) = .ok (represent (m.set j (some (y.1, moved y.2)))) := by
  have h1 : represent m j = some ⟨y.1, some y⟩ := by simp [represent, hj]
  simp only [leaveMoved, h1]
  rw [← represent_set m j (y.1, moved y.2)]

theorem step_refines (em : Empty V) (moved : V → V) (m : Vals V) (op : Op V) (hp : Proper (fun i => (m i).isSome) op) : stepOk em moved m op := by
  unfold stepOk
  cases op with
  | construct i t v c =>
    obtain ⟨_, hc⟩ := hp
    cases c with
    | ok =>
      left
      simp only [step, Slot.assignVal, putNew]
      rw [← represent_set m i (t, v)]
    | std =>
      cases em with
      | none => simp [specStep, step, Slot.assignVal, putNew]
      | some e => right; obtain ⟨e, ev⟩ := e; simp only [step, Slot.assignVal, putNew]
    | other => exact absurd rfl hc
  | copyConstruct i j c =>
    obtain ⟨hi, hj, hc⟩ := hp
    obtain ⟨y, hy⟩ := Option.isSome_iff_exists.mp hj
    have h1 : (represent m j).bind (fun o => o.read.map (fun v => (o.type, v))) = some y := by simp [represent, hy, Slot.read]
    cases c with
    | ok =>
      left
      simp only [step, h1, Slot.assignVal, putNew, hy]
      rw [← represent_set m i y]
    | std =>
      cases em with
      | none => simp [specStep, step, h1, Slot.assignVal, putNew]
      | some e => right; obtain ⟨e, ev⟩ := e; simp only [step, h1, Slot.assignVal, putNew]
    | other => exact absurd rfl hc
  | moveConstruct i j c =>
    obtain ⟨hi, hj, hc⟩ := hp
    obtain ⟨y, hy⟩ := Option.isSome_iff_exists.mp hj
    have hij : i ≠ j := fun h => hi (h ▸ hj)
    have h1 : (represent m j).bind (fun o => o.read.map (fun v => (o.type, v))) = some y := by simp [represent, hy, Slot.read]
    cases c with
    | ok =>
      left
      simp only [step, h1, Slot.assignVal, putNew, hy, Option.map_some]
      have h2 : (m.set i (some y)) j = some y := by simp [Vals.set, fun h => hij (Eq.symm h), hy]
      rw [show (represent m).set i (some ⟨y.1, some (y.1, y.2)⟩) = represent (m.set i (some y)) from represent_set m i y]
      exact leaveMoved_ok moved _ h2
    | std =>
      cases em with
      | none => simp [specStep, step, h1, Slot.assignVal, putNew, leaveMoved]
      | some e => right; obtain ⟨e, ev⟩ := e; simp only [step, h1, Slot.assignVal, putNew, leaveMoved]
    | other => exact absurd rfl hc
  | assignValue i t v c =>
    obtain ⟨hi, hc⟩ := hp
    obtain ⟨x, hx⟩ := Option.isSome_iff_exists.mp hi
    have h := overwrite_ok em m hx t v hc
    simp only [step, h]
    cases c with
    | ok => left; rfl
    | std => cases em with
      | none => simp [specStep]
      | some e => right; rfl
    | other => exact absurd rfl hc
  | emplace i t v c =>
    obtain ⟨hi, hc⟩ := hp
    obtain ⟨x, hx⟩ := Option.isSome_iff_exists.mp hi
    have h := overwrite_ok em m hx t v hc
    simp only [step, h]
    cases c with
    | ok => left; rfl
    | std => cases em with
      | none => simp [specStep]
      | some e => right; rfl
    | other => exact absurd rfl hc
  | assign i j c =>
    obtain ⟨hi, hj, hij, hc⟩ := hp
    obtain ⟨x, hx⟩ := Option.isSome_iff_exists.mp hi
    obtain ⟨y, hy⟩ := Option.isSome_iff_exists.mp hj
    have h := overwriteFrom_ok em m hx hy hij (c := c) (fun _ r => r)
    rw [overwrite_ok em m hx y.1 y.2 hc] at h
    simp only [step, h]
    cases c with
    | ok => left; simp only [hy]
    | std => cases em with
      | none => simp [specStep]
      | some e => right; rfl
    | other => exact absurd rfl hc
  | moveAssign i j c =>
    obtain ⟨hi, hj, hij, hc⟩ := hp
    obtain ⟨x, hx⟩ := Option.isSome_iff_exists.mp hi
    obtain ⟨y, hy⟩ := Option.isSome_iff_exists.mp hj
    have h := overwriteFrom_ok em m hx hy hij (c := c) (leaveMoved moved j)
    rw [overwrite_ok em m hx y.1 y.2 hc] at h
    simp only [step, h]
    cases c with
    | ok =>
      left
      simp only [hy, Option.map_some]
      have h2 : (m.set i (some y)) j = some y := by simp [Vals.set, fun h => hij (Eq.symm h), hy]
      exact leaveMoved_ok moved _ h2
    | std => cases em with
      | none => simp [specStep, leaveMoved]
      | some e => right; rfl
    | other => exact absurd rfl hc
  | destroy i =>
    obtain ⟨x, hx⟩ := Option.isSome_iff_exists.mp hp
    left
    have h1 : represent m i = some ⟨x.1, some x⟩ := by simp [represent, hx]
    simp only [step, h1, Slot.destruct, if_true]
    rw [represent_none]

/-- C82, for programs that do not assign a variant to itself and whose constructors throw only `std::exception`: nothing
undefined happens (so every alternative that was constructed is destroyed once, none is constructed over another, and `_type` is
the type of the object), and the variables hold exactly the values of the specification. -/
theorem variant_refines_partial (em : Empty V) (moved : V → V) (ops : List (Op V)) : ∀ (m : Vals V), ProperRun em moved m ops →
    run em moved (represent m) ops = match specRun em moved m ops with
      | some m' => .ok (represent m')
      | none => .fatal := by
  induction ops with
  | nil => intro m _; rfl
  | cons op ops ih =>
    intro m hp
    have h := step_refines em moved m op hp.1
    unfold stepOk at h
    cases hs : specStep em moved m op with
    | none =>
      rw [hs] at h
      simp only [run, specRun, h, hs]
    | some m' =>
      rw [hs] at h
      have ih := ih m' (hp.2 m' hs)
      rcases h with h | h
      · simp only [run, specRun, h, hs, ih]
      · simp only [run, specRun, h, hs, ih]

/-- C82.  `get` returns the value if the variant holds this alternative and throws `bad_variant_get` otherwise; `which` is the
alternative. -/
theorem variant_get (m : Vals V) (i : Nat) (x : Nat × V) (h : m i = some x) (t : Nat) : ∃ s, represent m i = some s ∧ s.type = x.1 ∧
    s.get t = some (if x.1 = t then some x.2 else none) := by
  refine ⟨⟨x.1, some x⟩, by simp [represent, h], rfl, ?_⟩
  simp only [Slot.get, Slot.read, if_true]
  by_cases hx : x.1 = t <;> simp [hx]

/-- An assignment that throws in a variant that can be empty; then the empty value is there. -/
example : ProperRun (some (0, "")) (fun _ => "moved") (fun _ => none) [.construct 1 1 "a" .ok, .construct 2 2 "b" .ok, .assign 1 2 .std, .moveAssign 2 1 .ok, .destroy 1] ∧
    (specRun (some (0, "")) (fun _ => "moved") (fun _ => none) [.construct 1 1 "a" .ok, .construct 2 2 "b" .ok, .assign 1 2 .std, .moveAssign 2 1 .ok, .destroy 1]).map (fun m => (m 1, m 2)) =
      some (none, some (0, "")) := by
  refine ⟨⟨⟨by simp, by simp⟩, ?_⟩, rfl⟩
  intro m h; cases h
  refine ⟨⟨by simp [Vals.set], by simp⟩, ?_⟩
  intro m h; cases h
  refine ⟨⟨by simp [Vals.set], by simp [Vals.set], by simp, by simp⟩, ?_⟩
  intro m h; cases h
  refine ⟨⟨by simp [Vals.set], by simp [Vals.set], by simp, by simp⟩, ?_⟩
  intro m h; cases h
  exact ⟨by simp [Proper, Vals.set], fun _ _ => trivial⟩

/-- C82 is violated by self-assignment, whatever the variant holds: the value is read after its destruction. -/
theorem self_assign_violated (em : Empty V) (moved : V → V) (m : Vals V) (i : Nat) (x : Nat × V) (h : m i = some x) (c : Ctor) :
    step em moved (represent m) (.assign i i c) = .ub ∧ step em moved (represent m) (.moveAssign i i c) = .ub := by
  have h1 : represent m i = some ⟨x.1, some x⟩ := by simp [represent, h]
  constructor <;> simp [step, overwriteFrom, h1, Slot.destruct, Vars.set, Slot.read]

/-- C82 is violated by constructors that throw something that is no `std::exception`: the old value is destroyed, the
variant still says it holds it, and its destructor destroys it again. -/
theorem foreign_exception_violated (em : Empty V) (moved : V → V) (m : Vals V) (i : Nat) (x : Nat × V) (h : m i = some x) (t : Nat) (v : V) :
    run em moved (represent m) [.assignValue i t v .other, .destroy i] = .ub := by
  have h1 : represent m i = some ⟨x.1, some x⟩ := by simp [represent, h]
  simp [run, step, overwrite, h1, Slot.destruct, Slot.assignVal, putBack, Vars.set]

/-! ### Comparison -/

/-- The slot of a value. -/
def slotOf (x : Nat × V) : Slot V := ⟨x.1, some x⟩

/-- C82.  Comparison is by alternative first, then by value. -/
theorem variant_less (lt : V → V → Bool) (x y : Nat × V) : (slotOf x).lt lt (slotOf y) = some (decide (x.1 < y.1 ∨ (x.1 = y.1 ∧ lt x.2 y.2 = true))) := by
  unfold Slot.lt slotOf
  simp only [Slot.read, if_true]
  by_cases h : x.1 = y.1
  · rw [if_neg (by simp [h])]
    congr 1
    cases lt x.2 y.2 <;> simp [h]
  · rw [if_pos h]
    congr 1
    simp [h]

theorem variant_equal (eq : V → V → Bool) (x y : Nat × V) : (slotOf x).eq eq (slotOf y) = some (decide (x.1 = y.1 ∧ eq x.2 y.2 = true)) := by
  unfold Slot.eq slotOf
  simp only [Slot.read, if_true]
  by_cases h : x.1 = y.1
  · rw [if_neg (by simp [h])]
    congr 1
    cases eq x.2 y.2 <;> simp [h]
  · rw [if_pos h]
    congr 1
    simp [h]

/-- C82.  If `<` of the alternatives is a strict total order, so is `<` of the variants. -/
theorem variant_order (lt : V → V → Bool) (irr : ∀ a, lt a a = false) (tr : ∀ a b c, lt a b = true → lt b c = true → lt a c = true)
    (tot : ∀ a b, lt a b = true ∨ a = b ∨ lt b a = true) (x y z : Nat × V) :
    (slotOf x).lt lt (slotOf x) = some false ∧
    ((slotOf x).lt lt (slotOf y) = some true → (slotOf y).lt lt (slotOf z) = some true → (slotOf x).lt lt (slotOf z) = some true) ∧
    ((slotOf x).lt lt (slotOf y) = some true ∨ x = y ∨ (slotOf y).lt lt (slotOf x) = some true) := by
  simp only [variant_less, Option.some.injEq, decide_eq_true_eq, decide_eq_false_iff_not]
  refine ⟨?_, ?_, ?_⟩
  · simp [irr]
  · rintro (h1 | ⟨h1, h1'⟩) (h2 | ⟨h2, h2'⟩)
    · left; omega
    · left; omega
    · left; omega
    · right; exact ⟨by omega, tr _ _ _ h1' h2'⟩
  · rcases Nat.lt_trichotomy x.1 y.1 with h | h | h
    · exact .inl (.inl h)
    · rcases tot x.2 y.2 with h' | h' | h'
      · exact .inl (.inr ⟨h, h'⟩)
      · exact .inr (.inl (Prod.ext h h'))
      · exact .inr (.inr (.inr ⟨h.symm, h'⟩))
    · exact .inr (.inr (.inl h))

example : (slotOf (1, 5)).lt (fun a b => decide (a < b)) (slotOf ((2, 3) : Nat × Nat)) = some true ∧
    (slotOf (1, 5)).lt (fun a b => decide (a < b)) (slotOf ((1, 3) : Nat × Nat)) = some false := by decide

end Verif.Holder

import Verif.Util.Dispatch
/-!
Visitors see an object by its own class, dispatch on several variants passes the values in the order of the variants, and `CollectionOpVariant` gives back what it was made of.
-/
namespace Verif.Util.Dispatch

theorem acceptor_own {c : Class} (cs : List Class) (h : c.visitable = true) : acceptor (c :: cs) = some c.id := by
  simp [acceptor, h]

/-- An object whose class is `Visitable` is visited as what it is if the visitor has that class in its list, and otherwise as the base; if the visitor has nothing
for the base, with an exception. -/
theorem visit_partial (v : Visitor) {c : Class} (cs : List Class) (h : c.visitable = true) :
    (applyVisitor v (c :: cs) = .derived c.id ↔ c.id ∈ v.handles) ∧
    (applyVisitor v (c :: cs) = .base ↔ c.id ∉ v.handles ∧ v.forBase = true) ∧
    (applyVisitor v (c :: cs) = .threw ↔ c.id ∉ v.handles ∧ v.forBase = false) := by
  unfold applyVisitor
  rw [acceptor_own cs h]
  by_cases hm : c.id ∈ v.handles <;> cases hb : v.forBase <;> simp [hm]

/-- A class that is not `Visitable` is visited as the nearest class above it that is. -/
theorem visit_inherited (v : Visitor) {c : Class} (cs : List Class) (h : c.visitable = false) : applyVisitor v (c :: cs) = applyVisitor v cs := by
  unfold applyVisitor
  rw [show acceptor (c :: cs) = acceptor cs by simp [acceptor, h]]

/-- Whatever is called gets an object of the class it is for: one of the object's own classes, that is in the visitor's list. -/
theorem visit_sound (v : Visitor) (cs : List Class) (d : Nat) (h : applyVisitor v cs = .derived d) : d ∈ v.handles ∧ d ∈ cs.map Class.id := by
  induction cs with
  | nil => cases h
  | cons c cs ih =>
    cases hc : c.visitable with
    | true =>
      unfold applyVisitor at h
      rw [acceptor_own cs hc] at h
      dsimp only at h
      split at h
      · rename_i hm
        injection h with h
        subst h
        exact ⟨by simpa using hm, by simp⟩
      · split at h <;> cases h
    | false =>
      rw [visit_inherited v cs hc] at h
      exact ⟨(ih h).1, List.mem_cons_of_mem _ (ih h).2⟩

/-- A visitor with `Visit` for a class between the base and the object's own is not asked: the object goes to the base, or the visitor throws. -/
theorem ancestor_ignored_violated : applyVisitor ⟨[5], true⟩ [⟨7, true⟩, ⟨5, false⟩] = .base ∧ applyVisitor ⟨[5], false⟩ [⟨7, true⟩, ⟨5, true⟩] = .threw := by decide

theorem applyVal_spec {V R : Type} (types : Nat) (f : Nat → V → Option R) (x : Val V) : ∀ (left index : Nat), index ≤ x.which → x.which < index + left →
    applyVal types f x index left = f x.which x.value := by
  intro left
  induction left with
  | zero => intro index h1 h2; omega
  | succ left ih =>
    intro index h1 h2
    unfold applyVal
    by_cases h : x.which = index
    · rw [if_pos h, h]
    · rw [if_neg h]; exact ih _ (by omega) (by omega)

theorem dispatch_spec {V R : Type} (f : List (Nat × V) → R) : ∀ (rest : List (Nat × Val V)) (resolved : List (Nat × V)) (t : Nat) (v : V),
    (∀ x ∈ rest, x.2.which < x.1) → dispatch f rest resolved t v = some (f (resolved.reverse ++ (t, v) :: rest.map fun x => (x.2.which, x.2.value))) := by
  intro rest
  induction rest with
  | nil => intro resolved t v _; simp [dispatch]
  | cons x rest ih =>
    intro resolved t v h
    obtain ⟨n, x⟩ := x
    have hx : x.which < n := h _ List.mem_cons_self
    simp only [dispatch]
    rw [applyVal_spec _ _ _ _ _ (Nat.zero_le _) (by omega), ih _ _ _ fun y hy => h y (List.mem_cons_of_mem _ hy)]
    simp

/-- The visitor is called once, with the values of all the variants in their order, each in its own type. -/
theorem multidispatch_spec {V R : Type} (f : List (Nat × V) → R) (first : Nat × Val V) (rest : List (Nat × Val V)) (h : ∀ x ∈ first :: rest, x.2.which < x.1) :
    multidispatch f first rest = some (f ((first :: rest).map fun x => (x.2.which, x.2.value))) := by
  unfold multidispatch
  have h1 := h _ List.mem_cons_self
  rw [applyVal_spec _ _ _ _ _ (Nat.zero_le _) (by omega), dispatch_spec f rest [] _ _ fun y hy => h y (List.mem_cons_of_mem _ hy)]
  rfl

/-- What the programs make: nothing, or one of the three changes. -/
inductive Made (T : Type) where
  | nothing
  | added (x : T)
  | removed (x : T)
  | modified (x y : T)

/-- The object made. -/
def Made.variant {T : Type} : Made T → OpVariant T
  | .nothing => .empty
  | .added x => .createAdded x
  | .removed x => .createRemoved x
  | .modified x y => .createModified x y

/-- `GetOp` tells which change it was and throws if there is none; the accessor of the change gives back the values, and the others throw. -/
theorem op_variant_spec {T : Type} (m : Made T) :
    (m.variant.getOp = match m with | .nothing => none | .added _ => some .added | .removed _ => some .removed | .modified _ _ => some .updated) ∧
    (m.variant.asOne 1 = match m with | .added x => some x | _ => none) ∧
    (m.variant.asOne 2 = match m with | .removed x => some x | _ => none) ∧
    (m.variant.asModified = match m with | .modified x y => some (x, y) | _ => none) := by
  cases m <;> exact ⟨rfl, rfl, rfl, rfl⟩

/-- `operator ==`: two are equal exactly if they were made of the same (CollectionOpVariant.h 107). -/
theorem op_variant_eq {T : Type} (m n : Made T) : m.variant = n.variant ↔ m = n := by
  cases m <;> cases n <;> simp [Made.variant, OpVariant.empty, OpVariant.createAdded, OpVariant.createRemoved, OpVariant.createModified]

example : applyVisitor ⟨[3, 7], false⟩ [⟨7, true⟩, ⟨5, true⟩] = .derived 7 ∧ applyVisitor ⟨[5], false⟩ [⟨7, false⟩, ⟨5, true⟩] = .derived 5 := by decide
example : multidispatch (fun l => l) (3, ⟨2, 'a'⟩) [(2, ⟨0, 'b'⟩), (1, ⟨0, 'c'⟩)] = some [(2, 'a'), (0, 'b'), (0, 'c')] := by decide

end Verif.Util.Dispatch

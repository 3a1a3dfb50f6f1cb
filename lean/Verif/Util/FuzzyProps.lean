import Verif.Util.Fuzzy
/-
What a user of FuzzyEquals relies on: objects of one class are compared by DoFuzzyEquals, others are different, pointers by what they point to.
-/
namespace Verif.Util.Fuzzy

/-- Fuzzy equality (specification): `type` is the class of an object, `same` the equality the classes define. -/
inductive Equal (type : Nat → Nat) (same : Nat → Nat → Prop) : Val → Val → Prop
  | null : Equal type same .null .null
  | ptr {a b : Val} : Equal type same a b → Equal type same (.ptr a) (.ptr b)
  | self (i : Nat) : Equal type same (.obj i) (.obj i)
  | obj {i j : Nat} : type i = type j → same i j → Equal type same (.obj i) (.obj j)

/-- Two values of one C++ type, whose objects exist: pointers to pointers of the same depth (specification). -/
inductive Alike (n : Nat) : Val → Val → Prop
  | null : Alike n .null .null
  | nullPtr (a : Val) : Alike n .null (.ptr a)
  | ptrNull (a : Val) : Alike n (.ptr a) .null
  | ptr {a b : Val} : Alike n a b → Alike n (.ptr a) (.ptr b)
  | obj {i j : Nat} : i < n → j < n → Alike n (.obj i) (.obj j)

/-- The classes of the objects in memory. -/
def typeOf (w : World) (i : Nat) : Nat := match w.objs[i]? with | some o => o.dyn | none => 0

theorem objectAt_self (w : World) : ∀ (os : List Obj) (base j : Nat) (o : Obj), os[j]? = some o → os.Pairwise (fun a b => fuzzyAddr w a ≠ fuzzyAddr w b) →
    objectAt w (fuzzyAddr w o) base os = some (base + j)
  | [], _, _, _, h, _ => by simp at h
  | x :: os, base, 0, o, h, _ => by
    simp at h
    subst h
    simp [objectAt]
  | x :: os, base, j + 1, o, h, hp => by
    simp only [List.getElem?_cons_succ] at h
    obtain ⟨h1, h2⟩ := List.pairwise_cons.mp hp
    rw [objectAt, if_neg (h1 o (List.mem_of_getElem? h)), objectAt_self w os (base + 1) j o h h2]
    congr 1
    omega

/-- C191.  Of completely constructed objects, which do not overlap: FuzzyEquals without a dynamic_cast finds the other object; objects of different classes are different, objects of one
class are compared by DoFuzzyEquals. -/
theorem fuzzy_exact_partial (w : World) (hc : ∀ o ∈ w.objs, o.dyn = o.whole) (hp : w.objs.Pairwise (fun a b => fuzzyAddr w a ≠ fuzzyAddr w b)) {i j : Nat} (hi : i < w.objs.length)
    (hj : j < w.objs.length) : fuzzyEquals w i j = .ok (decide (typeOf w i = typeOf w j) && w.doEquals i j) := by
  have h1 : w.objs[i]? = some w.objs[i] := List.getElem?_eq_getElem hi
  have h2 : w.objs[j]? = some w.objs[j] := List.getElem?_eq_getElem hj
  have c1 := hc _ (List.getElem_mem hi)
  have c2 := hc _ (List.getElem_mem hj)
  simp only [fuzzyEquals, typeOf, h1, h2]
  by_cases hd : w.objs[i].dyn = w.objs[j].dyn
  · have ha : w.objs[j].addr + (fuzzyAddr w w.objs[i] - w.objs[i].addr) = fuzzyAddr w w.objs[j] := by
      unfold fuzzyAddr
      rw [← c1, ← c2, hd]
      omega
    rw [ha, objectAt_self w w.objs 0 j _ h2 hp]
    simp [hd]
  · simp [hd]

/-- C191.  The comparer FuzzyEquals: null pointers equal each other only, other pointers are compared by what they point to, to any depth, an object equals itself whatever DoFuzzyEquals
says, and others as above. -/
theorem compare_exact (w : World) (hc : ∀ o ∈ w.objs, o.dyn = o.whole) (hp : w.objs.Pairwise (fun a b => fuzzyAddr w a ≠ fuzzyAddr w b)) {a b : Val} (h : Alike w.objs.length a b) :
    ∃ r, compare w a b = .ok r ∧ (r = true ↔ Equal (typeOf w) (fun i j => w.doEquals i j = true) a b) := by
  induction h with
  | null => exact ⟨true, rfl, by simp; exact .null⟩
  | nullPtr a => exact ⟨false, rfl, by simp; intro h; cases h⟩
  | ptrNull a => exact ⟨false, rfl, by simp; intro h; cases h⟩
  | ptr _ ih =>
    obtain ⟨r, h1, h2⟩ := ih
    exact ⟨r, h1, h2.trans ⟨.ptr, fun h => by cases h with | ptr h => exact h⟩⟩
  | @obj i j hi hj =>
    by_cases he : i = j
    · subst he
      exact ⟨true, by simp [compare], by simp; exact .self i⟩
    · refine ⟨decide (typeOf w i = typeOf w j) && w.doEquals i j, ?_, ?_⟩
      · rw [compare, if_neg he]
        exact fuzzy_exact_partial w hc hp hi hj
      · simp only [Bool.and_eq_true, decide_eq_true_eq]
        constructor
        · exact fun ⟨h1, h2⟩ => .obj h1 h2
        · intro h
          cases h with
          | self => exact absurd rfl he
          | obj h1 h2 => exact ⟨h1, h2⟩

/-- C191.  Fuzzy equality is an equivalence if what every class says of its own objects is symmetric and transitive. -/
theorem equivalence {type : Nat → Nat} {same : Nat → Nat → Prop} (hs : ∀ i j, type i = type j → same i j → same j i)
    (ht : ∀ i j k, type i = type j → type j = type k → same i j → same j k → same i k) : Equivalence (Equal type same) := by
  refine ⟨fun a => ?_, fun {a b} h => ?_, fun {a b c} h1 h2 => ?_⟩
  · induction a with
    | obj i => exact .self i
    | null => exact .null
    | ptr v ih => exact .ptr ih
  · induction h with
    | null => exact .null
    | ptr _ ih => exact .ptr ih
    | self i => exact .self i
    | obj e h => exact .obj e.symm (hs _ _ e h)
  · induction h1 generalizing c with
    | null => exact h2
    | ptr _ ih => cases h2 with | ptr h2 => exact .ptr (ih h2)
    | self i => exact h2
    | obj e h =>
      cases h2 with
      | self => exact .obj e h
      | obj e2 h2 => exact .obj (e.trans e2) (ht _ _ _ e e2 h h2)

/-- Class 1 is a base of class 2, which has its FuzzyEquatable 8 bytes further from IFuzzyEquatable; object 0 is of class 1, object 1 of class 2, of which the base is being constructed. -/
def building : World := ⟨fun c => if c = 2 then -16 else -8, [⟨1, 1, 100⟩, ⟨1, 2, 200⟩], fun _ _ => true⟩

/-- C191 does not hold in constructors and destructors of bases: typeid says they are of one class, but their parts are at other distances: the pointer points elsewhere. -/
theorem constructing_violated : fuzzyEquals building 1 0 = .undef ∧ fuzzyEquals building 0 1 = .undef := by decide

example : ∃ w : World, (∀ o ∈ w.objs, o.dyn = o.whole) ∧ w.objs.Pairwise (fun a b => fuzzyAddr w a ≠ fuzzyAddr w b) ∧ compare w (.ptr (.obj 0)) (.ptr (.obj 1)) = .ok true ∧
    compare w (.obj 0) (.obj 2) = .ok false ∧ compare w (.obj 1) (.obj 1) = .ok true :=
  ⟨⟨fun c => if c = 2 then -16 else -8, [⟨1, 1, 100⟩, ⟨1, 1, 200⟩, ⟨2, 2, 300⟩], fun i j => decide (i ≠ j)⟩, by decide, by decide, by decide, by decide, by decide⟩

end Verif.Util.Fuzzy

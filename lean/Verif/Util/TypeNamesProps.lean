import Verif.Util.TypeNames

/-
C197.  Names of types and of their namespaces.
-/
namespace Verif.Util.TypeNames

theorem at2_iff {s : List Char} {i : Nat} : at2 s i = true ↔ s[i]? = some ':' ∧ s[i + 1]? = some ':' := by
  simp only [at2, beq_iff_eq]
  constructor
  · intro h
    have h0 : ((s.drop i).take 2)[0]? = some ':' := by rw [h]; rfl
    have h1 : ((s.drop i).take 2)[1]? = some ':' := by rw [h]; rfl
    simp only [List.getElem?_take, List.getElem?_drop] at h0 h1
    simpa using ⟨h0, h1⟩
  · intro h
    apply List.ext_getElem?
    intro k
    rcases k with _ | _ | k
    · simp only [List.getElem?_take, List.getElem?_drop]; simpa using h.1
    · simp only [List.getElem?_take, List.getElem?_drop]; simpa using h.2
    · simp only [List.getElem?_take, List.getElem?_drop]; simp; omega

theorem rfindFrom_some {s : List Char} {j : Nat} : ∀ {i : Nat}, j ≤ i → at2 s j = true → (∀ k, j < k → k ≤ i → at2 s k = false) → rfindFrom s i = some j
  | 0, h, h1, _ => by
    have : j = 0 := by omega
    subst this
    simp only [rfindFrom, h1, if_true]
  | i + 1, h, h1, h2 => by
    simp only [rfindFrom]
    by_cases he : j = i + 1
    · subst he; rw [if_pos h1]
    · rw [if_neg (by rw [h2 (i + 1) (by omega) (by omega)]; exact Bool.false_ne_true)]
      exact rfindFrom_some (by omega) h1 (fun k hk hk' => h2 k hk (by omega))

theorem rfindFrom_none {s : List Char} : ∀ {i : Nat}, (∀ k, k ≤ i → at2 s k = false) → rfindFrom s i = none
  | 0, h => by simp [rfindFrom, h 0 (by omega)]
  | i + 1, h => by
    simp only [rfindFrom]
    rw [if_neg (by rw [h (i + 1) (by omega)]; exact Bool.false_ne_true)]
    exact rfindFrom_none (fun k hk => h k (by omega))

theorem rfindFrom_at {s : List Char} {j : Nat} : ∀ {i : Nat}, rfindFrom s i = some j → at2 s j = true
  | 0, h => by
    simp only [rfindFrom] at h
    split at h
    · next hh => cases h; exact hh
    · cases h
  | i + 1, h => by
    simp only [rfindFrom] at h
    split at h
    · next hh => cases h; exact hh
    · exact rfindFrom_at h

theorem rfind_at {s : List Char} {p : Option Nat} {j : Nat} (h : rfind s p = some j) : at2 s j = true := by
  simp only [rfind] at h
  split at h
  · cases h
  · split at h <;> exact rfindFrom_at h

theorem findLt_append : ∀ {a b : List Char}, '<' ∉ a → findLt (a ++ b) = (findLt b).map (· + a.length)
  | [], b, _ => by simp
  | c :: a, b, h => by
    have hc : c ≠ '<' := fun e => h (by simp [e])
    rw [List.cons_append, findLt, if_neg hc, findLt_append (fun k => h (by simp [k]))]
    cases findLt b with
    | none => rfl
    | some n => simp only [Option.map_some, List.length_cons]; congr 1

/-- C197.  Namespace and class name make up the name: joined by `::`, or the class name is all of it. -/
theorem recompose (name : List Char) : name = namespaceName name ++ [':', ':'] ++ className name ∨ namespaceName name = [] ∧ className name = name := by
  simp only [namespaceName, className]
  cases h : rfind name (findLt name) with
  | none => exact .inr ⟨rfl, rfl⟩
  | some i =>
    left
    have ha := rfind_at h
    simp only [at2, beq_iff_eq] at ha
    show name = name.take i ++ [':', ':'] ++ name.drop (i + 2)
    rw [← ha, List.append_assoc, ← List.drop_drop, List.take_append_drop, List.take_append_drop]

theorem no_colon {pre ident args : List Char} (hi : ':' ∉ ident) (ha : args = [] ∨ args.head? = some '<') {k : Nat} (h1 : pre.length < k)
    (h2 : args ≠ [] → k ≤ pre.length + 2 + ident.length) : at2 (pre ++ ':' :: ':' :: (ident ++ args)) k = false := by
  rw [← Bool.not_eq_true, at2_iff]
  rintro ⟨h3, h4⟩
  obtain ⟨d, rfl⟩ : ∃ d, k = pre.length + 1 + d := ⟨k - (pre.length + 1), by omega⟩
  have key : ∀ e, (args ≠ [] → e ≤ ident.length) → (ident ++ args)[e]? ≠ some ':' := by
    intro e he h
    by_cases hl : e < ident.length
    · rw [List.getElem?_append_left hl] at h
      exact hi (List.mem_of_getElem? h)
    · rw [List.getElem?_append_right (by omega)] at h
      rcases ha with rfl | ha
      · simp at h
      · have : args ≠ [] := by intro h; rw [h] at ha; cases ha
        have := he this
        have e0 : e - ident.length = 0 := by omega
        rw [e0, ← List.head?_eq_getElem?, ha] at h
        exact absurd h (by decide)
  cases d with
  | zero =>
    rw [List.getElem?_append_right (by omega), show pre.length + 1 + 0 + 1 - pre.length = 0 + 1 + 1 by omega] at h4
    simp only [List.getElem?_cons_succ] at h4
    exact key 0 (fun _ => Nat.zero_le _) h4
  | succ d =>
    rw [List.getElem?_append_right (by omega), show pre.length + 1 + (d + 1) - pre.length = d + 1 + 1 by omega] at h3
    simp only [List.getElem?_cons_succ] at h3
    exact key d (fun h => by have := h2 h; omega) h3

/-- C197.  A class in a namespace, itself perhaps with arguments of a template: what is before the last `::` of the name proper is the namespace, the rest with the arguments the class name,
whatever the arguments are. -/
theorem qualified_partial {pre ident args : List Char} (hp : '<' ∉ pre) (hi : ':' ∉ ident) (hl : '<' ∉ ident) (ha : args = [] ∨ args.head? = some '<') :
    namespaceName (pre ++ [':', ':'] ++ ident ++ args) = pre ∧ className (pre ++ [':', ':'] ++ ident ++ args) = ident ++ args := by
  have e : pre ++ [':', ':'] ++ ident ++ args = pre ++ ':' :: ':' :: (ident ++ args) := by simp
  have hlen : (pre ++ ':' :: ':' :: (ident ++ args)).length = pre.length + 2 + ident.length + args.length := by simp; omega
  have hat : at2 (pre ++ ':' :: ':' :: (ident ++ args)) pre.length = true := by
    rw [at2_iff]
    constructor
    · rw [List.getElem?_append_right (by omega)]; simp
    · rw [List.getElem?_append_right (by omega), show pre.length + 1 - pre.length = 0 + 1 by omega]; rfl
  have hr : rfind (pre ++ ':' :: ':' :: (ident ++ args)) (findLt (pre ++ ':' :: ':' :: (ident ++ args))) = some pre.length := by
    have hf : findLt (pre ++ ':' :: ':' :: (ident ++ args)) = (findLt args).map (· + (pre.length + 2 + ident.length)) := by
      rw [← e, findLt_append (by simp [hp, hl])]
      congr 1
      funext x
      simp
      omega
    rw [hf]
    simp only [rfind]
    rw [if_neg (by omega)]
    rcases ha with rfl | ha
    · simp only [findLt, Option.map_none]
      exact rfindFrom_some (by omega) hat (fun k h1 _ => no_colon hi (.inl rfl) h1 (by simp))
    · cases args with
      | nil => cases ha
      | cons c args =>
        simp only [List.head?_cons, Option.some.injEq] at ha
        subst ha
        simp only [findLt, if_true, Option.map_some]
        exact rfindFrom_some (by simp only [List.length_cons] at hlen; omega) hat (fun k h1 h2 => no_colon hi (.inr rfl) h1 (fun _ => by omega))
  rw [e]
  simp only [namespaceName, className, hr]
  exact ⟨by simp, by rw [← List.drop_drop, List.drop_left]; rfl⟩

/-- C197.  A class outside of namespaces. -/
theorem unqualified_partial {ident args : List Char} (hi : ':' ∉ ident) (hl : '<' ∉ ident) (ha : args = [] ∨ args.head? = some '<') :
    namespaceName (ident ++ args) = [] ∧ className (ident ++ args) = ident ++ args := by
  have hn : ∀ k, (args ≠ [] → k ≤ ident.length) → at2 (ident ++ args) k = false := by
    intro k hk
    rw [← Bool.not_eq_true, at2_iff]
    rintro ⟨h, _⟩
    by_cases h' : k < ident.length
    · rw [List.getElem?_append_left h'] at h
      exact hi (List.mem_of_getElem? h)
    · rw [List.getElem?_append_right (by omega)] at h
      rcases ha with rfl | ha
      · simp at h
      · have : args ≠ [] := by intro h; rw [h] at ha; cases ha
        have := hk this
        rw [show k - ident.length = 0 by omega, ← List.head?_eq_getElem?, ha] at h
        exact absurd h (by decide)
  have hr : rfind (ident ++ args) (findLt (ident ++ args)) = none := by
    rw [findLt_append hl]
    simp only [rfind]
    split
    · rfl
    · rcases ha with rfl | ha
      · simp only [findLt, Option.map_none]
        exact rfindFrom_none (fun k _ => hn k (by simp))
      · cases args with
        | nil => cases ha
        | cons c args =>
          simp only [List.head?_cons, Option.some.injEq] at ha
          subst ha
          simp only [findLt, if_true, Option.map_some]
          exact rfindFrom_none (fun k hk => hn k (fun _ => by omega))
  rw [namespaceName, className, hr]
  exact ⟨rfl, rfl⟩

/-- C197 does not hold for a class within a template: of `a::T<int>::C` the class name is said to be `T<int>::C`, and `T<int>::C` is said to be outside of everything. -/
theorem within_template_violated : className "a::T<int>::C".toList = "T<int>::C".toList ∧ namespaceName "T<int>::C".toList = [] ∧ className "T<int>::C".toList = "T<int>::C".toList := by decide +kernel

/-- C197.  A name the system cannot demangle is shown as it is. -/
theorem raw {cxa : List Char → Option (List Char)} {s : List Char} : (cxa s = none → demangle cxa s = s) ∧ ∀ r, cxa s = some r → demangle cxa s = r :=
  ⟨fun h => by rw [demangle, h], fun r h => by rw [demangle, h]⟩

example : namespaceName "a::b::map<c::d, e::f>".toList = "a::b".toList ∧ className "a::b::map<c::d, e::f>".toList = "map<c::d, e::f>".toList := by decide +kernel

end Verif.Util.TypeNames

import Verif.Meta.Bind
import Verif.Meta.TupleProps
/-
C132: `Bind` is substitution.
-/
namespace Verif.Meta.Bnd

open Verif.Meta.TypeList

namespace Spec

/-- What the user writes: a placeholder (`arg 0` is `_1`), a value, or `Bind(f, ...)`. -/
inductive Expr (F V : Type) where
  | arg (n : Nat)
  | val (v : V)
  | app (f : F) (es : List (Expr F V))

/-- Perfect forwarding, except that a const rvalue arrives as a const lvalue. -/
def forwarded {V : Type} (r : Ref V) : Ref V := if r.cat = .constRval then ⟨r.obj, .constLval⟩ else r

/-- The lvalue of the same object. -/
def asLvalue {V : Type} (r : Ref V) : Ref V :=
  if r.cat = .rval then ⟨r.obj, .lval⟩ else if r.cat = .constRval then ⟨r.obj, .constLval⟩ else r

mutual
/-- Value of one argument: substitute the arguments of the call for placeholders, call nested functors with the same arguments (as lvalues if they return references). -/
def eval {F V : Type} (sem : F → List (Ref V) → Option (Ref V)) (refRet : F → Bool) (env : List (Ref V)) : Expr F V → Option (Ref V)
  | .arg n => env[n]?.map forwarded
  | .val v => some ⟨v, .constLval⟩
  | .app f es => (evalAll sem refRet (if refRet f then env.map asLvalue else env) es).bind (sem f)

def evalAll {F V : Type} (sem : F → List (Ref V) → Option (Ref V)) (refRet : F → Bool) (env : List (Ref V)) : List (Expr F V) → Option (List (Ref V))
  | [] => some []
  | e :: es => (eval sem refRet env e).bind (fun r => (evalAll sem refRet env es).map (fun rs => r :: rs))
end

end Spec

variable {F V : Type}

mutual
/-- Writing the expression in C++: inner calls of `Bind` first. -/
def write : Spec.Expr F V → Option (Arg F V)
  | .arg n => some (.ph n)
  | .val v => some (.obj (.value v))
  | .app f es => match writeAll es with
    | none => none
    | some as => match bind f as with
      | none => none
      | some b => some (.obj b)

def writeAll : List (Spec.Expr F V) → Option (List (Arg F V))
  | [] => some []
  | e :: es => match write e, writeAll es with
    | some a, some as => some (a :: as)
    | _, _ => none
end

/-- Numbers of bound parameters, counted from the front. -/
def numbersFrom (c : Nat) : List Nat → List Int
  | [] => []
  | 0 :: ks => (c : Int) :: numbersFrom (c + 1) ks
  | (_ + 1) :: ks => -1 :: numbersFrom c ks

theorem boundTotal_eq (ks : List Nat) : boundTotal ks = (ks.filter (fun k => decide (k = 0))).length := by
  rw [boundTotal, copyIf_eq, length_eq]

theorem boundNumbers_eq (total : Nat) : ∀ (ks : List Nat) (c : Nat), c + (ks.filter (fun k => decide (k = 0))).length = total →
    boundNumbers total ks = (numbersFrom c ks, (c : Int)) := by
  intro ks
  induction ks with
  | nil => intro c h; simp at h; simp [boundNumbers, numbersFrom, h]
  | cons k ks ih =>
    intro c h
    cases k with
    | zero =>
      simp at h
      have := ih (c + 1) (by omega)
      simp only [boundNumbers, this, numbersFrom]
      simp
    | succ k =>
      simp at h
      have := ih c h
      simp only [boundNumbers, this, numbersFrom]
      simp

def objOf : Arg F V → Option (Stored F V)
  | .ph _ => none
  | .obj s => some s

theorem total_args (args : List (Arg F V)) : ((args.map isPlaceholder).filter (fun k => decide (k = 0))).length = (args.filterMap objOf).length := by
  induction args with
  | nil => rfl
  | cons a args ih => cases a <;> simp [isPlaceholder, objOf, ih, List.filterMap_cons]

theorem cutter_lemma : ∀ (args : List (Arg F V)) (c k : Nat),
    (match indexOf (numbersFrom c (args.map isPlaceholder)) ((c + k : Nat) : Int) 0 with
      | none => none
      | some i => (args[i]?).bind objOf) = (args.filterMap objOf)[k]? := by
  intro args
  induction args with
  | nil => intro c k; simp [numbersFrom, indexOf]
  | cons a args ih =>
    intro c k
    cases a with
    | ph n =>
      have h := ih c k
      simp only [List.map_cons, isPlaceholder, numbersFrom, indexOf, objOf, List.filterMap_cons]
      rw [if_neg (by omega), ← h]
      cases indexOf (numbersFrom c (args.map isPlaceholder)) ((c + k : Nat) : Int) 0 <;> simp
    | obj s =>
      simp only [List.map_cons, isPlaceholder, numbersFrom, indexOf, objOf, List.filterMap_cons]
      cases k with
      | zero => simp [objOf]
      | succ k =>
        have h := ih (c + 1) k
        rw [if_neg (by omega), List.getElem?_cons_succ, ← h]
        rw [show c + (k + 1) = c + 1 + k by omega]
        cases indexOf (numbersFrom (c + 1) (args.map isPlaceholder)) ((c + 1 + k : Nat) : Int) 0 <;> simp

theorem cutterGet_eq (args : List (Arg F V)) (k : Nat) : cutterGet args k = (args.filterMap objOf)[k]? := by
  have h := cutter_lemma args 0 k
  rw [Nat.zero_add] at h
  rw [cutterGet, transform_eq, boundTotal_eq, boundNumbers_eq _ _ 0 (Nat.zero_add _), ← h]
  simp only []
  cases indexOf (numbersFrom 0 (args.map isPlaceholder)) (k : Int) 0 with
  | none => rfl
  | some i =>
    simp only [item_eq]
    cases args[i]? with
    | none => rfl
    | some a => cases a <;> rfl

theorem gather_eq {β : Type} (g : Nat → Option β) : ∀ (l : List β) (i : Nat), (∀ j, j < l.length → g (i + j) = l[j]?) → gather g l.length i = some l := by
  intro l
  induction l with
  | nil => intro i _; rfl
  | cons x l ih =>
    intro i h
    have h0 := h 0 (by simp)
    simp only [Nat.add_zero, List.getElem?_cons_zero] at h0
    have h1 := ih (i + 1) (by
      intro j hj
      have := h (j + 1) (by simp; omega)
      rw [show i + 1 + j = i + (j + 1) by omega, this]; simp)
    simp only [List.length_cons, gather, h0, h1]

theorem bind_eq (f : F) (args : List (Arg F V)) : bind f args = some (.binder f (args.map isPlaceholder) (args.filterMap objOf)) := by
  have h : gather (cutterGet args) (args.filterMap objOf).length 0 = some (args.filterMap objOf) := by
    apply gather_eq
    intro j _
    rw [Nat.zero_add]; exact cutterGet_eq args j
  rw [bind, transform_eq, boundTotal_eq, total_args, h]

/-- Value of one argument of a binder when it is called. -/
def argValue (sem : F → List (Ref V) → Option (Ref V)) (refRet : F → Bool) (env : List (Ref V)) : Arg F V → Option (Ref V)
  | .ph n => env[n]?.map Spec.forwarded
  | .obj (.value v) => some ⟨v, .constLval⟩
  | .obj (.binder f ks b) => call sem refRet (.binder f ks b) (if refRet f then env.map Spec.asLvalue else env)

theorem pass_forwarded (r : Ref V) : passPlaceholder r = Spec.forwarded r := by
  obtain ⟨o, c⟩ := r; cases c <;> rfl

theorem passConst_asLvalue (r : Ref V) : passConstTuple r = Spec.asLvalue r := by
  obtain ⟨o, c⟩ := r; cases c <;> rfl

theorem bounds_eq (sem : F → List (Ref V) → Option (Ref V)) (refRet : F → Bool) (env : List (Ref V)) : ∀ (l : List (Stored F V)),
    bounds sem refRet l env = l.map (fun s => argValue sem refRet env (.obj s)) := by
  intro l
  have ht : transform passConstTuple env = env.map Spec.asLvalue := by
    rw [transform_eq]; exact List.map_congr_left (fun r _ => passConst_asLvalue r)
  induction l with
  | nil => simp [bounds]
  | cons s l ih =>
    cases s with
    | value v => simp [bounds, ih, argValue]
    | binder f ks b =>
      simp only [bounds, ih, ht, List.map_cons, argValue]
      by_cases h : refRet f <;> simp [h]

theorem select_lemma (sem : F → List (Ref V) → Option (Ref V)) (refRet : F → Bool) (env : List (Ref V)) (results : List (Option (Ref V))) :
    ∀ (args : List (Arg F V)) (c : Nat), results.drop c = (args.filterMap objOf).map (fun s => argValue sem refRet env (.obj s)) →
    ∀ i, select (args.map isPlaceholder) (numbersFrom c (args.map isPlaceholder)) results env i = (args[i]?).bind (argValue sem refRet env) := by
  intro args
  induction args with
  | nil => intro c h i; simp [select, item]
  | cons a args ih =>
    intro c h i
    cases a with
    | ph n =>
      cases i with
      | zero =>
        simp only [select, List.map_cons, isPlaceholder, item, argValue, List.getElem?_cons_zero, Option.bind_some]
        rw [item_eq]
        cases env[n]? with
        | none => rfl
        | some r => simp [pass_forwarded]
      | succ i =>
        have := ih c (by simpa [objOf, List.filterMap_cons] using h) i
        simpa [select, isPlaceholder, numbersFrom, item] using this
    | obj s =>
      cases i with
      | zero =>
        simp only [select, List.map_cons, isPlaceholder, item, numbersFrom, List.getElem?_cons_zero, Option.bind_some]
        have hr : results[c]? = some (argValue sem refRet env (.obj s)) := by
          have h0 : (results.drop c)[0]? = some (argValue sem refRet env (.obj s)) := by rw [h]; simp [objOf]
          simpa using h0
        show (match item results c with | some r => r | none => none) = _
        rw [item_eq, hr]
      | succ i =>
        have hd : results.drop (c + 1) = (args.filterMap objOf).map (fun s => argValue sem refRet env (.obj s)) := by
          have h1 : (results.drop c).drop 1 = (args.filterMap objOf).map (fun s => argValue sem refRet env (.obj s)) := by rw [h]; simp [objOf]
          rw [List.drop_drop] at h1; exact h1
        have := ih (c + 1) hd i
        simpa [select, isPlaceholder, numbersFrom, item] using this

/-- All values, if there are all. -/
def sequence {β : Type} : List (Option β) → Option (List β)
  | [] => some []
  | none :: _ => none
  | some x :: l => (sequence l).map (fun r => x :: r)

theorem gather_sequence {β : Type} (g : Nat → Option β) : ∀ (l : List (Option β)) (i : Nat), (∀ j, j < l.length → g (i + j) = (l[j]?).join) →
    gather g l.length i = sequence l := by
  intro l
  induction l with
  | nil => intro i _; rfl
  | cons x l ih =>
    intro i h
    have h0 := h 0 (by simp)
    simp only [Nat.add_zero, List.getElem?_cons_zero, Option.join_some] at h0
    have h1 := ih (i + 1) (by
      intro j hj
      have := h (j + 1) (by simp; omega)
      rw [show i + 1 + j = i + (j + 1) by omega, this]; simp)
    simp only [List.length_cons, gather, h0, h1]
    cases x with
    | none => simp [sequence]
    | some x => cases hs : sequence l <;> simp [sequence, hs]

theorem call_binder (sem : F → List (Ref V) → Option (Ref V)) (refRet : F → Bool) (f : F) (args : List (Arg F V)) (env : List (Ref V)) :
    call sem refRet (.binder f (args.map isPlaceholder) (args.filterMap objOf)) env = (sequence (args.map (argValue sem refRet env))).bind (sem f) := by
  have h : gatherParams (args.map isPlaceholder) (bounds sem refRet (args.filterMap objOf) env) env = sequence (args.map (argValue sem refRet env)) := by
    rw [gatherParams, boundTotal_eq, boundNumbers_eq _ _ 0 (Nat.zero_add _), length_eq, List.length_map]
    have := gather_sequence (select (args.map isPlaceholder) (numbersFrom 0 (args.map isPlaceholder)) (bounds sem refRet (args.filterMap objOf) env) env)
      (args.map (argValue sem refRet env)) 0 (by
        intro j hj
        rw [Nat.zero_add, select_lemma sem refRet env _ args 0 (by rw [List.drop_zero, bounds_eq]) j, List.getElem?_map]
        cases args[j]? <;> simp)
    rw [List.length_map] at this
    exact this
  simp only [call, h]
  cases sequence (args.map (argValue sem refRet env)) <;> rfl

mutual
theorem write_spec (sem : F → List (Ref V) → Option (Ref V)) (refRet : F → Bool) : ∀ (e : Spec.Expr F V),
    ∃ a, write e = some a ∧ ∀ env, argValue sem refRet env a = Spec.eval sem refRet env e
  | .arg n => ⟨.ph n, rfl, fun env => by simp [argValue, Spec.eval]⟩
  | .val v => ⟨.obj (.value v), rfl, fun env => by simp [argValue, Spec.eval]⟩
  | .app f es => by
    obtain ⟨as, h1, h2⟩ := writeAll_spec sem refRet es
    refine ⟨.obj (.binder f (as.map isPlaceholder) (as.filterMap objOf)), ?_, ?_⟩
    · simp only [write, h1, bind_eq]
    · intro env
      simp only [argValue, call_binder, h2, Spec.eval]

theorem writeAll_spec (sem : F → List (Ref V) → Option (Ref V)) (refRet : F → Bool) : ∀ (es : List (Spec.Expr F V)),
    ∃ as, writeAll es = some as ∧ ∀ env, sequence (as.map (argValue sem refRet env)) = Spec.evalAll sem refRet env es
  | [] => ⟨[], rfl, fun env => by simp [sequence, Spec.evalAll]⟩
  | e :: es => by
    obtain ⟨a, h1, h2⟩ := write_spec sem refRet e
    obtain ⟨as, h3, h4⟩ := writeAll_spec sem refRet es
    refine ⟨a :: as, by simp only [writeAll, h1, h3], ?_⟩
    intro env
    simp only [List.map_cons, h2, Spec.evalAll]
    cases Spec.eval sem refRet env e with
    | none => simp [sequence]
    | some r => simp [sequence, h4]
end

/-- **C132.**  `Bind(f, e1, ..., en)`, nested at any depth, always can be formed, and calling it calls f with the values of the expressions after substitution of the
arguments of the call for the placeholders; nested binders are called with the same arguments.  Arguments beyond the last placeholder are ignored, a placeholder without argument
does not compile.  For every effect of the functors. -/
theorem bind_is_substitution (f : F) (es : List (Spec.Expr F V)) : ∃ as b, writeAll es = some as ∧ bind f as = some b ∧
    ∀ (sem : F → List (Ref V) → Option (Ref V)) (refRet : F → Bool) (params : List (Ref V)),
      call sem refRet b params = (Spec.evalAll sem refRet params es).bind (sem f) := by
  obtain ⟨as, h1, _⟩ := writeAll_spec (fun _ _ => none) (fun _ => false) es
  refine ⟨as, _, h1, bind_eq f as, ?_⟩
  intro sem refRet params
  obtain ⟨as', h2, h3⟩ := writeAll_spec sem refRet es
  rw [h1] at h2; obtain rfl := Option.some.inj h2
  rw [call_binder, h3]

theorem paramsCount_eq : ∀ (ks : List Nat), (∀ k, k ∈ ks → k ≤ paramsCount ks) ∧ (paramsCount ks = 0 ∨ paramsCount ks ∈ ks) := by
  intro ks
  induction ks with
  | nil => simp [paramsCount]
  | cons k ks ih =>
    obtain ⟨h1, h2⟩ := ih
    simp only [paramsCount]
    by_cases h : paramsCount ks > k
    · rw [if_pos h]
      refine ⟨?_, ?_⟩
      · intro x hx
        rcases List.mem_cons.mp hx with rfl | hx
        · omega
        · exact h1 x hx
      · rcases h2 with h2 | h2
        · omega
        · exact Or.inr (List.mem_cons_of_mem _ h2)
    · rw [if_neg h]
      refine ⟨?_, Or.inr List.mem_cons_self⟩
      intro x hx
      rcases List.mem_cons.mp hx with rfl | hx
      · omega
      · have := h1 x hx; omega

theorem paramTypes_get {τ : Type} (original : List τ) (ks : List Nat) : ∀ (n i j : Nat), j < n → (paramTypes original ks n i)[j]? = some (paramType original ks (i + j)) := by
  intro n
  induction n with
  | zero => intro i j h; omega
  | succ n ih =>
    intro i j h
    cases j with
    | zero => rfl
    | succ j =>
      simp only [paramTypes, List.getElem?_cons_succ]
      rw [ih (i + 1) j (by omega), show i + 1 + j = i + (j + 1) by omega]

theorem paramTypes_length {τ : Type} (original : List τ) (ks : List Nat) : ∀ (n i : Nat), (paramTypes original ks n i).length = n := by
  intro n
  induction n with
  | zero => intro i; rfl
  | succ n ih => intro i; simp [paramTypes, ih]

/-- **C132.**  The declared parameters of `Bind(f, args...)`: as many as the largest placeholder written directly; parameter j has the type of the parameter of f at which its
placeholder is first used, and any type if it is not used. -/
theorem declared_parameters {τ : Type} (original : List τ) (args : List (Arg F V)) :
    (∀ n, .ph n ∈ args → n < paramsCount (args.map isPlaceholder)) ∧
    (∀ c, paramsCount (args.map isPlaceholder) = c + 1 → .ph c ∈ args) ∧
    (paramTypes original (args.map isPlaceholder) (paramsCount (args.map isPlaceholder)) 0).length = paramsCount (args.map isPlaceholder) ∧
    ∀ j, j < paramsCount (args.map isPlaceholder) →
      ((∀ i, (paramTypes original (args.map isPlaceholder) (paramsCount (args.map isPlaceholder)) 0)[j]? = some (some (original[i]?)) ∨ ¬ (args[i]? = some (.ph j) ∧ .ph j ∉ args.take i)) ∧
       ((paramTypes original (args.map isPlaceholder) (paramsCount (args.map isPlaceholder)) 0)[j]? = some none ↔ .ph j ∉ args)) := by
  have hk : ∀ (l : List (Arg F V)) (n : Nat), n + 1 ∈ l.map isPlaceholder ↔ Arg.ph n ∈ l := by
    intro l n
    rw [List.mem_map]
    constructor
    · rintro ⟨a, h1, h2⟩
      cases a with
      | ph m => simp only [isPlaceholder, Nat.add_right_cancel_iff] at h2; subst h2; exact h1
      | obj s => simp [isPlaceholder] at h2
    · intro h; exact ⟨_, h, rfl⟩
  obtain ⟨m1, m2⟩ := paramsCount_eq (args.map isPlaceholder)
  refine ⟨?_, ?_, paramTypes_length _ _ _ _, ?_⟩
  · intro n h
    have := m1 (n + 1) ((hk args n).mpr h)
    omega
  · intro c h
    rcases m2 with m2 | m2
    · omega
    · rw [h] at m2; exact (hk args c).mp m2
  · intro j hj
    rw [paramTypes_get original _ _ 0 j hj, Nat.zero_add]
    constructor
    · intro i
      rcases Classical.em (args[i]? = some (Arg.ph j) ∧ Arg.ph j ∉ args.take i) with ⟨h1, h2⟩ | h
      · left
        have : indexOf (args.map isPlaceholder) (j + 1) 0 = some i := by
          rw [indexOf_spec]
          refine ⟨by rw [List.getElem?_map, h1]; rfl, ?_⟩
          rw [List.count_eq_zero, ← List.map_take]
          exact fun hc => h2 ((hk _ j).mp hc)
        simp only [paramType, this, item_eq]
      · exact Or.inr h
    · have hn : indexOf (args.map isPlaceholder) (j + 1) 0 = none ↔ Arg.ph j ∉ args := by
        rw [indexOf_none, Nat.le_zero_eq, List.count_eq_zero, hk]
      rw [← hn]
      simp only [paramType]
      cases indexOf (args.map isPlaceholder) (j + 1) 0 <;> simp

/-- Placeholders of nested binders are not among the declared parameters: `Bind(f, Bind(g, _1))` declares none, but cannot be called without one. -/
theorem nested_placeholders_not_declared_violated : ∃ (args : List (Arg Bool Nat)), writeAll [.app true [.arg 0]] = some args ∧
    paramsCount (args.map isPlaceholder) = 0 ∧
    ∃ b, bind false args = some b ∧ (∀ sem refRet, call sem refRet b [] = none) ∧
      ∃ sem refRet r, (call sem refRet b [⟨5, .lval⟩]) = some r := by
  refine ⟨[.obj (.binder true [1] [])], by simp [writeAll, write, bind_eq, isPlaceholder, objOf], rfl, _, bind_eq _ _, ?_, fun _ _ => some ⟨7, .rval⟩, fun _ => false, ⟨7, .rval⟩, ?_⟩
  · intro sem refRet
    rw [call_binder]
    simp only [List.map_cons, List.map_nil, argValue, call, gatherParams]
    simp [boundTotal, boundNumbers, copyIf, length, gather, select, item, sequence]
  · rw [call_binder]
    simp [argValue, call, gatherParams, boundTotal, boundNumbers, copyIf, length, gather, select, item, sequence]

/-- A placeholder used twice gives the functor two rvalue references to the same object, so it may be moved from twice. -/
theorem rvalue_twice_violated (f : F) (x : V) : ∃ b, bind f [.ph 0, .ph 0] = some b ∧
    ∀ (sem : F → List (Ref V) → Option (Ref V)) refRet, call sem refRet b [⟨x, .rval⟩] = sem f [⟨x, .rval⟩, ⟨x, .rval⟩] := by
  refine ⟨_, bind_eq _ _, ?_⟩
  intro sem refRet
  rw [call_binder]
  simp [argValue, Spec.forwarded, sequence]

example : ∃ b, bind (F := Bool) (V := Nat) true [.ph 1, .obj (.value 5), .ph 0] = some b ∧
    ∀ sem refRet, call sem refRet b [⟨1, .rval⟩, ⟨2, .lval⟩, ⟨3, .lval⟩] = sem true [⟨2, .lval⟩, ⟨5, .constLval⟩, ⟨1, .rval⟩] := by
  refine ⟨_, bind_eq _ _, ?_⟩
  intro sem refRet
  rw [call_binder]
  simp [argValue, Spec.forwarded, sequence]

end Verif.Meta.Bnd

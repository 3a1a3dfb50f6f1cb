import Verif.Util.Factory

/-
C157: a factory creates, for every name, the class first registered under it in the nearest context.
-/
namespace Verif.Factory

/-! ### Specification

The history of a context is the list of the calls of `Register` on it: names and classes. -/

/-- The class of the first registration under a name. -/
def firstClass (name : String) : List (String × Nat) → Option Nat
  | [] => none
  | (n, t) :: calls => if n = name then some t else firstClass name calls

/-- The registrations that are the first under their name; `seen` are the names used before. -/
def effective (seen : List String) : List (String × Nat) → List (String × Nat)
  | [] => []
  | (n, t) :: calls => if n ∈ seen then effective seen calls else (n, t) :: effective (n :: seen) calls

/-- The name of the first of the given registrations of a class. -/
def firstName (cls : Nat) : List (String × Nat) → Option String
  | [] => none
  | (n, t) :: regs => if t = cls then some n else firstName cls regs

/-- The first context of a chain that knows an answer gives it. -/
def nearest {α : Type} : List (Option α) → Option α
  | [] => none
  | some a :: _ => some a
  | none :: rest => nearest rest

/-- A context after a history of calls. -/
def history (calls : List (String × Nat)) : Ctx := calls.foldl Ctx.after Ctx.empty

/-! ### Lemmas -/

theorem find_append {κ ν : Type} [DecidableEq κ] (k : κ) (a b : List (κ × ν)) :
    find k (a ++ b) = match find k a with | some v => some v | none => find k b := by
  induction a with
  | nil => rfl
  | cons p a ih =>
    simp only [List.cons_append, find]
    split
    · rfl
    · exact ih

theorem effective_congr (a b : List String) (h : ∀ n, n ∈ a ↔ n ∈ b) (calls : List (String × Nat)) :
    effective a calls = effective b calls := by
  induction calls generalizing a b with
  | nil => rfl
  | cons p calls ih =>
    obtain ⟨n, t⟩ := p
    simp only [effective]
    by_cases hn : n ∈ a
    · rw [if_pos hn, if_pos ((h n).mp hn)]; exact ih a b h
    · rw [if_neg hn, if_neg (fun hb => hn ((h n).mpr hb))]
      rw [ih (n :: a) (n :: b) (by simp [h])]

/-- the state after further calls, from any state in terms of what it holds -/
theorem run_facts (calls : List (String × Nat)) (c : Ctx) :
    (∀ name, find name (calls.foldl Ctx.after c).creators =
      match find name c.creators with | some t => some t | none => firstClass name calls) ∧
    (∀ cls, find cls (calls.foldl Ctx.after c).classNames =
      match find cls c.classNames with
      | some n => some n
      | none => firstName cls (effective (c.creators.map Prod.fst) calls)) := by
  have hmem : ∀ (n : String) (m : List (String × Nat)), n ∈ m.map Prod.fst ↔ find n m ≠ none := by
    intro n m
    induction m with
    | nil => simp [find]
    | cons p m ih =>
      simp only [List.map_cons, List.mem_cons, find]
      by_cases h : p.1 = n
      · simp [h]
      · rw [if_neg h, ← ih]
        exact ⟨fun h' => h'.elim (fun h' => absurd h'.symm h) id, .inr⟩
  induction calls generalizing c with
  | nil =>
    refine ⟨fun name => ?_, fun cls => ?_⟩
    · simp only [List.foldl_nil, firstClass]; split <;> simp_all
    · simp only [List.foldl_nil, effective, firstName]; split <;> simp_all
  | cons p calls ih =>
    obtain ⟨n, t⟩ := p
    rw [List.foldl_cons]
    obtain ⟨ih1, ih2⟩ := ih (c.after (n, t))
    cases hf : find n c.creators with
    | some t0 =>
      have ha : c.after (n, t) = c := by simp [Ctx.after, Ctx.register, hf]
      rw [ha] at ih1 ih2 ⊢
      refine ⟨fun name => ?_, fun cls => ?_⟩
      · rw [ih1 name]
        cases hn : find name c.creators with
        | some _ => rfl
        | none =>
          have : n ≠ name := by rintro rfl; rw [hf] at hn; cases hn
          simp only [firstClass, if_neg this]
      · rw [ih2 cls]
        have : n ∈ c.creators.map Prod.fst := (hmem n _).mpr (by rw [hf]; simp)
        simp only [effective, if_pos this]
    | none =>
      have hcr : (c.after (n, t)).creators = c.creators ++ [(n, t)] := by simp [Ctx.after, Ctx.register, hf]
      have hcl : (c.after (n, t)).classNames = match find t c.classNames with
             | none => c.classNames ++ [(t, n)]
             | some _ => c.classNames := by simp only [Ctx.after, Ctx.register, hf, Option.getD_some]; rfl
      have hnot : n ∉ c.creators.map Prod.fst := fun h => (hmem n _).mp h hf
      refine ⟨fun name => ?_, fun cls => ?_⟩
      · rw [ih1 name, hcr, find_append]
        cases hn : find name c.creators with
        | some _ => rfl
        | none =>
          simp only [find, firstClass]
          by_cases hnn : n = name
          · simp [hnn]
          · simp [hnn]
      · rw [ih2 cls, hcl, hcr]
        simp only [effective, if_neg hnot, firstName]
        rw [effective_congr ((c.creators ++ [(n, t)]).map Prod.fst) (n :: c.creators.map Prod.fst) (by simp; grind)]
        cases ht : find t c.classNames with
        | some n0 =>
          simp only []
          cases hc : find cls c.classNames with
          | some _ => rfl
          | none =>
            have : t ≠ cls := by rintro rfl; rw [ht] at hc; cases hc
            simp only [if_neg this]
        | none =>
          simp only [find_append]
          cases hc : find cls c.classNames with
          | some _ => rfl
          | none =>
            simp only [find]
            by_cases htc : t = cls
            · simp [htc]
            · simp [htc]

theorem create_nearest (name : String) (hs : List (List (String × Nat))) :
    create name (hs.map history) = nearest (hs.map (firstClass name)) := by
  induction hs with
  | nil => rfl
  | cons h hs ih =>
    have := (run_facts h Ctx.empty).1 name
    simp only [List.map_cons, create]
    rw [show find name (history h).creators = firstClass name h from this]
    cases firstClass name h with
    | some _ => rfl
    | none => exact ih

/-- **C157** For every chain of contexts and every history of each: `Create(name)` makes an object of
the class that was registered first under this name in the nearest context that has it, and throws if none has. -/
theorem create_exact (name : String) (hs : List (List (String × Nat))) :
    create name (hs.map history) = nearest (hs.map (firstClass name)) :=
  create_nearest name hs

/-- **C157** ... and `Create<T>(name)` returns that object if it is a `T`, and throws otherwise: it never returns
an object of another class. -/
theorem create_as_exact (derives : Nat → Nat → Bool) (wanted : Nat) (name : String) (hs : List (List (String × Nat))) (t : Nat) :
    createAs derives wanted name (hs.map history) = some t ↔
      nearest (hs.map (firstClass name)) = some t ∧ derives t wanted = true := by
  unfold createAs
  rw [create_nearest]
  cases nearest (hs.map (firstClass name)) with
  | none => simp
  | some u =>
    simp only [Option.some.injEq]
    by_cases hd : derives u wanted = true
    · rw [if_pos hd]
      exact ⟨fun h => by (cases h; exact ⟨rfl, hd⟩), fun h => by rw [h.1]⟩
    · rw [if_neg hd]
      exact ⟨fun h => (by cases h), fun h => absurd (h.1 ▸ h.2) hd⟩

/-- **C157** `GetClassName` is the name of the first effective registration of the class in the
nearest context that has one; a registration under a name already used has no effect. -/
theorem class_name_exact (cls : Nat) (hs : List (List (String × Nat))) :
    getClassName cls (hs.map history) = nearest (hs.map (fun h => firstName cls (effective [] h))) := by
  induction hs with
  | nil => rfl
  | cons h hs ih =>
    have := (run_facts h Ctx.empty).2 cls
    simp only [List.map_cons, getClassName]
    rw [show find cls (history h).classNames = firstName cls (effective [] h) from this]
    cases firstName cls (effective [] h) with
    | some _ => rfl
    | none => exact ih

/-- **C157** A registration throws exactly if its name was registered in this context before, and then changes nothing. -/
theorem register_throws_iff (calls : List (String × Nat)) (name : String) (cls : Nat) :
    ((history calls).register name cls = none ↔ name ∈ calls.map Prod.fst) ∧
    ((history calls).register name cls = none → (history calls).after (name, cls) = history calls) := by
  have h1 : find name (history calls).creators = firstClass name calls := (run_facts calls Ctx.empty).1 name
  have h2 : firstClass name calls = none ↔ name ∉ calls.map Prod.fst := by
    clear h1
    induction calls with
    | nil => simp [firstClass]
    | cons p calls ih =>
      obtain ⟨n, t⟩ := p
      simp only [firstClass, List.map_cons, List.mem_cons]
      by_cases hn : n = name
      · simp [hn]
      · rw [if_neg hn, ih]
        exact ⟨fun h h' => h'.elim (fun h' => hn h'.symm) h, fun h h' => h (.inr h')⟩
  refine ⟨?_, ?_⟩
  · unfold Ctx.register
    rw [h1]
    cases hf : firstClass name calls with
    | none => simp only []; exact ⟨fun h => by simp at h, fun h => absurd h (h2.mp hf)⟩
    | some _ =>
      simp only [true_iff]
      apply Classical.byContradiction
      intro hn
      rw [h2.mpr hn] at hf; cases hf
  · intro h; simp [Ctx.after, h]

theorem effective_first {cls : Nat} {name : String} (seen : List String) (calls : List (String × Nat))
    (h : firstName cls (effective seen calls) = some name) : name ∉ seen ∧ firstClass name calls = some cls := by
  induction calls generalizing seen with
  | nil => simp [effective, firstName] at h
  | cons p calls ih =>
    obtain ⟨n, t⟩ := p
    simp only [effective] at h
    by_cases hn : n ∈ seen
    · rw [if_pos hn] at h
      obtain ⟨h1, h2⟩ := ih _ h
      have : n ≠ name := by rintro rfl; exact h1 hn
      exact ⟨h1, by simp only [firstClass, if_neg this]; exact h2⟩
    · rw [if_neg hn] at h
      simp only [firstName] at h
      by_cases ht : t = cls
      · rw [if_pos ht] at h
        cases h
        exact ⟨hn, by simp [firstClass, ht]⟩
      · rw [if_neg ht] at h
        obtain ⟨h1, h2⟩ := ih _ h
        simp only [List.mem_cons, not_or] at h1
        exact ⟨h1.2, by rw [firstClass, if_neg (fun h : n = name => h1.1 h.symm)]; exact h2⟩

/-- **C157** In a context without a base, `Create(GetClassName(T))` makes a `T`: for every history.  A class that was
registered under a fresh name has a name. -/
theorem round_trip_partial (calls : List (String × Nat)) (cls : Nat) (name : String)
    (h : getClassName cls [history calls] = some name) : create name [history calls] = some cls := by
  have h1 := class_name_exact cls [calls]
  have h2 := create_exact name [calls]
  simp only [List.map_cons, List.map_nil] at h1 h2
  rw [h1] at h
  cases hf : firstName cls (effective [] calls) with
  | none => rw [hf] at h; simp [nearest] at h
  | some n =>
    rw [hf] at h
    simp only [nearest, Option.some.injEq] at h
    subst h
    rw [h2, (effective_first [] calls hf).2]; rfl

example : getClassName 1 [history [("a", 1), ("b", 1), ("a", 2), ("c", 2)]] = some "a" ∧
    getClassName 2 [history [("a", 1), ("b", 1), ("a", 2), ("c", 2)]] = some "c" ∧
    create "b" [history [("a", 1), ("b", 1), ("a", 2), ("c", 2)]] = some 1 := by decide

/-- **C157** With a base context the round trip fails: a context that registers another class under a name
the base uses makes `Create(GetClassName(T))` an object of that other class. -/
theorem round_trip_violated :
    ∃ local' base : List (String × Nat), getClassName 1 [history local', history base] = some "a" ∧
      create "a" [history local', history base] = some 2 :=
  ⟨[("a", 2)], [("a", 1)], by decide⟩

end Verif.Factory

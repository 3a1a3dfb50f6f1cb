import Verif.Enum.Props

/-!
# C115: queries over an enumerable answer as over the list of its items; an enumerable as a range

`fuel` is the iteration bound of the model; every theorem only asks it to exceed the number of items.
-/

namespace Verif.Enum

variable {σ τ α β ρ : Type} {A : Machine σ α}

/-- The loop over the items themselves -/
def over (body : β → α → ρ ⊕ β) : List α → β → ρ ⊕ β
  | [], b => .inr b
  | x :: xs, b => match body b x with
    | .inl r => .inl r
    | .inr b => over body xs b

theorem loop_over (body : β → α → ρ ⊕ β) {s : σ} {xs : List α} (h : Yields A s xs) :
    ∀ fuel b, xs.length < fuel → loop A body fuel s b = some (over body xs b) := by
  induction h with
  | nil s hv =>
    intro fuel b hf
    obtain ⟨f, rfl⟩ : ∃ f, fuel = f + 1 := ⟨fuel - 1, by omega⟩
    rw [loop, if_neg (by rw [hv]; exact Bool.false_ne_true)]
    rfl
  | cons s x s' xs hv hg hn _ ih =>
    intro fuel b hf
    obtain ⟨f, rfl⟩ : ∃ f, fuel = f + 1 := ⟨fuel - 1, by omega⟩
    rw [List.length_cons] at hf
    rw [loop, if_pos hv, hg, Option.bind_some, over]
    cases body b x with
    | inl r => rfl
    | inr b => rw [hn]; exact ih f b (by omega)

/-- **C115.** `Aggregate` folds the items in order -/
theorem aggregate_eq {s : σ} {xs : List α} (h : Yields A s xs) (fuel : Nat) (hf : xs.length < fuel) (init : β)
    (f : β → α → β) : aggregate A fuel s init f = some (xs.foldl f init) := by
  rw [aggregate, loop_over _ h fuel init hf, Option.bind_some]
  have : ∀ b, over (fun b x => (.inr (f b x) : Empty ⊕ β)) xs b = .inr (xs.foldl f b) := by
    clear h hf
    induction xs with
    | nil => intro b; rfl
    | cons x xs ih => intro b; exact ih _
  rw [this]

/-- One step of `Aggregate` without an initial value -/
def step1 (f : α → α → α) : Option α → α → Option α
  | some y, x => some (f y x)
  | none, x => some x

theorem foldl_some (f : α → α → α) (xs : List α) (x : α) : xs.foldl (step1 f) (some x) = some (xs.foldl f x) := by
  induction xs generalizing x with
  | nil => rfl
  | cons y xs ih => exact ih _

/-- `Aggregate` without an initial value: the fold started from the first item, null when there is none -/
theorem aggregate1_eq {s : σ} {xs : List α} (h : Yields A s xs) (fuel : Nat) (hf : xs.length < fuel) (f : α → α → α) :
    aggregate1 A fuel s f = some (match xs with | [] => none | x :: xs => some (xs.foldl f x)) := by
  have e : aggregate1 A fuel s f = aggregate A fuel s none (step1 f) := by
    rw [aggregate1]
    congr 1
    funext b x
    cases b <;> rfl
  rw [e, aggregate_eq h fuel hf]
  cases xs with
  | nil => rfl
  | cons x xs =>
    exact congrArg some (foldl_some f xs x)

/-- `All` -/
theorem all_eq {s : σ} {xs : List α} (h : Yields A s xs) (fuel : Nat) (hf : xs.length < fuel) (p : α → Bool) :
    all A fuel s p = some (xs.all p) := by
  rw [all, loop_over _ h fuel () hf, Option.map_some]
  congr 1
  clear h hf
  induction xs with
  | nil => rfl
  | cons x xs ih =>
    rw [over, List.all_cons]
    by_cases hp : p x
    · rw [if_pos hp, hp, Bool.true_and]; exact ih
    · rw [if_neg hp, Bool.eq_false_iff.mpr hp]; rfl

/-- `Any` and `Contains` -/
theorem any_eq {s : σ} {xs : List α} (h : Yields A s xs) (fuel : Nat) (hf : xs.length < fuel) (p : α → Bool) :
    any A fuel s p = some (xs.any p) := by
  rw [any, loop_over _ h fuel () hf, Option.map_some]
  congr 1
  clear h hf
  induction xs with
  | nil => rfl
  | cons x xs ih =>
    rw [over, List.any_cons]
    by_cases hp : p x
    · rw [if_pos hp, hp]; rfl
    · rw [if_neg hp, Bool.eq_false_iff.mpr hp, Bool.false_or]; exact ih

/-- `Count` -/
theorem count_eq {s : σ} {xs : List α} (h : Yields A s xs) (fuel : Nat) (hf : xs.length < fuel) (p : α → Bool) :
    count A fuel s p = some (xs.countP p) := by
  rw [count, aggregate_eq h fuel hf]
  congr 1
  have : ∀ n, xs.foldl (fun n x => if p x then n + 1 else n) n = n + xs.countP p := by
    clear h hf
    induction xs with
    | nil => intro n; rfl
    | cons x xs ih =>
      intro n
      rw [List.foldl_cons, ih, List.countP_cons]
      by_cases hp : p x <;> simp [hp] <;> omega
  rw [this, Nat.zero_add]

/-- `IndexOf`: the position of the first item that satisfies the predicate -/
theorem indexOf_eq {s : σ} {xs : List α} (h : Yields A s xs) (fuel : Nat) (hf : xs.length < fuel) (p : α → Bool) :
    indexOf A fuel s p = some (xs.findIdx? p) := by
  rw [indexOf, loop_over _ h fuel 0 hf, Option.map_some]
  congr 1
  have : ∀ n, over (fun n x => if p x then Sum.inl n else .inr (n + 1)) xs n =
      match xs.findIdx? p with | some i => .inl (n + i) | none => .inr (n + xs.length) := by
    clear h hf
    induction xs with
    | nil => intro n; rfl
    | cons x xs ih =>
      intro n
      rw [over, List.findIdx?_cons]
      by_cases hp : p x
      · rw [if_pos hp, if_pos hp]; rfl
      · rw [if_neg hp, if_neg hp]
        show over _ xs (n + 1) = _
        rw [ih]
        cases xs.findIdx? p with
        | none => exact congrArg Sum.inr (by rw [List.length_cons]; omega)
        | some i => exact congrArg Sum.inl (by simp only []; omega)
  rw [this]
  cases xs.findIdx? p with
  | none => rfl
  | some i => exact congrArg some (Nat.zero_add i)

/-- `ElementAtOrDefault`, `ElementAt` -/
theorem elementAt_eq {s : σ} {xs : List α} (h : Yields A s xs) (fuel : Nat) (hf : xs.length < fuel) (i : Nat) :
    elementAt A fuel s i = some xs[i]? := by
  rw [elementAt, loop_over _ h fuel 0 hf, Option.map_some]
  congr 1
  have : ∀ n, n ≤ i → over (fun n x => if i = n then Sum.inl x else .inr (n + 1)) xs n =
      match xs[i - n]? with | some x => .inl x | none => .inr (n + xs.length) := by
    clear h hf
    induction xs with
    | nil => intro n _; rfl
    | cons x xs ih =>
      intro n hn
      rw [over]
      by_cases hp : i = n
      · rw [if_pos hp, hp, Nat.sub_self]; rfl
      · rw [if_neg hp]
        show over _ xs (n + 1) = _
        rw [ih (n + 1) (by omega), show i - n = i - (n + 1) + 1 by omega, List.getElem?_cons_succ]
        cases xs[i - (n + 1)]? with
        | none => exact congrArg Sum.inr (by rw [List.length_cons]; omega)
        | some i => rfl
  rw [this 0 (Nat.zero_le _), Nat.sub_zero]
  cases xs[i]? with
  | none => rfl
  | some i => rfl

/-- `FirstOrDefault`, `First`, `Find`: the first item that satisfies the predicate -/
theorem firstOf_eq {s : σ} {xs : List α} (h : Yields A s xs) (fuel : Nat) (hf : xs.length < fuel) (p : α → Bool) :
    firstOf A fuel s p = some (xs.find? p) := by
  rw [firstOf, loop_over _ h fuel () hf, Option.map_some]
  congr 1
  clear h hf
  induction xs with
  | nil => rfl
  | cons x xs ih =>
    rw [over, List.find?_cons]
    by_cases hp : p x
    · rw [if_pos hp, hp]
    · rw [if_neg hp, Bool.eq_false_iff.mpr hp]; exact ih

/-- `LastOrDefault`, `Last`: the last item that satisfies the predicate -/
theorem lastOf_eq {s : σ} {xs : List α} (h : Yields A s xs) (fuel : Nat) (hf : xs.length < fuel) (p : α → Bool) :
    lastOf A fuel s p = some (xs.reverse.find? p) := by
  rw [lastOf, aggregate_eq h fuel hf]
  congr 1
  have : ∀ b : Option α, xs.foldl (fun b x => if p x then some x else b) b = (xs.reverse.find? p).or b := by
    clear h hf
    induction xs with
    | nil => intro b; rfl
    | cons x xs ih =>
      intro b
      rw [List.foldl_cons, ih, List.reverse_cons, List.find?_append]
      cases xs.reverse.find? p with
      | some y => rfl
      | none =>
        rw [Option.none_or, Option.none_or, List.find?_cons]
        by_cases hp : p x <;> simp [hp]
  rw [this, Option.or_none]

/-- `Single` gives the item of an enumerable that has exactly one and throws otherwise -/
theorem single_iff {s : σ} {xs : List α} (h : Yields A s xs) (x : α) : single A s = some x ↔ xs = [x] := by
  rw [single]
  cases h with
  | nil _ hv =>
    rw [if_neg (by rw [hv]; exact Bool.false_ne_true)]
    exact ⟨(fun e => nomatch e), (fun e => nomatch e)⟩
  | cons _ y s' ys hv hg hn h =>
    rw [if_pos hv, hg, hn, Option.bind_some, Option.bind_some]
    cases h with
    | nil _ hv' =>
      rw [if_neg (by rw [hv']; exact Bool.false_ne_true)]
      exact ⟨fun e => by cases e; rfl, fun e => by cases e; rfl⟩
    | cons _ _ _ _ hv' =>
      rw [if_pos hv']
      exact ⟨(fun e => nomatch e), (fun e => nomatch e)⟩

/-- The copy made by `Clone` and `Reverse` has all the items in order -/
theorem drain_eq {s : σ} {xs : List α} (h : Yields A s xs) (fuel : Nat) (hf : xs.length < fuel) :
    drain A fuel s = some xs := by
  rw [drain, aggregate_eq h fuel hf]
  congr 1
  have : ∀ l, xs.foldl (fun l x => l ++ [x]) l = l ++ xs := by
    clear h hf
    induction xs with
    | nil => intro l; exact (List.append_nil l).symm
    | cons x xs ih =>
      intro l
      rw [List.foldl_cons, ih, List.append_assoc]
      rfl
  rw [this, List.nil_append]

/-- `SequenceEqual`: as many items, pairwise equal -/
theorem sequenceEqual_eq {B : Machine τ β} (eq : α → β → Bool) {s : σ} {xs : List α} (h : Yields A s xs) :
    ∀ {t : τ} {ys : List β}, Yields B t ys → ∀ fuel, xs.length < fuel →
      ∃ r, sequenceEqual A B eq fuel s t = some r ∧
        (r = true ↔ xs.length = ys.length ∧ ∀ p ∈ xs.zip ys, eq p.1 p.2 = true) := by
  induction h with
  | nil s hv =>
    intro t ys k fuel hf
    obtain ⟨f, rfl⟩ : ∃ f, fuel = f + 1 := ⟨fuel - 1, by omega⟩
    rw [sequenceEqual, hv]
    refine ⟨_, rfl, ?_⟩
    rw [k.valid]
    cases ys with
    | nil => exact ⟨fun _ => ⟨rfl, fun p hp => nomatch hp⟩, fun _ => rfl⟩
    | cons y ys => exact ⟨(fun e => nomatch e), (fun e => nomatch e.1)⟩
  | cons s x s' xs hv hg hn _ ih =>
    intro t ys k fuel hf
    obtain ⟨f, rfl⟩ : ∃ f, fuel = f + 1 := ⟨fuel - 1, by omega⟩
    rw [List.length_cons] at hf
    rw [sequenceEqual, hv]
    cases k with
    | nil _ kv =>
      rw [kv]
      exact ⟨_, rfl, (fun e => nomatch e), (fun e => nomatch e.1)⟩
    | cons _ y t' ys kv kg kn k =>
      rw [kv, if_pos (show (true && true) = true from rfl), hg, kg, Option.bind_some, Option.bind_some]
      by_cases he : eq x y
      · rw [if_pos he, hn, kn, Option.bind_some, Option.bind_some]
        obtain ⟨r, hr, hb⟩ := ih k f (by omega)
        refine ⟨r, hr, hb.trans ?_⟩
        rw [List.zip_cons_cons, List.length_cons, List.length_cons, List.forall_mem_cons]
        exact ⟨fun ⟨a, b⟩ => ⟨by omega, he, b⟩, fun ⟨a, _, b⟩ => ⟨by omega, b⟩⟩
      · rw [if_neg he]
        refine ⟨_, rfl, (fun e => nomatch e), fun ⟨_, b⟩ => ?_⟩
        exact absurd (b (x, y) (by rw [List.zip_cons_cons]; exact List.mem_cons_self ..)) he

example : count (where_ (ofList Nat) (fun x => x % 2 = 0) 9) 9 ([2, 3, 4, 5], some 2) (fun x => decide (2 < x)) = some 1 := by
  decide

example : ∃ w, Yields (where_ (ofList Nat) (fun x => x % 2 = 0) 9) w [2, 4] ∧
    indexOf (where_ (ofList Nat) (fun x => x % 2 = 0) 9) 9 w (· == 4) = some (some 1) := by
  obtain ⟨w, _, h⟩ := where_yields (fun x => decide (x % 2 = 0)) (ofList_yields [1, 2, 3, 4]) 9 (by decide)
  exact ⟨w, h, indexOf_eq h 9 (by decide) _⟩

/-! ## An enumerable as a range -/

/-- The range stands at position `r.index` of the items `xs`: it has the items from there on -/
def At (A : Machine σ α) (xs : List α) (r : Rng σ) : Prop := r.index ≤ xs.length ∧ Yields A r.s (xs.drop r.index)

/-- `First` puts the range at the beginning -/
theorem rFirst_at {init : σ} {xs : List α} (h : Yields A init xs) : At A xs (rFirst init) := ⟨Nat.zero_le _, h⟩

/-- A range is valid exactly before the end, and gives the item at its position -/
theorem at_get {xs : List α} {r : Rng σ} (h : At A xs r) :
    (A.valid r.s = true ↔ r.index < xs.length) ∧ A.get r.s = xs[r.index]? := by
  obtain ⟨hi, h⟩ := h
  have hl : (xs.drop r.index).length = xs.length - r.index := List.length_drop ..
  have hg : (xs.drop r.index)[0]? = xs[r.index]? := by rw [List.getElem?_drop, Nat.add_zero]
  generalize xs.drop r.index = d at h hl hg
  rw [← hg]
  cases h with
  | nil _ hv hg' => exact ⟨by rw [hv]; exact ⟨(fun e => nomatch e), fun e => by rw [List.length_nil] at hl; omega⟩, hg'⟩
  | cons _ _ _ _ hv hg' => exact ⟨⟨fun _ => by rw [List.length_cons] at hl; omega, fun _ => hv⟩, hg'⟩

/-- `Next` moves one position forward and throws at the end -/
theorem rNext_at {xs : List α} {r : Rng σ} (h : At A xs r) :
    if r.index < xs.length then ∃ r', rNext A r = some r' ∧ r'.index = r.index + 1 ∧ At A xs r'
    else rNext A r = none := by
  obtain ⟨hi, h⟩ := h
  have hl : (xs.drop r.index).length = xs.length - r.index := List.length_drop ..
  have hd : (xs.drop r.index).drop 1 = xs.drop (r.index + 1) := by rw [List.drop_drop]
  generalize xs.drop r.index = d at h hl hd
  unfold rNext
  cases h with
  | nil _ hv hg hn =>
    rw [List.length_nil] at hl
    rw [if_neg (by omega), hn]
    rfl
  | cons _ x s' ys hv hg hn h =>
    rw [List.length_cons] at hl
    rw [if_pos (by omega), hn]
    refine ⟨⟨s', r.index + 1⟩, rfl, rfl, by simp only []; omega, ?_⟩
    simp only []
    rw [← hd]
    exact h

theorem rCopyLoop_at {xs : List α} (target : Nat) (ht : target ≤ xs.length) :
    ∀ (n fuel : Nat) (r : Rng σ), At A xs r → r.index + n = target → n < fuel →
      ∃ r', rCopyLoop A target fuel r = some r' ∧ r'.index = target ∧ At A xs r' := by
  intro n
  induction n with
  | zero =>
    intro fuel r h hn hf
    obtain ⟨f, rfl⟩ : ∃ f, fuel = f + 1 := ⟨fuel - 1, by omega⟩
    rw [rCopyLoop, if_neg (fun e => e (by omega))]
    exact ⟨r, rfl, by omega, h⟩
  | succ n ih =>
    intro fuel r h hn hf
    obtain ⟨f, rfl⟩ : ∃ f, fuel = f + 1 := ⟨fuel - 1, by omega⟩
    have hx := rNext_at h
    rw [if_pos (by omega)] at hx
    obtain ⟨r', hr, hi, ha⟩ := hx
    rw [rCopyLoop, if_pos (by omega), hr, Option.bind_some]
    exact ih f r' ha (by omega) (by omega)

/-- A copy of a range stands at the same position and gives the same items -/
theorem rCopy_at {init : σ} {xs : List α} (h : Yields A init xs) {r : Rng σ} (hr : At A xs r) (fuel : Nat)
    (hf : xs.length < fuel) : ∃ r', rCopy A init fuel r = some r' ∧ r'.index = r.index ∧ At A xs r' :=
  rCopyLoop_at r.index hr.1 r.index fuel (rFirst init) (rFirst_at h) (by rw [rFirst]; simp) (Nat.lt_of_le_of_lt hr.1 hf)

theorem rLastLoop_at {xs : List α} :
    ∀ (n fuel : Nat) (r prev : Rng σ), At A xs r → At A xs prev → r.index + n = xs.length → n < fuel →
      (prev.index = r.index ∧ (0 < n ∨ xs = [])) ∨ (n = 0 ∧ prev.index + 1 = xs.length) →
      ∃ r', rLastLoop A fuel r prev = some r' ∧ r'.index = xs.length - 1 ∧ At A xs r' := by
  intro n
  induction n with
  | zero =>
    intro fuel r prev h hp hn hf hc
    obtain ⟨f, rfl⟩ : ∃ f, fuel = f + 1 := ⟨fuel - 1, by omega⟩
    rw [rLastLoop, if_neg (fun e => by have := (at_get h).1.mp e; omega)]
    refine ⟨prev, rfl, ?_, hp⟩
    rcases hc with ⟨e, hc⟩ | ⟨_, hc⟩
    · rcases hc with hc | hc
      · omega
      · subst hc
        rw [List.length_nil] at hn ⊢
        omega
    · omega
  | succ n ih =>
    intro fuel r prev h hp hn hf hc
    obtain ⟨f, rfl⟩ : ∃ f, fuel = f + 1 := ⟨fuel - 1, by omega⟩
    rw [rLastLoop, if_pos ((at_get h).1.mpr (by omega))]
    have hx := rNext_at h
    rw [if_pos (by omega)] at hx
    obtain ⟨r', hr, hi, ha⟩ := hx
    rw [hr, Option.bind_some]
    by_cases h0 : n = 0
    · rw [if_neg (fun e => by have := (at_get ha).1.mp e; omega)]
      exact ih f r' prev ha hp (by omega) (by omega) (.inr ⟨h0, by omega⟩)
    · have hpi : prev.index = r.index := by omega
      rw [if_pos ((at_get ha).1.mpr (by omega))]
      have hy := rNext_at hp
      rw [if_pos (by omega)] at hy
      obtain ⟨p', hpr, hpi', hpa⟩ := hy
      rw [hpr, Option.bind_some]
      exact ih f r' p' ha hpa (by omega) (by omega) (.inl ⟨by omega, .inl (by omega)⟩)

/-- `Last` stands at the last item; for no items it stands at the beginning, which is the end -/
theorem rLast_at {init : σ} {xs : List α} (h : Yields A init xs) (fuel : Nat) (hf : xs.length < fuel) :
    ∃ r, rLast A init fuel = some r ∧ r.index = xs.length - 1 ∧ At A xs r ∧ A.get r.s = xs.getLast? := by
  have hp : rCopy A init 1 (rFirst init) = some (rFirst init) := rfl
  have : ∃ r, rLast A init fuel = some r ∧ r.index = xs.length - 1 ∧ At A xs r := by
    rw [rLast, hp, Option.bind_some]
    apply rLastLoop_at xs.length fuel _ _ (rFirst_at h) (rFirst_at h) (Nat.zero_add _) hf
    left
    refine ⟨rfl, ?_⟩
    cases xs with
    | nil => exact .inr rfl
    | cons => exact .inl (Nat.succ_pos _)
  obtain ⟨r, hr, hi, ha⟩ := this
  exact ⟨r, hr, hi, ha, by rw [(at_get ha).2, hi, List.getLast?_eq_getElem?]⟩

/-- `Equals`: at the same position -/
theorem rEquals_iff (a b : Rng σ) : rEquals a b = true ↔ a.index = b.index := beq_iff_eq

example : ∃ r, rLast (ofList Nat) [4, 5, 6] 9 = some r ∧ r.index = 2 ∧ (ofList Nat).get r.s = some 6 := by
  obtain ⟨r, h, hi, _, hg⟩ := rLast_at (ofList_yields [4, 5, 6]) 9 (by decide)
  exact ⟨r, h, hi, hg⟩

end Verif.Enum

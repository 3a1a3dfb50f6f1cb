import Verif.Enum.Model

/-!
# C114: enumerators and their adaptors give exactly the right items

`Yields A s xs`: from state `s` the enumerator gives the items `xs` in order, is valid as long as there is one,
and at the end refuses `Get` and `Next`.
-/

namespace Verif.Enum

/-- What a user of an enumerator sees -/
inductive Yields {σ α : Type} (A : Machine σ α) : σ → List α → Prop
  | nil (s : σ) (hv : A.valid s = false) (hg : A.get s = none) (hn : A.next s = none) : Yields A s []
  | cons (s : σ) (x : α) (s' : σ) (xs : List α) (hv : A.valid s = true) (hg : A.get s = some x) (hn : A.next s = some s')
    (h : Yields A s' xs) : Yields A s (x :: xs)

variable {σ τ α β : Type} {A : Machine σ α}

/-- The items are determined by the enumerator -/
theorem Yields.unique {s : σ} {xs ys : List α} (h : Yields A s xs) (k : Yields A s ys) : xs = ys := by
  induction h generalizing ys with
  | nil s hv =>
    cases k with
    | nil => rfl
    | cons _ _ _ _ hv' => rw [hv] at hv'; cases hv'
  | cons s x s' xs hv hg hn _ ih =>
    cases k with
    | nil _ hv' => rw [hv] at hv'; cases hv'
    | cons _ y t ys _ hg' hn' k' =>
      rw [hg] at hg'
      rw [hn] at hn'
      cases hg'
      cases hn'
      rw [ih k']

theorem Yields.valid {s : σ} {xs : List α} (h : Yields A s xs) : A.valid s = !xs.isEmpty := by
  cases h with
  | nil _ hv => exact hv
  | cons _ _ _ _ hv => exact hv

/-- **C114.** Containers -/
theorem ofList_yields (l : List α) : Yields (ofList α) l l := by
  induction l with
  | nil => exact .nil _ rfl rfl rfl
  | cons x l ih => exact .cons _ x l l rfl rfl rfl ih

theorem empty_yields : Yields (empty α) () [] := .nil _ rfl rfl rfl

theorem one_yields (x : α) : Yields (one x) true [x] := .cons _ x false [] rfl rfl rfl (.nil _ rfl rfl rfl)

theorem join_over (A : Machine σ α) (B : Machine τ α) : Yields (join A B) .over [] := .nil _ rfl rfl rfl

theorem join_last (A : Machine σ α) {B : Machine τ α} {t : τ} {ys : List α} (h : Yields B t ys) :
    Yields (join A B) (.last t) ys := by
  induction h with
  | nil t hv hg hn => exact .nil _ hv hg (by show (B.next t).map _ = none; rw [hn]; rfl)
  | cons t y t' ys hv hg hn h ih =>
    refine .cons _ y _ ys hv hg (by show (B.next t).map _ = _; rw [hn]; rfl) ?_
    show Yields (join A B) (if B.valid t' then .last t' else .over) _
    cases h with
    | nil _ hv' => rw [if_neg (by rw [hv']; exact Bool.false_ne_true)]; exact join_over A B
    | cons _ _ _ _ hv' => rw [if_pos hv']; exact ih

/-- `Concat`, `JoinEnumerators`: the items of the first, then those of the second -/
theorem join_yields {B : Machine τ α} {s : σ} {t : τ} {xs ys : List α} (h : Yields A s xs) (k : Yields B t ys) :
    Yields (join A B) (joinInit A s t) (xs ++ ys) := by
  induction h with
  | nil s hv => rw [joinInit, if_neg (by rw [hv]; exact Bool.false_ne_true)]; exact join_last A k
  | cons s x s' xs hv hg hn h ih =>
    rw [joinInit, if_pos hv]
    exact .cons _ x _ _ hv hg (by show (A.next s).map _ = _; rw [hn]; rfl) ih

theorem findNext_yields (c : α → β) (p : α → Bool) (F : Nat) {s : σ} {xs : List α} (h : Yields A s xs) :
    ∀ fuel, xs.length < fuel → xs.length < F →
      ∃ w, findNext A p fuel s = some w ∧ Yields (wrap A c p F) w ((xs.filter p).map c) := by
  induction h with
  | nil s hv hg hn =>
    intro fuel hf _
    obtain ⟨f, rfl⟩ : ∃ f, fuel = f + 1 := ⟨fuel - 1, by omega⟩
    exact ⟨(s, none), by rw [findNext, if_neg (by rw [hv]; exact Bool.false_ne_true)], .nil _ rfl rfl rfl⟩
  | cons s x s' xs hv hg hn _ ih =>
    intro fuel hf hF
    obtain ⟨f, rfl⟩ : ∃ f, fuel = f + 1 := ⟨fuel - 1, by omega⟩
    rw [List.length_cons] at hf hF
    rw [findNext, if_pos hv, hg, Option.bind_some]
    by_cases hp : p x
    · obtain ⟨w, hw, hy⟩ := ih F (by omega) (by omega)
      rw [if_pos hp]
      refine ⟨_, rfl, ?_⟩
      rw [List.filter_cons_of_pos hp]
      exact .cons _ (c x) w _ rfl rfl (by show (A.next s).bind _ = _; rw [hn]; exact hw) hy
    · obtain ⟨w, hw, hy⟩ := ih f (by omega) (by omega)
      rw [if_neg hp, hn, Option.bind_some]
      exact ⟨w, hw, by rw [List.filter_cons_of_neg hp]; exact hy⟩

/-- `WrapEnumerator`: the items that pass the filter, converted -/
theorem wrap_yields (c : α → β) (p : α → Bool) {s : σ} {xs : List α} (h : Yields A s xs) (F : Nat) (hF : xs.length < F) :
    ∃ w, findNext A p F s = some w ∧ Yields (wrap A c p F) w ((xs.filter p).map c) :=
  findNext_yields c p F h F hF hF

/-- `Where`: the items that satisfy the predicate -/
theorem where_yields (p : α → Bool) {s : σ} {xs : List α} (h : Yields A s xs) (F : Nat) (hF : xs.length < F) :
    ∃ w, findNext A p F s = some w ∧ Yields (where_ A p F) w (xs.filter p) := by
  have := wrap_yields id p h F hF
  simpa [where_] using this

/-- `Transform` -/
theorem transform_yields (f : α → β) {s : σ} {xs : List α} (h : Yields A s xs) : Yields (transform A f) s (xs.map f) := by
  induction h with
  | nil s hv hg hn => exact .nil _ hv (by show (A.get s).map f = _; rw [hg]; rfl) hn
  | cons s x s' xs hv hg hn _ ih => exact .cons _ (f x) s' _ hv (by show (A.get s).map f = _; rw [hg]; rfl) hn ih

/-- `Cast`, when every item can be cast -/
theorem cast_yields (c : α → Option β) {s : σ} {xs : List α} (h : Yields A s xs) (hc : ∀ x ∈ xs, c x ≠ none) :
    Yields (cast A c) s (xs.filterMap c) := by
  induction h with
  | nil s hv hg hn =>
    exact .nil _ hv (by show (if A.valid s then _ else none) = _; rw [if_neg (by rw [hv]; exact Bool.false_ne_true)]) hn
  | cons s x s' xs hv hg hn _ ih =>
    cases hx : c x with
    | none => exact absurd hx (hc x (List.mem_cons_self ..))
    | some y =>
      rw [List.filterMap_cons, hx]
      refine .cons _ y s' _ hv ?_ hn (ih fun z hz => hc z (List.mem_cons_of_mem _ hz))
      show (if A.valid s then _ else none) = _
      rw [if_pos hv, hg]
      exact hx

/-- An item of another class makes `Get` of a casting enumerator throw -/
theorem cast_throws (c : α → Option β) {s : σ} {x : α} {xs : List α} (h : Yields A s (x :: xs)) (hc : c x = none) :
    (cast A c).get s = none := by
  cases h with
  | cons _ _ _ _ hv hg =>
    show (if A.valid s then _ else none) = _
    rw [if_pos hv, hg]
    exact hc

theorem findType_yields (c : α → Option β) (F : Nat) {s : σ} {xs : List α} (h : Yields A s xs) :
    ∀ fuel dst, xs.length < fuel → xs.length < F →
      ∃ w, findType A c fuel s dst = some w ∧ Yields (ofType A c F) w (xs.filterMap c) := by
  induction h with
  | nil s hv hg hn =>
    intro fuel dst hf _
    obtain ⟨f, rfl⟩ : ∃ f, fuel = f + 1 := ⟨fuel - 1, by omega⟩
    refine ⟨(s, dst), by rw [findType, if_neg (by rw [hv]; exact Bool.false_ne_true)], .nil _ hv ?_ ?_⟩
    · show (if A.valid s then dst else none) = none
      rw [if_neg (by rw [hv]; exact Bool.false_ne_true)]
    · show (A.next s).bind _ = none
      rw [hn]; rfl
  | cons s x s' xs hv hg hn _ ih =>
    intro fuel dst hf hF
    obtain ⟨f, rfl⟩ : ∃ f, fuel = f + 1 := ⟨fuel - 1, by omega⟩
    rw [List.length_cons] at hf hF
    rw [findType, if_pos hv, hg, Option.bind_some, List.filterMap_cons]
    cases hc : c x with
    | some y =>
      obtain ⟨w, hw, hy⟩ := ih F (some y) (by omega) (by omega)
      refine ⟨_, rfl, .cons _ y w _ hv ?_ ?_ hy⟩
      · show (if A.valid s then some y else none) = _
        rw [if_pos hv]
      · show (A.next s).bind _ = _
        rw [hn]; exact hw
    | none =>
      obtain ⟨w, hw, hy⟩ := ih f none (by omega) (by omega)
      rw [hn, Option.bind_some]
      exact ⟨w, hw, hy⟩

/-- `OfType`: the items of the class, cast -/
theorem ofType_yields (c : α → Option β) {s : σ} {xs : List α} (h : Yields A s xs) (F : Nat) (hF : xs.length < F) :
    ∃ w, findType A c F s none = some w ∧ Yields (ofType A c F) w (xs.filterMap c) :=
  findType_yields c F h F none hF hF

/-- `Skip`: all but the first items -/
theorem skip_yields {s : σ} {xs : List α} (h : Yields A s xs) (n : Nat) :
    ∃ s', skip A n s = some s' ∧ Yields A s' (xs.drop n) := by
  induction n generalizing s xs with
  | zero => exact ⟨s, rfl, h⟩
  | succ n ih =>
    cases h with
    | nil _ hv hg hn => exact ⟨s, by rw [skip, if_neg (by rw [hv]; exact Bool.false_ne_true)], .nil _ hv hg hn⟩
    | cons _ x s' xs hv hg hn h =>
      rw [skip, if_pos hv, hn]
      exact ih h

theorem take_from (count : Nat) {s : σ} {xs : List α} (h : Yields A s xs) (i : Nat) (hi : i ≤ count) :
    Yields (take A count) (s, i) (xs.take (count - i)) := by
  induction h generalizing i with
  | nil s hv hg hn =>
    rw [List.take_nil]
    exact .nil _ (by simp [take, hv]) (by simp [take, hv]) (by simp [take, hv])
  | cons s x s' xs hv hg hn _ ih =>
    by_cases h : i < count
    · obtain ⟨m, hm⟩ : ∃ m, count - i = m + 1 := ⟨count - i - 1, by omega⟩
      rw [hm, List.take_succ_cons]
      refine .cons _ x (s', i + 1) _ (by simp [take, hv, h]) (by simp [take, hv, h, hg]) (by simp [take, hv, h, hn]) ?_
      have := ih (i + 1) (by omega)
      rwa [show count - (i + 1) = m by omega] at this
    · rw [show count - i = 0 by omega, List.take_zero]
      exact .nil _ (by simp [take, h]) (by simp [take, h]) (by simp [take, h])

/-- `Take`: the first items -/
theorem take_yields (count : Nat) {s : σ} {xs : List α} (h : Yields A s xs) : Yields (take A count) (s, 0) (xs.take count) :=
  take_from count h 0 (Nat.zero_le _)

theorem flatten_both {B : Machine τ β} (inner : α → τ) (F : Nat) (s : σ) (rest : List β)
    (hrest : ∃ w, (A.next s).bind (fun s => findInner A B inner F s) = some w ∧ Yields (flatten A B inner F) w rest)
    {t : τ} {ys : List β} (h : Yields B t ys) (hne : ys ≠ []) :
    Yields (flatten A B inner F) (s, some t) (ys ++ rest) := by
  induction h with
  | nil => exact absurd rfl hne
  | cons t y t' ys hv hg hn h ih =>
    have hx : (flatten A B inner F).next (s, some t) =
        (B.next t).bind fun t => if B.valid t then some (s, some t) else (A.next s).bind fun s => findInner A B inner F s := rfl
    rw [hn, Option.bind_some] at hx
    cases h with
    | nil _ hv' =>
      rw [if_neg (by rw [hv']; exact Bool.false_ne_true)] at hx
      obtain ⟨w, hw, hy⟩ := hrest
      exact .cons _ y w rest hv hg (hx.trans hw) hy
    | cons _ z u zs hv' hg' hn' k =>
      rw [if_pos hv'] at hx
      exact .cons _ y _ _ hv hg hx (ih (fun e => nomatch e))

theorem findInner_yields {B : Machine τ β} (inner : α → τ) (items : α → List β) (F : Nat) {s : σ} {xs : List α}
    (h : Yields A s xs) :
    (∀ x ∈ xs, Yields B (inner x) (items x)) → ∀ fuel, xs.length < fuel → xs.length < F →
      ∃ w, findInner A B inner fuel s = some w ∧ Yields (flatten A B inner F) w (xs.flatMap items) := by
  induction h with
  | nil s hv hg hn =>
    intro _ fuel hf _
    obtain ⟨f, rfl⟩ : ∃ f, fuel = f + 1 := ⟨fuel - 1, by omega⟩
    exact ⟨(s, none), by rw [findInner, if_neg (by rw [hv]; exact Bool.false_ne_true)], .nil _ rfl rfl rfl⟩
  | cons s x s' xs hv hg hn _ ih =>
    intro hi fuel hf hF
    obtain ⟨f, rfl⟩ : ∃ f, fuel = f + 1 := ⟨fuel - 1, by omega⟩
    rw [List.length_cons] at hf hF
    rw [findInner, if_pos hv, hg, Option.bind_some, List.flatMap_cons]
    have hx := hi x (List.mem_cons_self ..)
    have hr := ih fun z hz => hi z (List.mem_cons_of_mem _ hz)
    by_cases hb : B.valid (inner x)
    · rw [if_pos hb]
      refine ⟨_, rfl, ?_⟩
      apply flatten_both inner F s _ ?_ hx
      · intro e
        rw [hx.valid, e] at hb
        cases hb
      · rw [hn]
        exact hr F (by omega) (by omega)
    · rw [if_neg hb, hn, Option.bind_some]
      obtain ⟨w, hw, hy⟩ := hr f (by omega) (by omega)
      have e : items x = [] := by
        cases hc : items x with
        | nil => rfl
        | cons a b => exact absurd (by rw [hx.valid, hc]; rfl) hb
      exact ⟨w, hw, by rw [e]; exact hy⟩

/-- `Flatten`: the items of the inner enumerables, in order -/
theorem flatten_yields {B : Machine τ β} (inner : α → τ) (items : α → List β) {s : σ} {xs : List α}
    (h : Yields A s xs) (hi : ∀ x ∈ xs, Yields B (inner x) (items x)) (F : Nat) (hF : xs.length < F) :
    ∃ w, findInner A B inner F s = some w ∧ Yields (flatten A B inner F) w (xs.flatMap items) :=
  findInner_yields inner items F h hi F hF hF

example : ∃ w, findInner (ofList (List Nat)) (ofList Nat) id 9 [[], [1, 2], [], [3], []] = some w ∧
    Yields (flatten (ofList (List Nat)) (ofList Nat) id 9) w [1, 2, 3] :=
  flatten_yields id id (ofList_yields _) (fun x _ => ofList_yields x) 9 (by decide)

/-! ## Diff -/

/-- A three-way comparison is a total order up to equivalence -/
structure IsCmp (cmp : α → α → Int) : Prop where
  anti : ∀ x y, cmp x y < 0 ↔ 0 < cmp y x
  trans : ∀ x y z, cmp x y ≤ 0 → cmp y z < 0 → cmp x z < 0

/-- The removed items among the entries -/
def removedOf : List (Entry α) → List α
  | [] => []
  | .removed x :: es => x :: removedOf es
  | .added _ :: es => removedOf es

/-- The added items among the entries -/
def addedOf : List (Entry α) → List α
  | [] => []
  | .removed _ :: es => addedOf es
  | .added x :: es => x :: addedOf es

/-- Strictly ascending: no two items are equivalent -/
def Ascending (cmp : α → α → Int) (xs : List α) : Prop := xs.Pairwise fun x y => cmp x y < 0

/-- The item of an entry -/
def itemOf : Entry α → α
  | .added x => x
  | .removed x => x

/-- The merge that the enumerator performs -/
inductive Merge (cmp : α → α → Int) : List α → List α → List (Entry α) → Prop
  | nil : Merge cmp [] [] []
  | removed {x xs ys es} (h : ∀ y ∈ ys.head?, cmp x y < 0) (m : Merge cmp xs ys es) : Merge cmp (x :: xs) ys (.removed x :: es)
  | added {xs y ys es} (h : ∀ x ∈ xs.head?, 0 < cmp x y) (m : Merge cmp xs ys es) : Merge cmp xs (y :: ys) (.added y :: es)
  | both {x xs y ys es} (h : cmp x y = 0) (m : Merge cmp xs ys es) : Merge cmp (x :: xs) (y :: ys) es

theorem findDiff_yields {B : Machine τ α} (cmp : α → α → Int) (F : Nat) :
    ∀ (n : Nat) {s : σ} {t : τ} {xs ys : List α}, Yields A s xs → Yields B t ys → xs.length + ys.length = n →
      ∀ fuel, n < fuel → n < F →
      ∃ w es, findDiff A B cmp fuel s t = some w ∧ Merge cmp xs ys es ∧ Yields (diff A B cmp F) w es := by
  intro n
  induction n using Nat.strongRecOn with
  | ind n ih =>
    intro s t xs ys h k hn fuel hf hF
    obtain ⟨f, rfl⟩ : ∃ f, fuel = f + 1 := ⟨fuel - 1, by omega⟩
    have h0 := h
    have k0 := k
    rw [findDiff]
    have rem : ∀ x xs' s', xs = x :: xs' → A.get s = some x → A.next s = some s' → Yields A s' xs' →
        (∀ y ∈ ys.head?, cmp x y < 0) →
        ∃ w es, some (s, t, Kind.removed) = some w ∧ Merge cmp xs ys es ∧ Yields (diff A B cmp F) w es := by
      intro x xs' s' hx hg hnx h' hy
      subst hx
      rw [List.length_cons] at hn
      obtain ⟨w, es, hw, hm, he⟩ := ih (xs'.length + ys.length) (by omega) h' k rfl F (by omega) (by omega)
      refine ⟨_, _, rfl, .removed hy hm, .cons _ _ w _ rfl ?_ ?_ he⟩
      · show (A.get s).map Entry.removed = _
        rw [hg]; rfl
      · show (A.next s).bind _ = _
        rw [hnx]; exact hw
    have add : ∀ y ys' t', ys = y :: ys' → B.get t = some y → B.next t = some t' → Yields B t' ys' →
        (∀ x ∈ xs.head?, 0 < cmp x y) →
        ∃ w es, some (s, t, Kind.added) = some w ∧ Merge cmp xs ys es ∧ Yields (diff A B cmp F) w es := by
      intro y ys' t' hy hg hnx k' hx
      subst hy
      rw [List.length_cons] at hn
      obtain ⟨w, es, hw, hm, he⟩ := ih (xs.length + ys'.length) (by omega) h k' rfl F (by omega) (by omega)
      refine ⟨_, _, rfl, .added hx hm, .cons _ _ w _ rfl ?_ ?_ he⟩
      · show (B.get t).map Entry.added = _
        rw [hg]; rfl
      · show (B.next t).bind _ = _
        rw [hnx]; exact hw
    cases h with
    | nil _ hv =>
      rw [if_neg (by rw [hv]; exact Bool.false_ne_true)]
      cases k with
      | nil _ kv =>
        rw [if_neg (by rw [kv]; exact Bool.false_ne_true)]
        exact ⟨_, [], rfl, .nil, .nil _ rfl rfl rfl⟩
      | cons _ y t' ys kv kg kn k' =>
        rw [if_pos kv]
        exact add y ys t' rfl kg kn k' (fun x hx => nomatch hx)
    | cons _ x s' xs hv hg hnx h' =>
      rw [if_pos hv]
      cases k with
      | nil _ kv =>
        rw [if_neg (by rw [kv]; exact Bool.false_ne_true)]
        exact rem x xs s' rfl hg hnx h' (fun x hx => nomatch hx)
      | cons _ y t' ys kv kg kn k' =>
        rw [if_pos kv, hg, kg, Option.bind_some, Option.bind_some]
        by_cases c1 : cmp x y < 0
        · rw [if_pos c1]
          exact rem x xs s' rfl hg hnx h' (fun z hz => by cases hz; exact c1)
        · rw [if_neg c1]
          by_cases c2 : 0 < cmp x y
          · rw [if_pos c2]
            exact add y ys t' rfl kg kn k' (fun z hz => by cases hz; exact c2)
          · rw [if_neg c2, hnx, kn, Option.bind_some, Option.bind_some]
            rw [List.length_cons, List.length_cons] at hn
            obtain ⟨w, es, hw, hm, he⟩ := ih (xs.length + ys.length) (by omega) h' k' rfl f (by omega) (by omega)
            exact ⟨w, es, hw, .both (by omega) hm, he⟩

theorem IsCmp.flip {cmp : α → α → Int} (c : IsCmp cmp) {x y : α} : 0 < cmp x y ↔ cmp y x < 0 := (c.anti y x).symm

theorem IsCmp.symm {cmp : α → α → Int} (c : IsCmp cmp) {x y : α} (h : cmp x y = 0) : cmp y x = 0 := by
  have := c.anti x y
  have := c.anti y x
  omega

theorem IsCmp.trans' {cmp : α → α → Int} (c : IsCmp cmp) {x y z : α} (h : cmp x y < 0) (k : cmp y z ≤ 0) : cmp x z < 0 := by
  have a := c.anti x z
  have b := c.anti z x
  have d := c.anti z y
  have e := c.anti y z
  by_cases hz : cmp x z < 0
  · exact hz
  · have := c.trans z x y (by omega) h
    omega

theorem head_below {cmp : α → α → Int} (c : IsCmp cmp) {x : α} {ys : List α} (h : ∀ y ∈ ys.head?, cmp x y < 0)
    (hy : Ascending cmp ys) : ∀ y ∈ ys, cmp x y < 0 := by
  cases ys with
  | nil => intro y hy; cases hy
  | cons z ys =>
    have hz := h z rfl
    have := List.pairwise_cons.mp hy
    intro y hy
    cases hy with
    | head => exact hz
    | tail _ hy => exact c.trans _ _ _ (by omega) (this.1 y hy)

theorem Merge.facts {cmp : α → α → Int} (c : IsCmp cmp) {xs ys : List α} {es : List (Entry α)} (m : Merge cmp xs ys es) :
    Ascending cmp xs → Ascending cmp ys →
      removedOf es = (xs.filter fun x => ys.all fun y => decide (cmp x y ≠ 0)) ∧
      addedOf es = (ys.filter fun y => xs.all fun x => decide (cmp x y ≠ 0)) ∧
      (∀ e ∈ es, itemOf e ∈ xs ∨ itemOf e ∈ ys) ∧
      Ascending cmp (es.map itemOf) := by
  induction m with
  | nil => exact fun _ _ => ⟨rfl, rfl, (fun e h => nomatch h), List.Pairwise.nil⟩
  | @removed x xs ys es h m ih =>
    intro hx hy
    have hx' := List.pairwise_cons.mp hx
    obtain ⟨r, a, i, o⟩ := ih hx'.2 hy
    have hb := head_below c h hy
    refine ⟨?_, ?_, ?_, ?_⟩
    · rw [removedOf, r, List.filter_cons_of_pos]
      rw [List.all_eq_true]
      intro y hy
      have := hb y hy
      exact decide_eq_true (by omega)
    · rw [addedOf, a]
      apply List.filter_congr
      intro y hy
      have := hb y hy
      rw [List.all_cons, decide_eq_true (by omega), Bool.true_and]
    · intro e he
      cases he with
      | head => exact .inl (List.mem_cons_self ..)
      | tail _ he => exact (i e he).imp (List.mem_cons_of_mem _) id
    · rw [List.map_cons]
      refine List.pairwise_cons.mpr ⟨?_, o⟩
      intro z hz
      obtain ⟨e, he, rfl⟩ := List.mem_map.mp hz
      exact (i e he).elim (hx'.1 _) (hb _)
  | @added xs y ys es h m ih =>
    intro hx hy
    have hy' := List.pairwise_cons.mp hy
    obtain ⟨r, a, i, o⟩ := ih hx hy'.2
    have hb := head_below (x := y) c (fun x hx => c.flip.mp (h x hx)) hx
    refine ⟨?_, ?_, ?_, ?_⟩
    · rw [removedOf, r]
      apply List.filter_congr
      intro x hx
      have := c.flip.mpr (hb x hx)
      rw [List.all_cons, decide_eq_true (by omega), Bool.true_and]
    · rw [addedOf, a, List.filter_cons_of_pos]
      rw [List.all_eq_true]
      intro x hx
      have := c.flip.mpr (hb x hx)
      exact decide_eq_true (by omega)
    · intro e he
      cases he with
      | head => exact .inr (List.mem_cons_self ..)
      | tail _ he => exact (i e he).imp id (List.mem_cons_of_mem _)
    · rw [List.map_cons]
      refine List.pairwise_cons.mpr ⟨?_, o⟩
      intro z hz
      obtain ⟨e, he, rfl⟩ := List.mem_map.mp hz
      exact (i e he).elim (hb _) (hy'.1 _)
  | @both x xs y ys es h m ih =>
    intro hx hy
    have hx' := List.pairwise_cons.mp hx
    have hy' := List.pairwise_cons.mp hy
    obtain ⟨r, a, i, o⟩ := ih hx'.2 hy'.2
    refine ⟨?_, ?_, ?_, o⟩
    · rw [r, List.filter_cons_of_neg (by simp [h])]
      apply List.filter_congr
      intro z hz
      have := c.flip.mpr (c.trans y x z (by rw [c.symm h]; omega) (hx'.1 z hz))
      rw [List.all_cons, decide_eq_true (by omega), Bool.true_and]
    · rw [a, List.filter_cons_of_neg (by simp [h])]
      apply List.filter_congr
      intro z hz
      have := c.trans x y z (by omega) (hy'.1 z hz)
      rw [List.all_cons, decide_eq_true (by omega), Bool.true_and]
    · intro e he
      exact (i e he).imp (List.mem_cons_of_mem _) (List.mem_cons_of_mem _)

/-- `Diff` of two strictly ascending enumerables: each item of the first without an equivalent in the second is reported
as removed, each item of the second without an equivalent in the first as added, nothing else, in ascending order -/
theorem diff_yields {B : Machine τ α} {cmp : α → α → Int} (c : IsCmp cmp) {s : σ} {t : τ} {xs ys : List α}
    (h : Yields A s xs) (k : Yields B t ys) (hx : Ascending cmp xs) (hy : Ascending cmp ys)
    (F : Nat) (hF : xs.length + ys.length < F) :
    ∃ w es, findDiff A B cmp F s t = some w ∧ Yields (diff A B cmp F) w es ∧
      removedOf es = (xs.filter fun x => ys.all fun y => decide (cmp x y ≠ 0)) ∧
      addedOf es = (ys.filter fun y => xs.all fun x => decide (cmp x y ≠ 0)) ∧
      Ascending cmp (es.map itemOf) := by
  obtain ⟨w, es, hw, hm, he⟩ := findDiff_yields cmp F _ h k rfl F hF hF
  obtain ⟨r, a, _, o⟩ := hm.facts c hx hy
  exact ⟨w, es, hw, he, r, a, o⟩

theorem isCmp_sub : IsCmp fun x y : Int => x - y := ⟨by intros; omega, by intros; omega⟩

example : ∃ w, findDiff (ofList Int) (ofList Int) (fun x y => x - y) 9 [1, 2, 4, 7] [2, 3, 7, 8] = some w ∧
    Yields (diff (ofList Int) (ofList Int) (fun x y => x - y) 9) w [.removed 1, .added 3, .removed 4, .added 8] := by
  exact ⟨_, rfl, .cons _ _ _ _ rfl rfl rfl (.cons _ _ _ _ rfl rfl rfl (.cons _ _ _ _ rfl rfl rfl
    (.cons _ _ _ _ rfl rfl rfl (.nil _ rfl rfl rfl))))⟩

example : Ascending (fun x y : Int => x - y) [1, 2, 4, 7] := by unfold Ascending; decide

/-- When the sources are not ascending the report is wrong: `1` is in both, and is reported as both removed and added -/
theorem diff_unsorted : ∃ w, findDiff (ofList Int) (ofList Int) (fun x y => x - y) 9 [2, 1] [1, 2] = some w ∧
    Yields (diff (ofList Int) (ofList Int) (fun x y => x - y) 9) w [.added 1, .removed 1] :=
  ⟨_, rfl, .cons _ _ _ _ rfl rfl rfl (.cons _ _ _ _ rfl rfl rfl (.nil _ rfl rfl rfl))⟩

end Verif.Enum

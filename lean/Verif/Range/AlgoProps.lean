import Verif.Range.FilterProps
import Verif.Range.ZipProps
import Verif.Range.FlattenProps
/-
The algorithms over ranges and `for`, for every range that obeys the law of `Spec.lean`; chains of adaptors.
-/
namespace Verif.Range

variable {σ τ α β γ : Type}

/-- What a loop over the list does. -/
def Spec.loop (body : β → α → β ⊕ γ) : List α → β → β ⊕ γ
  | [], b => .inl b
  | a :: l, b => match body b a with
    | .inl b => Spec.loop body l b
    | .inr c => .inr c

section
variable {R : Rng σ α} {rep : σ → Nat → Prop} {l : List α}

theorem loop_spec (L : Fwd R rep l) (body : β → α → β ⊕ γ) (n : Nat) {s : σ} {i : Nat} (h : rep s i) (hn : l.length - i < n) (b : β) :
    loop R body n s b = some (Spec.loop body (l.drop i) b) := by
  induction n generalizing s i b with
  | zero => omega
  | succ n ih =>
    simp only [loop, L.valid h]
    by_cases c : i < l.length
    · obtain ⟨t, h1, h2⟩ := L.get h c
      simp only [c, decide_true, if_true, h1, List.drop_eq_getElem_cons c, Spec.loop]
      cases e : body b l[i] with
      | inl b' =>
        obtain ⟨u, h3, h4⟩ := L.next h2 c
        simp only [h3, Option.bind_some]
        exact ih h4 (by omega) b'
      | inr c => rfl
    · simp only [c, decide_false, Bool.false_eq_true, if_false, List.drop_of_length_le (show l.length ≤ i by omega), Spec.loop]

/-- **C88.**  `ForEach` calls the functor for the elements from where the range is to its end, in order, once each. -/
theorem forEach_eq (L : Fwd R rep l) {fuel : Nat} {s : σ} {i : Nat} (h : rep s i) (hn : l.length - i < fuel) : forEach R fuel s = some (l.drop i) := by
  unfold forEach
  rw [loop_spec L _ fuel h hn]
  have key : ∀ (m b : List α), Spec.loop (γ := Empty) (fun b a => .inl (b ++ [a])) m b = .inl (b ++ m) := by
    intro m
    induction m with
    | nil => intro b; simp [Spec.loop]
    | cons a m ih => intro b; simp only [Spec.loop, ih, List.append_assoc, List.singleton_append]
  simp only [key, Option.map_some, List.nil_append]

/-- **C88.** -/
theorem count_eq (L : Fwd R rep l) {fuel : Nat} {s : σ} {i : Nat} (h : rep s i) (hn : l.length - i < fuel) : count R fuel s = some (l.drop i).length := by
  unfold count
  rw [loop_spec L _ fuel h hn]
  have key : ∀ (m : List α) (b : Nat), Spec.loop (γ := Empty) (fun b _ => .inl (b + 1)) m b = .inl (b + m.length) := by
    intro m
    induction m with
    | nil => intro b; simp [Spec.loop]
    | cons a m ih => intro b; simp only [Spec.loop, ih, List.length_cons]; congr 1; omega
  simp only [key, Option.map_some, Nat.zero_add]

/-- **C88.** -/
theorem anyOf_eq (L : Fwd R rep l) (p : α → Bool) {fuel : Nat} {s : σ} {i : Nat} (h : rep s i) (hn : l.length - i < fuel) :
    anyOf R p fuel s = some ((l.drop i).any p) := by
  unfold anyOf
  rw [loop_spec L _ fuel h hn]
  generalize l.drop i = m
  induction m with
  | nil => rfl
  | cons a m ih => simp only [Spec.loop, List.any_cons]; cases p a <;> simp_all

/-- **C88.** -/
theorem allOf_eq (L : Fwd R rep l) (p : α → Bool) {fuel : Nat} {s : σ} {i : Nat} (h : rep s i) (hn : l.length - i < fuel) :
    allOf R p fuel s = some ((l.drop i).all p) := by
  unfold allOf
  rw [loop_spec L _ fuel h hn]
  generalize l.drop i = m
  induction m with
  | nil => rfl
  | cons a m ih => simp only [Spec.loop, List.all_cons]; cases p a <;> simp_all

/-- **C88.** -/
theorem noneOf_eq (L : Fwd R rep l) (p : α → Bool) {fuel : Nat} {s : σ} {i : Nat} (h : rep s i) (hn : l.length - i < fuel) :
    noneOf R p fuel s = some (!(l.drop i).any p) := by
  unfold noneOf
  rw [loop_spec L _ fuel h hn]
  generalize l.drop i = m
  induction m with
  | nil => rfl
  | cons a m ih => simp only [Spec.loop, List.any_cons]; cases p a <;> simp_all

/-- **C88.**  The number of the first element that the predicate accepts. -/
theorem indexOf_eq (L : Fwd R rep l) (p : α → Bool) {fuel : Nat} {s : σ} {i : Nat} (h : rep s i) (hn : l.length - i < fuel) :
    indexOf R p fuel s = some ((l.drop i).findIdx? p) := by
  unfold indexOf
  rw [loop_spec L _ fuel h hn]
  generalize l.drop i = m
  have key : ∀ (m : List α) (b : Nat), (match Spec.loop (γ := Nat) (fun b a => if p a then .inr b else .inl (b + 1)) m b with | .inl _ => none | .inr b => some b) =
      (m.findIdx? p).map (· + b) := by
    intro m
    induction m with
    | nil => intro b; rfl
    | cons a m ih =>
      intro b
      simp only [Spec.loop, List.findIdx?_cons]
      cases p a with
      | true => simp
      | false =>
        simp only [Bool.false_eq_true, if_false]
        rw [ih, Option.map_map]
        congr 1; funext x; simp only [Function.comp]; omega
  simp only [Option.map_some]
  have := key m 0
  simp only [Nat.add_zero, Option.map_id'] at this
  exact congrArg some this

/-- **C88.** -/
theorem elementAt_eq (L : Fwd R rep l) (k : Nat) {fuel : Nat} {s : σ} {i : Nat} (h : rep s i) (hn : l.length - i < fuel) :
    elementAt R k fuel s = some ((l.drop i)[k]?) := by
  unfold elementAt
  rw [loop_spec L _ fuel h hn]
  generalize l.drop i = m
  have key : ∀ (m : List α) (b : Nat), b ≤ k → (match Spec.loop (γ := α) (fun b a => if k = b then .inr a else .inl (b + 1)) m b with | .inl _ => none | .inr b => some b) = m[k - b]? := by
    intro m
    induction m with
    | nil => intro b _; rfl
    | cons a m ih =>
      intro b hb
      simp only [Spec.loop]
      by_cases e : k = b
      · subst e; simp
      · simp only [e, if_false]
        rw [ih (b + 1) (by omega), show k - b = k - (b + 1) + 1 by omega, List.getElem?_cons_succ]
  simp only [Option.map_some]
  exact congrArg some (key m 0 (Nat.zero_le _))

/-- **C88.** -/
theorem fold_eq (L : Fwd R rep l) (f : β → α → β) (b : β) {fuel : Nat} {s : σ} {i : Nat} (h : rep s i) (hn : l.length - i < fuel) :
    fold R f b fuel s = some ((l.drop i).foldl f b) := by
  unfold fold
  rw [loop_spec L _ fuel h hn]
  have key : ∀ (m : List α) (b : β), Spec.loop (γ := Empty) (fun b a => .inl (f b a)) m b = .inl (m.foldl f b) := by
    intro m
    induction m with
    | nil => intro b; rfl
    | cons a m ih => intro b; simp only [Spec.loop, ih, List.foldl_cons]
  simp only [key, Option.map_some]

/-- **C88.**  `Fold` without an initial value starts with the first element. -/
theorem fold1_eq (L : Fwd R rep l) (f : α → α → α) {fuel : Nat} {s : σ} {i : Nat} (h : rep s i) (hn : l.length - i < fuel) :
    fold1 R f fuel s = some (match l.drop i with | [] => none | a :: m => some (m.foldl f a)) := by
  unfold fold1
  rw [fold_eq L _ _ h hn]
  have key : ∀ (m : List α) (a : α), m.foldl (fun b a => match b with | some b => some (f b a) | none => some a) (some a) = some (m.foldl f a) := by
    intro m
    induction m with
    | nil => intro a; rfl
    | cons b m ih => intro a; simp only [List.foldl_cons, ih]
  cases l.drop i with
  | nil => rfl
  | cons a m => exact congrArg some (key m a)

end

/-- A strict weak order. -/
structure Order (lt : α → α → Bool) : Prop where
  irrefl : ∀ a, lt a a = false
  trans : ∀ a b c, lt a b = true → lt b c = true → lt a c = true
  weak : ∀ a b c, lt a b = true → lt a c = true ∨ lt c b = true

/-- `m` is the first of the smallest elements of the list. -/
def Spec.FirstMin (lt : α → α → Bool) (l : List α) (m : α) : Prop :=
  ∃ pre post, l = pre ++ m :: post ∧ (∀ x ∈ pre, lt m x = true) ∧ ∀ x ∈ post, lt x m = false

/-- One step of the search for the smallest. -/
theorem firstMin_step {lt : α → α → Bool} (O : Order lt) {l : List α} {m a : α} (h : Spec.FirstMin lt l m) :
    Spec.FirstMin lt (l ++ [a]) (if lt a m then a else m) := by
  obtain ⟨pre, post, e, h1, h2⟩ := h
  by_cases c : lt a m = true
  · simp only [c, if_true]
    refine ⟨l, [], rfl, ?_, by simp⟩
    intro x hx
    rw [e, List.mem_append, List.mem_cons] at hx
    rcases hx with hx | hx | hx
    · exact O.trans _ _ _ c (h1 x hx)
    · rw [hx]; exact c
    · rcases O.weak a m x c with g | g
      · exact g
      · rw [h2 x hx] at g; cases g
  · simp only [c, if_false]
    refine ⟨pre, post ++ [a], by simp [e], h1, ?_⟩
    intro x hx
    rw [List.mem_append, List.mem_singleton] at hx
    rcases hx with hx | hx
    · exact h2 x hx
    · rw [hx]; simpa using c

section
variable {R : Rng σ α} {rep : σ → Nat → Prop} {l : List α}

theorem minFold {lt : α → α → Bool} (O : Order lt) (m : List α) : ∀ (l : List α) (b : Option α), (b = none ↔ l = []) → (∀ x, b = some x → Spec.FirstMin lt l x) →
    ((m.foldl (fun b a => match b with | some b => if lt a b then some a else some b | none => some a) b = none ↔ l ++ m = []) ∧
      ∀ x, m.foldl (fun b a => match b with | some b => if lt a b then some a else some b | none => some a) b = some x → Spec.FirstMin lt (l ++ m) x) := by
  induction m with
  | nil => intro l b h1 h2; simpa using ⟨h1, h2⟩
  | cons a m ih =>
    intro l b h1 h2
    rw [List.foldl_cons, show l ++ a :: m = (l ++ [a]) ++ m by simp]
    apply ih
    · cases b with
      | none => simp
      | some b => simp only [List.append_eq_nil_iff, List.cons_ne_nil, and_false, iff_false]; split <;> simp
    · intro x hx
      cases b with
      | none =>
        have := h1.1 rfl
        subst this
        cases hx
        exact ⟨[], [], rfl, by simp, by simp⟩
      | some b =>
        have := firstMin_step O (a := a) (h2 b rfl)
        simp only at hx
        by_cases c : lt a b = true
        · simp only [c, if_true] at hx this; cases hx; exact this
        · simp only [c, Bool.false_eq_true, if_false] at hx this; cases hx; exact this

/-- **C88.**  `MinElement` is null for no elements, and else the first of the smallest ones. -/
theorem minElement_spec {lt : α → α → Bool} (O : Order lt) (L : Fwd R rep l) {fuel : Nat} {s : σ} {i : Nat} (h : rep s i) (hn : l.length - i < fuel) :
    ∃ r, minElement R lt fuel s = some r ∧ (r = none ↔ l.drop i = []) ∧ ∀ x, r = some x → Spec.FirstMin lt (l.drop i) x :=
  ⟨_, fold_eq L _ _ h hn, minFold O (l.drop i) [] none (by simp) (by simp)⟩

/-- **C88.**  `MaxElement` is null for no elements, and else the first of the greatest ones. -/
theorem maxElement_spec {lt : α → α → Bool} (O : Order lt) (L : Fwd R rep l) {fuel : Nat} {s : σ} {i : Nat} (h : rep s i) (hn : l.length - i < fuel) :
    ∃ r, maxElement R lt fuel s = some r ∧ (r = none ↔ l.drop i = []) ∧ ∀ x, r = some x → Spec.FirstMin (fun a b => lt b a) (l.drop i) x := by
  have O' : Order fun a b => lt b a := ⟨O.irrefl, fun a b c h1 h2 => O.trans _ _ _ h2 h1, fun a b c h => (O.weak _ _ c h).symm⟩
  exact ⟨_, fold_eq L _ _ h hn, minFold O' (l.drop i) [] none (by simp) (by simp)⟩

theorem rangeFor_spec (L : Fwd R rep l) {e : σ} (he : rep e l.length) (n : Nat) {s : σ} {i : Nat} (h : rep s i) (hn : l.length - i < n) :
    rangeFor R e n s = some (l.drop i) := by
  induction n generalizing s i with
  | zero => omega
  | succ n ih =>
    simp only [rangeFor, L.equals h he]
    by_cases c : i = l.length
    · simp only [c, decide_true, if_true, List.drop_length]
    · have := L.le h
      have hi : i < l.length := by omega
      obtain ⟨t, h1, h2⟩ := L.get h hi
      obtain ⟨u, h3, h4⟩ := L.next h2 hi
      simp only [c, decide_false, Bool.false_eq_true, if_false, h1, Option.bind_some, h3, ih h4 (by omega), Option.map_some, List.drop_eq_getElem_cons hi]

theorem rangeEnd_spec (L : Fwd R rep l) (B : Bwd R rep l) {s : σ} {i : Nat} (h : rep s i) : ∃ e, rangeEnd R s = some e ∧ rep e l.length := by
  obtain ⟨t, h1, h2⟩ := B.last h
  simp only [rangeEnd, h1, Option.bind_some, L.valid h2]
  by_cases c : l.length - 1 < l.length
  · simp only [c, decide_true, if_true]
    obtain ⟨u, h3, h4⟩ := L.next h2 c
    exact ⟨u, h3, by rw [show l.length = l.length - 1 + 1 by omega]; exact h4⟩
  · simp only [c, decide_false, Bool.false_eq_true, if_false]
    exact ⟨t, rfl, by rw [show l.length = l.length - 1 by omega]; exact h2⟩

/-- **C88.**  `for (x : range)` shows every element once, in order, wherever the range is. -/
theorem for_eq (L : Fwd R rep l) (B : Bwd R rep l) {fuel : Nat} (hn : l.length < fuel) {s : σ} {i : Nat} (h : rep s i) :
    ∃ b e, begin R s = some b ∧ rangeEnd R s = some e ∧ rangeFor R e fuel b = some l := by
  obtain ⟨b, h1, h2⟩ := L.first h
  obtain ⟨e, h3, h4⟩ := rangeEnd_spec L B h
  exact ⟨b, e, h1, h3, by rw [rangeFor_spec L h4 fuel h2 (by omega)]; rfl⟩

end

/-- **C88.**  The pieces of `Split`, too, although `Last` may be wrong. -/
theorem for_split {n k : Nat} (hk : 0 < k) {fuel : Nat} (hn : (Spec.pieces n k).length < fuel) {s i : Nat} (h : splitRep n k s i) :
    ∃ b e, begin (split n k) s = some b ∧ rangeEnd (split n k) s = some e ∧ rangeFor (split n k) e fuel b = some (Spec.pieces n k) := by
  by_cases d : n = 0 ∨ n % k ≠ 0
  · exact for_eq (split_fwd hk) (split_bwd_partial hk d) hn h
  · obtain ⟨b, h1, h2⟩ := (split_fwd hk).first h
    obtain ⟨g1, g2, g3⟩ := split_last_violated (s := s) hk (show 0 < n by omega) (by omega)
    refine ⟨b, n, h1, ?_, ?_⟩
    · simp only [rangeEnd, g1, Option.bind_some, g2, Bool.false_eq_true, if_false]
    · have he : splitRep n k n (Spec.pieces n k).length := by
        simp only [Spec.pieces, List.length_map, List.length_range]
        exact ⟨Nat.le_refl _, by have := pieceCount_mul (n := n) hk; omega⟩
      rw [rangeFor_spec (split_fwd hk) he fuel h2 (by omega)]; rfl

/-- **C87.**  Iterating backward shows the elements in reverse order, for every range that obeys the law. -/
theorem reverse_forEach {R : Rng σ α} {rep : σ → Nat → Prop} {l : List α} (L : Fwd R rep l) (B : Bwd R rep l) {fuel : Nat} (hn : l.length < fuel) {s : σ} {i : Nat} (h : rep s i) :
    ∃ t, reverseNew R s = some t ∧ forEach (reverse R) fuel t = some l.reverse := by
  obtain ⟨t, h1, h2⟩ := reverse_new B h
  exact ⟨t, h1, forEach_eq (reverse_fwd L B) h2 (by rw [List.length_reverse]; omega)⟩

/-- **C87.**  A chain: the elements of a container, transformed, filtered, without the first `n`, at most `m` of them, in reverse order. -/
theorem chain_forEach (mem : List α) (g : α → β) (p : β → Bool) (n m : Nat) {fuel : Nat} (hf : mem.length < fuel) :
    ∃ a b c, filterNew fuel (transform (iterRange mem) fun x => some (g x)) p (⟨0, 0, mem.length⟩, none) = some a ∧
      dropNew (filter fuel (transform (iterRange mem) fun x => some (g x)) p) a n = some b ∧
      reverseNew (take (drop (filter fuel (transform (iterRange mem) fun x => some (g x)) p))) (takeNew b m) = some c ∧
      forEach (reverse (take (drop (filter fuel (transform (iterRange mem) fun x => some (g x)) p)))) fuel c = some ((((mem.map g).filter p).drop n).take m).reverse := by
  have hs : Spec.slice mem 0 mem.length = mem := by unfold Spec.slice; simp
  have L0 : Fwd (iterRange mem) (iterRep 0 mem.length) mem := by have := iter_fwd (mem := mem) (Nat.zero_le _) (Nat.le_refl _); rw [hs] at this; exact this
  have B0 : Bwd (iterRange mem) (iterRep 0 mem.length) mem := by have := iter_bwd (mem := mem) (Nat.zero_le _) (Nat.le_refl _); rw [hs] at this; exact this
  have L1 := transform_fwd (f := fun x => some (g x)) (g := g) L0 (fun _ _ => rfl)
  have B1 := transform_bwd (f := fun x => some (g x)) (g := g) B0
  have hl : (mem.map g).length < fuel := by rw [List.length_map]; exact hf
  have L2 := filter_fwd L1 p hl
  have B2 := filter_bwd L1 B1 p hl
  have r0 : transformRep (iterRep 0 mem.length) mem g ((⟨0, 0, mem.length⟩ : Iter), none) 0 := ⟨⟨rfl, rfl, rfl, by omega⟩, by intro v hv; cases hv⟩
  obtain ⟨a, h1, h2⟩ := filter_new L1 p hl r0
  obtain ⟨b, h3, h4⟩ := drop_new L2 n h2
  have L3 := drop_fwd L2 (min (0 + n) ((mem.map g).filter p).length)
  have B3 := drop_bwd L2 B2 (min (0 + n) ((mem.map g).filter p).length)
  have r4 := take_new (l := ((mem.map g).filter p).drop (min (0 + n) ((mem.map g).filter p).length)) m h4
  have L4 := take_fwd L3 0 m
  have B4 := take_bwd L3 B3 0 m
  have hle : ((((mem.map g).filter p).drop (min (0 + n) ((mem.map g).filter p).length)).drop 0 |>.take m).length < fuel := by
    have := List.length_filter_le p (mem.map g)
    simp only [List.length_take, List.length_drop]
    omega
  obtain ⟨c, h5, h6⟩ := reverse_forEach L4 B4 hle r4
  refine ⟨a, b, c, h1, h3, h5, ?_⟩
  rw [h6]
  congr 3
  rw [List.drop_zero, Nat.zero_add]
  by_cases e : n ≤ ((mem.map g).filter p).length
  · rw [Nat.min_eq_left e]
  · rw [Nat.min_eq_right (by omega), List.drop_length, List.drop_of_length_le (by omega)]

example : forEach (reverse (take (drop (filter 9 (transform (iterRange [1, 2, 3, 4, 5, 6]) fun x => some (x * 10)) (· ≠ 30))))) 9
    ((⟨(((⟨0, 1, 6⟩, none), (⟨0, 1, 6⟩, none))), (((⟨0, 1, 6⟩, none), (⟨0, 4, 6⟩, none))), 2, 3⟩ : TakeSt _), false) = some [50, 40, 20] := by decide +kernel

/-- **C87 violated.**  `Zip` steps back from the end to find its last element, and `Concat` cannot: `Last` (and with it `end()` and `for`) throws. -/
theorem zip_concat_last_violated :
    forEach (zip 9 (concat (iterRange [4, 5])) (iterRange [7, 8]) (· + ·)) 9 (zipNew (concatNew (iterRange [4, 5]) [⟨0, 0, 1⟩, ⟨1, 1, 2⟩]) ⟨0, 0, 2⟩) = some [11, 13] ∧
    (rangeEnd (zip 9 (concat (iterRange [4, 5])) (iterRange [7, 8]) (· + ·)) (zipNew (concatNew (iterRange [4, 5]) [⟨0, 0, 1⟩, ⟨1, 1, 2⟩]) ⟨0, 0, 2⟩)).isNone := by
  constructor <;> decide +kernel

end Verif.Range

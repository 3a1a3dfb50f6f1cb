import Verif.Enum.ForEach
/-
C161: FOR_EACH and range-based for.
-/
namespace Verif.Enum.ForEach
variable {σ α β W : Type}

/-- the body is run for the items in order, until it breaks or throws -/
def Spec.run (body : β → W → Exit × W) : List β → W → Exit × W
  | [], w => (.normal, w)
  | x :: l, w =>
    match body x w with
    | (.normal, w') => Spec.run body l w'
    | (.cont, w') => Spec.run body l w'
    | (.brk, w') => (.normal, w')
    | (.thrown, w') => (.thrown, w')

/-- the items: those that the cast and the filter let through -/
def Spec.items (cast : α → Option β) (filter : β → Bool) (src : List α) : List β := (src.filterMap cast).filter filter

/-- what is left in the enumerator: nothing at the end, the item and all after it if the body throws; after `break`, what follows the item without the items right after it that the cast does not let through -/
def Spec.left (cast : α → Option β) (filter : β → Bool) (body : β → W → Exit × W) : List α → W → List α
  | [], _ => []
  | x :: l, w =>
    match cast x with
    | none => Spec.left cast filter body l w
    | some y =>
      if filter y then
        match body y w with
        | (.normal, w') => Spec.left cast filter body l w'
        | (.cont, w') => Spec.left cast filter body l w'
        | (.brk, _) => l.dropWhile fun z => (cast z).isNone
        | (.thrown, _) => x :: l
      else Spec.left cast filter body l w

theorem findNext_drop (cast : α → Option β) : ∀ l : List α, findNext cast l = l.dropWhile fun z => (cast z).isNone
  | [] => rfl
  | x :: l => by
    unfold findNext
    rw [List.dropWhile_cons]
    cases h : cast x with
    | none => simp [findNext_drop cast l]
    | some y => simp

/-- the outcome of the innermost loop -/
def out (filter : β → Bool) (body : β → W → Exit × W) (x : β) (s : S α W) : Exit × S α W :=
  if filter x then
    match body x s.w with
    | (.normal, w') => (.normal, { s with dummy := false, w := w' })
    | (.cont, w') => (.normal, { s with dummy := false, w := w' })
    | (.brk, w') => (.normal, { s with dummy := false, broken := true, w := w' })
    | (.thrown, w') => (.thrown, { s with dummy := false, broken := true, w := w' })
  else (.normal, { s with dummy := false })

theorem loop4_out {cast : α → Option β} (filter : β → Bool) (body : β → W → Exit × W) (n : Nat) {l : List α} {w : W} {x : β} (hx : current cast l = some x) :
    loop4 cast filter body (n + 2) ⟨false, true, l, w⟩ = some (out filter body x ⟨false, true, l, w⟩) := by
  unfold loop4
  rw [hx]
  simp only []
  rw [forLoop]
  cases hf : filter x with
  | false => simp [cond4, hf, out]
  | true =>
    simp only [cond4, hf, if_true, out]
    cases hb : body x w with
    | mk e w' =>
      cases e
      · simp [forLoop, cond4]
      · simp [forLoop, cond4]
      · rfl
      · rfl

theorem loop3_out {cast : α → Option β} (filter : β → Bool) (body : β → W → Exit × W) (n : Nat) {l : List α} {w : W} {d : Bool} {x : β} (hx : current cast l = some x) :
    loop3 cast filter body (n + 2) ⟨false, d, l, w⟩ = some (out filter body x ⟨false, true, l, w⟩) := by
  unfold loop3
  rw [forLoop]
  simp only [Bool.not_false, Bool.and_self, if_true]
  rw [loop4_out filter body n hx]
  unfold out
  cases hf : filter x with
  | false => simp [forLoop]
  | true =>
    simp only [if_true]
    cases hb : body x w with
    | mk e w' => cases e <;> simp [forLoop]

theorem loop2_run (cast : α → Option β) (filter : β → Bool) (body : β → W → Exit × W) (k : Nat) :
    ∀ (n : Nat) (src : List α) (d : Bool) (w : W), src.length < n →
      ∃ s, forLoop (fun s : S α W => (!s.en.isEmpty && !s.broken, s)) (loop3 cast filter body (k + 2)) (fun s => { s with en := next cast s.en }) n ⟨false, d, findNext cast src, w⟩ = some ((Spec.run body (Spec.items cast filter src) w).1, s) ∧
        s.en = Spec.left cast filter body src w ∧ s.w = (Spec.run body (Spec.items cast filter src) w).2
  | 0, src, _, _, h => by omega
  | n + 1, src, d, w, h => by
    cases src with
    | nil =>
      refine ⟨⟨false, d, [], w⟩, ?_, rfl, rfl⟩
      rw [forLoop]; rfl
    | cons x l =>
      have hl : l.length < n := by simp at h; omega
      cases hc : cast x with
      | none =>
        obtain ⟨s, h1, h2, h3⟩ := loop2_run cast filter body k (n + 1) l d w (by omega)
        refine ⟨s, ?_, ?_, ?_⟩
        · rw [show findNext cast (x :: l) = findNext cast l by simp [findNext, hc], h1]
          simp [Spec.items, hc]
        · simp only [Spec.left, hc]; exact h2
        · rw [h3]; simp [Spec.items, hc]
      | some y =>
        have hcur : current cast (x :: l) = some y := hc
        rw [show findNext cast (x :: l) = x :: l by simp [findNext, hc]]
        rw [forLoop]
        simp only [List.isEmpty_cons, Bool.not_false, Bool.and_self, if_true]
        rw [loop3_out filter body k hcur]
        unfold out
        have hitems : Spec.items cast filter (x :: l) = if filter y then y :: Spec.items cast filter l else Spec.items cast filter l := by
          unfold Spec.items
          rw [List.filterMap_cons_some hc, List.filter_cons]
        have hnext : next cast (x :: l) = findNext cast l := rfl
        cases hf : filter y with
        | false =>
          simp only [Bool.false_eq_true, if_false]
          obtain ⟨s, h1, h2, h3⟩ := loop2_run cast filter body k n l false w hl
          rw [hitems, hf, hnext]
          refine ⟨s, h1, ?_, h3⟩
          simp only [Spec.left, hc, hf]; exact h2
        | true =>
          simp only [if_true]
          rw [hitems, hf, if_pos rfl]
          have hr : ∀ w', (body y w = (.normal, w') ∨ body y w = (.cont, w')) → Spec.run body (y :: Spec.items cast filter l) w = Spec.run body (Spec.items cast filter l) w' ∧ Spec.left cast filter body (x :: l) w = Spec.left cast filter body l w' := by
            intro w' hb
            rcases hb with hb | hb <;> simp [Spec.run, Spec.left, hb, hc, hf]
          cases hb : body y w with
          | mk e w' =>
            cases e
            · obtain ⟨s, h1, h2, h3⟩ := loop2_run cast filter body k n l false w' hl
              obtain ⟨r1, r2⟩ := hr w' (.inl hb)
              rw [r1, r2]; exact ⟨s, h1, h2, h3⟩
            · obtain ⟨s, h1, h2, h3⟩ := loop2_run cast filter body k n l false w' hl
              obtain ⟨r1, r2⟩ := hr w' (.inr hb)
              rw [r1, r2]; exact ⟨s, h1, h2, h3⟩
            · cases n with
              | zero => omega
              | succ n =>
                refine ⟨⟨true, false, next cast (x :: l), w'⟩, ?_, ?_, ?_⟩
                · simp only [forLoop, Bool.not_true, Bool.and_false, Bool.false_eq_true, if_false, Spec.run, hb]
                · simp only [Spec.left, hc, hf, hb, if_true, next, List.drop_succ_cons, List.drop_zero]
                  exact findNext_drop cast l
                · simp only [Spec.run, hb]
            · refine ⟨⟨true, false, x :: l, w'⟩, ?_, ?_, ?_⟩
              · simp only [Spec.run, hb]
              · simp only [Spec.left, hc, hf, hb, if_true]
              · simp only [Spec.run, hb]
  termination_by n src => (n, src.length)

/-- **C161** FOR_EACH runs its body exactly for the items that the cast and the filter let through, in order, until the body breaks or throws; `continue` goes on with the next item;
an exception leaves the loop.  It always ends, and leaves the enumerator as told by the specification. -/
theorem foreach_exact (cast : α → Option β) (filter : β → Bool) (body : β → W → Exit × W) (src : List α) (w : W) {n : Nat} (hn : src.length + 2 ≤ n) :
    forEach cast filter body n src w =
      some ((Spec.run body (Spec.items cast filter src) w).1, Spec.left cast filter body src w, (Spec.run body (Spec.items cast filter src) w).2) := by
  obtain ⟨k, rfl⟩ : ∃ k, n = k + 2 := ⟨n - 2, by omega⟩
  unfold forEach
  obtain ⟨s, h1, h2, h3⟩ := loop2_run cast filter body k (k + 2) src false w (by omega)
  have hrun : ∀ (l : List β) (w : W), (Spec.run body l w).1 = .normal ∨ (Spec.run body l w).1 = .thrown := by
    intro l
    induction l with
    | nil => intro w; exact .inl rfl
    | cons y l ih =>
      intro w
      unfold Spec.run
      cases hb : body y w with
      | mk e w' => cases e <;> simp [ih]
  rw [forLoop]
  simp only [Bool.not_false, if_true]
  unfold loop2
  simp only []
  rw [h1]
  rcases hrun (Spec.items cast filter src) w with hr | hr
  · rw [hr]
    simp only [forLoop, Bool.not_true, Bool.false_eq_true, if_false, h2, h3]
  · rw [hr]
    simp only [h2, h3]

/-- **C161** After `break` an enumerator given to FOR_EACH has already moved past the item at which the loop stopped: one that goes on with it does not see that item, nor those right after it that cannot be cast. -/
theorem break_consumes (cast : α → Option β) (filter : β → Bool) (body : β → W → Exit × W) (pre : List α) (x : α) (post : List α) (w w' : W) {y : β}
    (hpre : Spec.items cast filter pre = []) (hc : cast x = some y) (hf : filter y = true) (hb : body y w = (.brk, w')) {n : Nat} (hn : (pre ++ x :: post).length + 2 ≤ n) :
    forEach cast filter body n (pre ++ x :: post) w = some (.normal, post.dropWhile (fun z => (cast z).isNone), w') := by
  rw [foreach_exact cast filter body _ w hn]
  have hl : Spec.left cast filter body (pre ++ x :: post) w = Spec.left cast filter body (x :: post) w := by
    clear hn
    induction pre with
    | nil => rfl
    | cons z pre ih =>
      rw [List.cons_append, Spec.left]
      unfold Spec.items at hpre
      cases hz : cast z with
      | none => exact ih (by simpa [Spec.items, hz] using hpre)
      | some v =>
        rw [List.filterMap_cons_some hz, List.filter_cons] at hpre
        cases hv : filter v with
        | true => simp [hv] at hpre
        | false => 
          have e := ih (by simpa [Spec.items, hv] using hpre)
          simp only [hv, Bool.false_eq_true, if_false]; exact e
  have hi : Spec.items cast filter (pre ++ x :: post) = y :: Spec.items cast filter post := by
    have : Spec.items cast filter (pre ++ x :: post) = Spec.items cast filter pre ++ Spec.items cast filter (x :: post) := by
      simp [Spec.items]
    rw [this, hpre]
    simp [Spec.items, List.filterMap_cons_some hc, List.filter_cons, hf]
  rw [hl, hi]
  simp only [Spec.run, Spec.left, hc, hf, hb, if_true]

/-- what is left in an enumerator after a range-based `for` -/
def Spec.rest (body : α → W → Exit × W) : List α → W → List α
  | [], _ => []
  | x :: l, w =>
    match body x w with
    | (.normal, w') => Spec.rest body l w'
    | (.cont, w') => Spec.rest body l w'
    | (.brk, _) => x :: l
    | (.thrown, _) => x :: l

/-- **C161** Range-based `for` over an enumerator runs its body for every item in order, until it breaks or throws; it never fails by itself; after `break` the enumerator stays at the item. -/
theorem range_for_exact (body : α → W → Exit × W) : ∀ (src : List α) (before after : List (List α)) (w : W) {n : Nat}, src.length < n →
    rangeFor body n (before ++ src :: after) (some before.length) none w =
      some ((Spec.run body src w).1, before ++ Spec.rest body src w :: after, (Spec.run body src w).2)
  | [], before, after, w, n + 1, _ => by
    simp [rangeFor, differs, Spec.run, Spec.rest]
  | x :: src, before, after, w, n + 1, h => by
    have hn : src.length < n := by simp at h; omega
    have hinc : increment (before ++ (x :: src) :: after) (some before.length) = some (before ++ src :: after) := by
      simp [increment, List.modify_eq_take_cons_drop]
    unfold rangeFor
    simp only [differs, deref, List.getD_eq_getElem?_getD, List.getElem?_append_right (Nat.le_refl _), Nat.sub_self, List.getElem?_cons_zero, Option.getD_some, List.isEmpty_cons, Bool.not_false, List.head?_cons, hinc]
    cases hb : body x w with
    | mk e w' =>
      cases e
      · simp only [Spec.run, Spec.rest, hb]; exact range_for_exact body src before after w' hn
      · simp only [Spec.run, Spec.rest, hb]; exact range_for_exact body src before after w' hn
      · simp only [Spec.run, Spec.rest, hb]
      · simp only [Spec.run, Spec.rest, hb]

/-- **C161** The end of one enumerator compares with its own adapters only through its validity: two adapters of enumerators cannot be compared, not even an adapter with itself. -/
theorem compare_throws (ens : List (List α)) (i j : Nat) : differs ens (some i) (some j) = none := rfl

/-- **C161** Copies of an adapter share the enumerator: whoever goes through it a second time gets nothing. -/
theorem second_pass_violated : ∃ (body : Nat → List Nat → Exit × List Nat) (ens ens' : List (List Nat)) (w : List Nat),
    rangeFor body 10 ens (some 0) none [] = some (.normal, ens', w) ∧ w = [1, 2] ∧ rangeFor body 10 ens' (some 0) none [] = some (.normal, ens', []) :=
  ⟨fun x l => (.normal, l ++ [x]), [[1, 2]], [[]], [1, 2], rfl, rfl, rfl⟩

/-- the body of the examples: notes the item, breaks at 4, continues at even numbers -/
def Spec.body (x : Nat) (l : List Nat) : Exit × List Nat := if x = 4 then (.brk, l ++ [x]) else if x % 2 = 0 then (.cont, l ++ [x]) else (.normal, l ++ [x])

/-- the cast of the examples: numbers below 10 -/
def Spec.cast (x : Nat) : Option Nat := if x < 10 then some x else none

example : forEach Spec.cast (fun x => decide (x ≠ 3)) Spec.body 20 [11, 1, 12, 2, 3, 4, 13, 5, 14] [] = some (.normal, [5, 14], [1, 2, 4]) := by decide
example : forEach Spec.cast (fun x => decide (x ≠ 3)) Spec.body 20 [1, 3, 12, 2, 14] [] = some (.normal, [], [1, 2]) := by decide
example : Spec.items Spec.cast (fun x => decide (x ≠ 3)) [11, 3, 12] = [] := by decide
example : rangeFor Spec.body 20 [[9], [1, 2, 4, 5]] (some 1) none [] = some (.normal, [[9], [4, 5]], [1, 2, 4]) := by decide

/-- C161.  Ends are equal; an enumerator is the end when there is nothing left in it, on either side. -/
theorem differs_exact (ens : List (List α)) (i : Nat) : differs ens none none = some false ∧
    (differs ens (some i) none = some true ↔ ens.getD i [] ≠ []) ∧ differs ens none (some i) = differs ens (some i) none := by
  refine ⟨rfl, ?_, rfl⟩
  show some (!(ens.getD i []).isEmpty) = some true ↔ _
  cases h : ens.getD i [] with
  | nil => exact ⟨nofun, fun k => absurd rfl k⟩
  | cons => exact ⟨nofun, fun _ => rfl⟩

end Verif.Enum.ForEach

import Verif.Str.Edit

/-! C79: `EditDistance` is the Levenshtein distance. -/

namespace Verif.Str

/-- One edit (specification): a character inserted, removed or replaced, anywhere. -/
inductive OneEdit : List Char → List Char → Prop
  | insert (x y : List Char) (c : Char) : OneEdit (x ++ y) (x ++ c :: y)
  | remove (x y : List Char) (c : Char) : OneEdit (x ++ c :: y) (x ++ y)
  | replace (x y : List Char) (c d : Char) : OneEdit (x ++ c :: y) (x ++ d :: y)

/-- `n` edits one after the other. -/
inductive Edits : List Char → List Char → Nat → Prop
  | done (a : List Char) : Edits a a 0
  | step {a b c : List Char} {n : Nat} : OneEdit a b → Edits b c n → Edits a c (n + 1)

/-! ### The recursive distance -/

/-- Levenshtein's recursion. -/
def lev : List Char → List Char → Nat
  | [], b => b.length
  | x :: a, [] => a.length + 1
  | x :: a, y :: b => editCell (lev (x :: a) b) (lev a b) (lev a (y :: b)) (x = y)
termination_by a b => a.length + b.length

theorem lev_nil_left (b : List Char) : lev [] b = b.length := by rw [lev]

theorem lev_nil_right (a : List Char) : lev a [] = a.length := by
  cases a <;> simp [lev]

theorem lev_cons (x y : Char) (a b : List Char) :
    lev (x :: a) (y :: b) = editCell (lev (x :: a) b) (lev a b) (lev a (y :: b)) (x = y) := by rw [lev]

theorem cell_le (l d u : Nat) (s : Bool) : editCell l d u s ≤ l + 1 ∧ editCell l d u s ≤ u + 1 ∧ editCell l d u s ≤ d + 1 ∧
    (s = true → editCell l d u s ≤ d) := by
  unfold editCell
  cases s <;> simp <;> omega

theorem cell_cases (l d u : Nat) (s : Bool) : editCell l d u s = l + 1 ∨ editCell l d u s = u + 1 ∨ (editCell l d u s = d + 1 ∧ s = false) ∨
    (editCell l d u s = d ∧ s = true) := by
  unfold editCell
  cases s <;> simp <;> omega

theorem lev_cons_le (c : Char) (a b : List Char) : lev (c :: a) b ≤ lev a b + 1 := by
  cases b with
  | nil => simp [lev_nil_right]
  | cons y b => rw [lev_cons]; have := cell_le (lev (c :: a) b) (lev a b) (lev a (y :: b)) (c = y); omega

theorem lev_cons_le_right (a : List Char) (y : Char) (b : List Char) : lev a (y :: b) ≤ lev a b + 1 := by
  cases a with
  | nil => simp [lev_nil_left]
  | cons x a => rw [lev_cons]; have := cell_le (lev (x :: a) b) (lev a b) (lev a (y :: b)) (x = y); omega

theorem lev_le_cons (c : Char) (a b : List Char) : lev a b ≤ lev (c :: a) b + 1 := by
  induction b with
  | nil => simp [lev_nil_right]; omega
  | cons y b ih =>
    rw [lev_cons]
    have h1 := lev_cons_le_right a y b
    rcases cell_cases (lev (c :: a) b) (lev a b) (lev a (y :: b)) (c = y) with h | h | h | h <;> omega

theorem lev_replace (c d : Char) (a b : List Char) : lev (c :: a) b ≤ lev (d :: a) b + 1 := by
  induction b with
  | nil => simp [lev_nil_right]
  | cons y b ih =>
    rw [lev_cons c, lev_cons d]
    have h1 := cell_le (lev (c :: a) b) (lev a b) (lev a (y :: b)) (c = y)
    rcases cell_cases (lev (d :: a) b) (lev a b) (lev a (y :: b)) (d = y) with h | h | h | h <;> omega

theorem lev_congr (c : Char) {a a' : List Char} (h : ∀ b, lev a b ≤ lev a' b + 1) (b : List Char) : lev (c :: a) b ≤ lev (c :: a') b + 1 := by
  induction b with
  | nil => have := h []; simp only [lev_nil_right, List.length_cons] at *; omega
  | cons y b ih =>
    rw [lev_cons c y a, lev_cons c y a']
    have h1 := cell_le (lev (c :: a) b) (lev a b) (lev a (y :: b)) (c = y)
    have h2 := h b
    have h3 := h (y :: b)
    rcases cell_cases (lev (c :: a') b) (lev a' b) (lev a' (y :: b)) (c = y) with h | h | h | h
    · omega
    · omega
    · omega
    · have := h1.2.2.2 h.2; omega

theorem lev_prefix (x : List Char) {a a' : List Char} (h : ∀ b, lev a b ≤ lev a' b + 1) : ∀ b, lev (x ++ a) b ≤ lev (x ++ a') b + 1 := by
  induction x with
  | nil => exact h
  | cons c x ih => exact fun b => lev_congr c ih b

theorem lev_oneEdit {a a' : List Char} (h : OneEdit a a') (b : List Char) : lev a b ≤ lev a' b + 1 := by
  cases h with
  | insert x y c => exact lev_prefix x (fun b => lev_le_cons c y b) b
  | remove x y c => exact lev_prefix x (fun b => lev_cons_le c y b) b
  | replace x y c d => exact lev_prefix x (fun b => lev_replace c d y b) b

theorem lev_self (a : List Char) : lev a a = 0 := by
  induction a with
  | nil => rw [lev_nil_left]; rfl
  | cons c a ih =>
    rw [lev_cons]
    have := (cell_le (lev (c :: a) a) (lev a a) (lev a (c :: a)) (c = c)).2.2.2 (by simp)
    omega

theorem lev_le_edits {a b : List Char} {n : Nat} (h : Edits a b n) : lev a b ≤ n := by
  induction h with
  | done a => rw [lev_self]; omega
  | @step a a' b n h _ ih => have := lev_oneEdit h b; omega

theorem OneEdit.cons (c : Char) {a b : List Char} (h : OneEdit a b) : OneEdit (c :: a) (c :: b) := by
  cases h with
  | insert x y d => exact OneEdit.insert (c :: x) y d
  | remove x y d => exact OneEdit.remove (c :: x) y d
  | replace x y d e => exact OneEdit.replace (c :: x) y d e

theorem Edits.cons (c : Char) {a b : List Char} {n : Nat} (h : Edits a b n) : Edits (c :: a) (c :: b) n := by
  induction h with
  | done a => exact .done _
  | step h _ ih => exact .step (h.cons c) ih

theorem Edits.trans {a b c : List Char} {m n : Nat} (h : Edits a b m) (h' : Edits b c n) : Edits a c (m + n) := by
  induction h with
  | done a => rw [Nat.zero_add]; exact h'
  | @step a b' _ k h _ ih =>
    have : k + 1 + n = (k + n) + 1 := by omega
    rw [this]; exact .step h (ih h')

theorem edits_inserts (b : List Char) : Edits [] b b.length := by
  induction b with
  | nil => exact .done _
  | cons c b ih => exact .step (OneEdit.insert [] [] c) (ih.cons c)

theorem edits_removes (a : List Char) : Edits a [] a.length := by
  induction a with
  | nil => exact .done _
  | cons c a ih => exact .step (OneEdit.remove [] a c) ih

theorem edits_lev (a b : List Char) : Edits a b (lev a b) := by
  induction a generalizing b with
  | nil => rw [lev_nil_left]; exact edits_inserts b
  | cons x a iha =>
    induction b with
    | nil => rw [lev_nil_right]; exact edits_removes _
    | cons y b ihb =>
      rw [lev_cons]
      rcases cell_cases (lev (x :: a) b) (lev a b) (lev a (y :: b)) (x = y) with h | h | h | h
      · rw [h]; exact ihb.trans (.step (OneEdit.insert [] b y) (.done _))
      · rw [h]; exact .step (OneEdit.remove [] a x) (iha (y :: b))
      · rw [h.1]; exact .step (OneEdit.replace [] a x y) ((iha b).cons y)
      · rw [h.1]
        have hxy : x = y := by simpa using h.2
        subst hxy
        exact (iha b).cons x

theorem OneEdit.reverse {a b : List Char} (h : OneEdit a b) : OneEdit a.reverse b.reverse := by
  cases h with
  | insert x y c => simpa using OneEdit.insert y.reverse x.reverse c
  | remove x y c => simpa using OneEdit.remove y.reverse x.reverse c
  | replace x y c d => simpa using OneEdit.replace y.reverse x.reverse c d

theorem Edits.reverse {a b : List Char} {n : Nat} (h : Edits a b n) : Edits a.reverse b.reverse n := by
  induction h with
  | done a => exact .done _
  | step h _ ih => exact .step h.reverse ih

/-! ### The rows -/

/-- The distances of the reversed prefix `ra` to the reversed prefixes of `rp.reverse ++ bs` from `rp` on. -/
def levRow (ra : List Char) : List Char → List Char → List Nat
  | rp, [] => [lev ra rp]
  | rp, b :: bs => lev ra rp :: levRow ra (b :: rp) bs

theorem levRow_head (ra rp bs : List Char) : ∃ t, levRow ra rp bs = lev ra rp :: t := by
  cases bs <;> exact ⟨_, rfl⟩

theorem editRow_spec (c : Char) (ra : List Char) (bs : List Char) : ∀ rp,
    lev (c :: ra) rp :: editRow c bs (levRow ra rp bs) (lev (c :: ra) rp) = levRow (c :: ra) rp bs := by
  induction bs with
  | nil => intro rp; rfl
  | cons b bs ih =>
    intro rp
    obtain ⟨t, ht⟩ := levRow_head ra (b :: rp) bs
    have hc := lev_cons c b ra rp
    simp only [levRow]
    rw [ht]
    simp only [editRow]
    rw [← hc, ← ht, ih]

theorem levRow_nil (bs : List Char) : ∀ rp, levRow [] rp bs = (List.range (bs.length + 1)).map (rp.length + ·) := by
  induction bs with
  | nil => intro rp; simp [levRow, lev_nil_left]
  | cons b bs ih =>
    intro rp
    have e : List.range ((b :: bs).length + 1) = 0 :: (List.range (bs.length + 1)).map Nat.succ := by
      rw [List.range_succ_eq_map]; rfl
    rw [levRow, ih, lev_nil_left, e, List.map_cons, List.map_map]
    refine congrArg (_ :: ·) ?_
    apply List.map_congr_left
    intro k _
    simp; omega

theorem editLoop_spec (s2 : List Char) (cs : List Char) : ∀ ra, editLoop s2 cs ra.length (levRow ra [] s2) = levRow (cs.reverse ++ ra) [] s2 := by
  induction cs with
  | nil => intro ra; rfl
  | cons c cs ih =>
    intro ra
    have h := editRow_spec c ra s2 []
    rw [lev_nil_right, List.length_cons] at h
    rw [editLoop, h]
    have := ih (c :: ra)
    simp only [List.length_cons] at this
    rw [this]
    simp

theorem levRow_last (ra : List Char) (bs : List Char) : ∀ rp, (levRow ra rp bs)[bs.length]? = some (lev ra (bs.reverse ++ rp)) := by
  induction bs with
  | nil => intro rp; rfl
  | cons b bs ih =>
    intro rp
    rw [levRow, List.length_cons, List.getElem?_cons_succ, ih]
    simp

theorem editDistance_eq (s1 s2 : List Char) : editDistance s1 s2 = some (lev s1.reverse s2.reverse) := by
  unfold editDistance
  by_cases h1 : s1 = s2
  · rw [if_pos h1, h1, lev_self]
  rw [if_neg h1]
  by_cases h2 : s1 = []
  · rw [if_pos h2, h2]; simp [lev_nil_left]
  rw [if_neg h2]
  by_cases h3 : s2 = []
  · rw [if_pos h3, h3]; simp [lev_nil_right]
  rw [if_neg h3]
  have hr : List.range (s2.length + 1) = levRow [] [] s2 := by
    rw [levRow_nil]; simp
  rw [hr]
  have := editLoop_spec s2 s1 []
  simp only [List.length_nil] at this
  rw [this, levRow_last]
  simp

/-- C79.  `EditDistance(s1, s2)` is the least number of insertions, removals and replacements of characters that turn
`s1` into `s2`. -/
theorem editDistance_spec (s1 s2 : List Char) : ∃ n, editDistance s1 s2 = some n ∧ Edits s1 s2 n ∧ ∀ m, Edits s1 s2 m → n ≤ m := by
  refine ⟨_, editDistance_eq s1 s2, ?_, fun m h => lev_le_edits h.reverse⟩
  have := (edits_lev s1.reverse s2.reverse).reverse
  simpa using this

example : editDistance "kitten".toList "sitting".toList = some 3 := by decide +kernel

theorem OneEdit.symm {a b : List Char} (h : OneEdit a b) : OneEdit b a := by
  cases h with
  | insert x y c => exact .remove x y c
  | remove x y c => exact .insert x y c
  | replace x y c d => exact .replace x y d c

theorem Edits.symm {a b : List Char} {n : Nat} (h : Edits a b n) : Edits b a n := by
  induction h with
  | done a => exact .done _
  | @step a b c n h _ ih => exact ih.trans (.step h.symm (.done _))

/-- C79.  It is a metric: zero only for equal strings, symmetric, and with the triangle inequality. -/
theorem editDistance_metric {a b c : List Char} {x y z : Nat} (hab : editDistance a b = some x) (hbc : editDistance b c = some y)
    (hac : editDistance a c = some z) : (x = 0 ↔ a = b) ∧ editDistance b a = some x ∧ z ≤ x + y := by
  obtain ⟨n, h1, h2, h3⟩ := editDistance_spec a b
  obtain ⟨n', h1', h2', h3'⟩ := editDistance_spec b c
  obtain ⟨n'', h1'', h2'', h3''⟩ := editDistance_spec a c
  obtain ⟨k, k1, k2, k3⟩ := editDistance_spec b a
  rw [hab] at h1; injection h1 with h1; subst h1
  rw [hbc] at h1'; injection h1' with h1'; subst h1'
  rw [hac] at h1''; injection h1'' with h1''; subst h1''
  refine ⟨⟨fun h => ?_, fun h => ?_⟩, ?_, h3'' _ (h2.trans h2')⟩
  · subst h; cases h2; rfl
  · subst h; have := h3 0 (.done _); omega
  · have e1 := k3 _ h2.symm
    have e2 := h3 _ k2.symm
    rw [k1]; congr 1; omega

example : editDistance "ab".toList "b".toList = some 1 ∧ editDistance "b".toList "bc".toList = some 1 ∧
    editDistance "ab".toList "bc".toList = some 2 := by decide +kernel

end Verif.Str

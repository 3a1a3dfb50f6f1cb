import Verif.Str.Aho

/-! C80: the Aho-Corasick search reports every occurrence. -/

namespace Verif.Str

variable {α : Type} [DecidableEq α]

/-! ### Specification -/

/-- The last index at which `w` stands in the list of patterns. -/
def lastIndex (ps : List (List α)) (w : List α) : Option Nat :=
  ((List.range ps.length).filter (fun k => ps[k]? = some w)).getLast?

/-- `[k, k - 1, …, 1]`. -/
def downFrom : Nat → List Nat
  | 0 => []
  | k + 1 => (k + 1) :: downFrom k

/-- The patterns that end at position `e` of the text, the longer ones first: index and start. -/
def endingAt (ps : List (List α)) (w : List α) (e : Nat) : List (Nat × Nat) :=
  (downFrom e).filterMap fun l => (lastIndex ps (w.drop (e - l))).map fun k => (k, e - l)

/-- All occurrences, by their ends. -/
def allReports (ps : List (List α)) (text : List α) : List (Nat × Nat) :=
  (List.range text.length).flatMap fun i => endingAt ps (text.take (i + 1)) (i + 1)

/-! ### The trie -/

/-- The nodes are the words `word i`, closed under prefixes. -/
structure TrieOk (t : Trie α) (word : Nat → List α) : Prop where
  pos : 0 < t.size
  root : word 0 = []
  inj : ∀ i j, i < t.size → j < t.size → word i = word j → i = j
  child : ∀ i c j, t.next i c = some j → i < t.size ∧ 0 < j ∧ j < t.size ∧ word j = word i ++ [c]
  parent : ∀ j, 0 < j → j < t.size → ∃ i c, t.next i c = some j
  pat : ∀ i, i < t.size → t.pat i = lastIndex t.patterns (word i)
  mem : ∀ p ∈ t.patterns, ∃ i, i < t.size ∧ word i = p
  patOut : ∀ i, t.size ≤ i → t.pat i = none
  noFail : ∀ i, t.fail i = none
  order : ∀ i c j, t.next i c = some j → i < j

theorem TrieOk.next_of_word {t : Trie α} {word : Nat → List α} (h : TrieOk t word) {i j : Nat} {c : α} (hi : i < t.size) (hj : j < t.size)
    (hw : word j = word i ++ [c]) : t.next i c = some j := by
  have hj0 : 0 < j := by
    refine Nat.pos_of_ne_zero fun h0 => ?_
    subst h0
    rw [h.root] at hw
    simp at hw
  obtain ⟨i', c', hn⟩ := h.parent j hj0 hj
  obtain ⟨h1, _, _, h4⟩ := h.child i' c' j hn
  rw [hw] at h4
  obtain ⟨e1, e2⟩ := List.append_inj' h4 rfl
  have := h.inj i i' hi h1 e1
  simp at e2
  subst this; subst e2
  exact hn

theorem TrieOk.prefix {t : Trie α} {word : Nat → List α} (h : TrieOk t word) {j : Nat} {w : List α} {c : α} (hj : j < t.size)
    (hw : word j = w ++ [c]) : ∃ i, i < t.size ∧ word i = w ∧ t.next i c = some j := by
  have hj0 : 0 < j := by
    refine Nat.pos_of_ne_zero fun h0 => ?_
    subst h0
    rw [h.root] at hw
    simp at hw
  obtain ⟨i', c', hn⟩ := h.parent j hj0 hj
  obtain ⟨h1, _, _, h4⟩ := h.child i' c' j hn
  rw [hw] at h4
  obtain ⟨e1, e2⟩ := List.append_inj' h4 rfl
  simp at e2
  subst e2
  exact ⟨i', h1, e1.symm, hn⟩

theorem TrieOk.ne_nil {t : Trie α} {word : Nat → List α} (h : TrieOk t word) {j : Nat} (h0 : j ≠ 0) (hj : j < t.size) : word j ≠ [] := by
  intro hw
  exact h0 (h.inj j 0 hj h.pos (by rw [hw, h.root]))

theorem lastIndex_snoc (ps : List (List α)) (p w : List α) :
    lastIndex (ps ++ [p]) w = if p = w then some ps.length else lastIndex ps w := by
  unfold lastIndex
  have e : (List.range ps.length).filter (fun k => decide ((ps ++ [p])[k]? = some w)) = (List.range ps.length).filter (fun k => decide (ps[k]? = some w)) := by
    apply List.filter_congr
    intro k hk
    rw [List.getElem?_append_left (by simpa using hk)]
  rw [List.length_append, List.length_singleton, List.range_succ, List.filter_append, e]
  have e2 : (ps ++ [p])[ps.length]? = some p := by simp
  by_cases hp : p = w
  · rw [if_pos hp]
    have : [ps.length].filter (fun k => decide ((ps ++ [p])[k]? = some w)) = [ps.length] := by
      simp [hp]
    rw [this]; simp
  · rw [if_neg hp]
    have : [ps.length].filter (fun k => decide ((ps ++ [p])[k]? = some w)) = [] := by
      simp [hp]
    rw [this]; simp

theorem snoc_induction {P : List (List α) → Prop} (nil : P []) (snoc : ∀ ps p, P ps → P (ps ++ [p])) (ps : List (List α)) : P ps := by
  have : ∀ n, ∀ ps : List (List α), ps.length = n → P ps := by
    intro n
    induction n with
    | zero => intro ps h; rw [List.length_eq_zero_iff.mp h]; exact nil
    | succ n ih =>
      intro ps h
      have hne : ps ≠ [] := by intro h0; rw [h0] at h; cases h
      rw [← List.dropLast_concat_getLast hne]
      exact snoc _ _ (ih _ (by simp [h]))
  exact this _ ps rfl

theorem lastIndex_some {ps : List (List α)} {w : List α} {k : Nat} : lastIndex ps w = some k ↔
    ps[k]? = some w ∧ ∀ k', k < k' → ps[k']? ≠ some w := by
  induction ps using snoc_induction with
  | nil => simp [lastIndex]
  | snoc ps p ih =>
    rw [lastIndex_snoc]
    have hout : ∀ k', ps.length < k' → (ps ++ [p])[k']? = none := by
      intro k' hk'
      rw [List.getElem?_eq_none]; simp; omega
    by_cases hp : p = w
    · subst hp
      rw [if_pos rfl]
      constructor
      · intro h
        injection h with h
        subst h
        exact ⟨by simp, fun k' hk' => by rw [hout k' hk']; simp⟩
      · rintro ⟨h1, h2⟩
        rcases Nat.lt_trichotomy k ps.length with h | h | h
        · exact absurd (by simp) (h2 ps.length h)
        · rw [h]
        · rw [hout k h] at h1; cases h1
    · rw [if_neg hp, ih]
      constructor
      · rintro ⟨h1, h2⟩
        have hk : k < ps.length := by
          refine Nat.lt_of_not_le fun h => ?_
          rw [List.getElem?_eq_none h] at h1; cases h1
        refine ⟨by rw [List.getElem?_append_left hk]; exact h1, fun k' hk' => ?_⟩
        rcases Nat.lt_trichotomy k' ps.length with h | h | h
        · rw [List.getElem?_append_left h]; exact h2 k' hk'
        · subst h; simpa using hp
        · rw [hout k' h]; simp
      · rintro ⟨h1, h2⟩
        have hk : k < ps.length := by
          rcases Nat.lt_trichotomy k ps.length with h | h | h
          · exact h
          · subst h; simp [hp] at h1
          · rw [hout k h] at h1; cases h1
        rw [List.getElem?_append_left hk] at h1
        refine ⟨h1, fun k' hk' hc => ?_⟩
        have hk2 : k' < ps.length := by
          refine Nat.lt_of_not_le fun h => ?_
          rw [List.getElem?_eq_none h] at hc; cases hc
        exact h2 k' hk' (by rw [List.getElem?_append_left hk2]; exact hc)

theorem lastIndex_none {ps : List (List α)} {w : List α} : lastIndex ps w = none ↔ w ∉ ps := by
  induction ps using snoc_induction with
  | nil => simp [lastIndex]
  | snoc ps p ih =>
    rw [lastIndex_snoc]
    by_cases hp : p = w
    · simp [hp]
    · rw [if_neg hp, ih]
      simp [Ne.symm hp]

/-! ### `Add` -/

theorem trieOk_empty : TrieOk (Trie.empty : Trie α) (fun _ => []) where
  pos := Nat.one_pos
  root := rfl
  inj := by intro i j hi hj _; simp [Trie.empty] at hi hj; omega
  child := by intro i c j h; cases h
  parent := by intro j h0 h1; simp [Trie.empty] at h1; omega
  pat := by intro i _; rfl
  mem := by intro p hp; cases hp
  patOut := fun _ _ => rfl
  noFail := fun _ => rfl
  order := by intro i c j h; cases h

/-- What the loop of `Add` keeps. -/
theorem addLoop_ok (cs : List α) : ∀ (t : Trie α) (word : Nat → List α) (i : Nat), TrieOk t word → i < t.size →
    ∃ word', TrieOk (t.addLoop cs i).1 word' ∧ (t.addLoop cs i).2 < (t.addLoop cs i).1.size ∧
      word' (t.addLoop cs i).2 = word i ++ cs ∧ (t.addLoop cs i).1.patterns = t.patterns := by
  induction cs with
  | nil => intro t word i h hi; exact ⟨word, h, hi, by simp [Trie.addLoop], rfl⟩
  | cons c cs ih =>
    intro t word i h hi
    simp only [Trie.addLoop]
    cases hn : t.next i c with
    | some j =>
      obtain ⟨h1, h2, h3, h4⟩ := h.child i c j hn
      obtain ⟨word', a, b, d, e⟩ := ih t word j h h3
      exact ⟨word', a, b, by rw [d, h4]; simp, e⟩
    | none =>
      have hnew : ∀ j, j < t.size → word j ≠ word i ++ [c] := by
        intro j hj hw
        rw [h.next_of_word hi hj hw] at hn
        cases hn
      have h' : TrieOk { t.setNext i c t.size with size := t.size + 1 } (fun k => if k = t.size then word i ++ [c] else word k) := by
        constructor
        · exact Nat.succ_pos _
        · exact (if_neg (by have := h.pos; omega)).trans h.root
        · intro a b ha hb hw
          simp only [] at ha hb hw
          by_cases ha' : a = t.size
          · by_cases hb' : b = t.size
            · omega
            · rw [if_pos ha', if_neg hb'] at hw
              exact absurd hw.symm (hnew b (by omega))
          · by_cases hb' : b = t.size
            · rw [if_neg ha', if_pos hb'] at hw
              exact absurd hw (hnew a (by omega))
            · rw [if_neg ha', if_neg hb'] at hw
              exact h.inj a b (by omega) (by omega) hw
        · intro a d b hab
          simp only [Trie.setNext] at hab ⊢
          by_cases hc : a = i ∧ d = c
          · rw [if_pos hc] at hab
            injection hab with hab
            obtain ⟨rfl, rfl⟩ := hc
            refine ⟨by omega, by omega, by omega, ?_⟩
            rw [if_pos hab.symm, if_neg (by omega)]
          · rw [if_neg hc] at hab
            obtain ⟨h1, h2, h3, h4⟩ := h.child a d b hab
            refine ⟨by omega, h2, by omega, ?_⟩
            rw [if_neg (by omega), if_neg (by omega), h4]
        · intro b hb0 hb
          simp only [Trie.setNext] at hb ⊢
          by_cases hb' : b = t.size
          · exact ⟨i, c, by rw [if_pos ⟨rfl, rfl⟩, hb']⟩
          · obtain ⟨a, d, hab⟩ := h.parent b hb0 (by omega)
            refine ⟨a, d, ?_⟩
            rw [if_neg, hab]
            rintro ⟨rfl, rfl⟩
            rw [hn] at hab; cases hab
        · intro a ha
          simp only [Trie.setNext] at ha ⊢
          by_cases ha' : a = t.size
          · rw [if_pos ha']
            have : lastIndex t.patterns (word i ++ [c]) = none := by
              rw [lastIndex_none]
              intro hm
              obtain ⟨j, hj, hw⟩ := h.mem _ hm
              exact hnew j hj hw
            rw [this, ha']
            exact h.patOut _ (Nat.le_refl _)
          · exact (h.pat a (by omega)).trans (congrArg _ (if_neg ha').symm)
        · intro p hp
          obtain ⟨j, hj, hw⟩ := h.mem p hp
          exact ⟨j, Nat.lt_succ_of_lt hj, (if_neg (by omega)).trans hw⟩
        · intro a ha
          exact h.patOut a (Nat.le_of_succ_le ha)
        · exact h.noFail
        · intro a d b hab
          simp only [Trie.setNext] at hab
          by_cases hc : a = i ∧ d = c
          · rw [if_pos hc] at hab
            injection hab with hab
            omega
          · rw [if_neg hc] at hab
            exact h.order a d b hab
      obtain ⟨word', a, b, d, e⟩ := ih _ _ t.size h' (Nat.lt_succ_self _)
      refine ⟨word', a, b, ?_, e⟩
      rw [d]
      simp

/-- `Add` keeps the invariant and appends the pattern. -/
theorem add_ok {t : Trie α} {word : Nat → List α} (h : TrieOk t word) (p : List α) :
    ∃ word', TrieOk (t.add p) word' ∧ (t.add p).patterns = t.patterns ++ [p] := by
  obtain ⟨word', h1, h2, h3, h4⟩ := addLoop_ok p t word 0 h h.pos
  rw [h.root, List.nil_append] at h3
  generalize ht' : (t.addLoop p 0).1 = t' at *
  generalize hi : (t.addLoop p 0).2 = i at *
  refine ⟨word', ?_, ?_⟩
  · rw [Trie.add, ht', hi]
    constructor
    · exact h1.pos
    · exact h1.root
    · exact h1.inj
    · exact h1.child
    · exact h1.parent
    · intro k hk
      simp only [Trie.setPat] at hk ⊢
      rw [lastIndex_snoc]
      by_cases hki : k = i
      · rw [if_pos hki, hki, h3, if_pos rfl]
      · rw [if_neg hki, if_neg, h1.pat k hk]
        intro hc
        exact hki (h1.inj k i hk h2 (by rw [h3, hc]))
    · intro q hq
      simp only [Trie.setPat] at hq ⊢
      rcases List.mem_append.mp hq with hq | hq
      · exact h1.mem q hq
      · simp at hq
        exact ⟨i, h2, by rw [h3, hq]⟩
    · intro k hk
      simp only [Trie.setPat] at hk ⊢
      rw [if_neg (by omega)]
      exact h1.patOut k hk
    · exact h1.noFail
    · exact h1.order
  · rw [Trie.add, ht', hi]
    simp only [Trie.setPat, h4]

theorem addAll_ok (ps : List (List α)) : ∀ (t : Trie α) (word : Nat → List α), TrieOk t word →
    ∃ word', TrieOk (ps.foldl Trie.add t) word' ∧ (ps.foldl Trie.add t).patterns = t.patterns ++ ps := by
  induction ps with
  | nil => intro t word h; exact ⟨word, h, by simp⟩
  | cons p ps ih =>
    intro t word h
    obtain ⟨w1, h1, e1⟩ := add_ok h p
    obtain ⟨w2, h2, e2⟩ := ih _ _ h1
    exact ⟨w2, h2, by rw [List.foldl_cons, e2, e1]; simp⟩

/-! ### Fail links -/

/-- `f` is the node of the longest proper suffix of the word of `i` among the nodes. -/
structure IsFail (n : Nat) (word : Nat → List α) (i f : Nat) : Prop where
  lt : f < n
  suffix : word f <:+ word i
  proper : (word f).length < (word i).length
  longest : ∀ g, g < n → word g <:+ word i → (word g).length < (word i).length → (word g).length ≤ (word f).length

/-- A trie with the missing transitions of the root filled in. -/
structure Filled (t0 t : Trie α) : Prop where
  size : t.size = t0.size
  pat : t.pat = t0.pat
  patterns : t.patterns = t0.patterns
  root : ∀ c, t.next 0 c = some ((t0.next 0 c).getD 0)
  next : ∀ i c, i ≠ 0 → t.next i c = t0.next i c

theorem suffix_snoc {x w : List α} {c : α} (h : x <:+ w ++ [c]) : x = [] ∨ ∃ u, x = u ++ [c] ∧ u <:+ w := by
  obtain ⟨y, hy⟩ := h
  by_cases hx : x = []
  · exact Or.inl hx
  · right
    rw [← List.dropLast_concat_getLast hx, ← List.append_assoc] at hy
    obtain ⟨e1, e2⟩ := List.append_inj' hy rfl
    simp at e2
    refine ⟨x.dropLast, ?_, y, e1⟩
    rw [← e2]; exact (List.dropLast_concat_getLast hx).symm

theorem suffix_of_suffix_length {x y w : List α} (hx : x <:+ w) (hy : y <:+ w) (hl : x.length ≤ y.length) : x <:+ y :=
  List.suffix_of_suffix_length_le hx hy hl

/-- Following the fail links finds the longest word that continues with `c`. -/
theorem chase_spec {t0 t : Trie α} {word : Nat → List α} (h : TrieOk t0 word) (hf : Filled t0 t) (c : α) (w : List α) (fuel : Nat) : ∀ f, f < t0.size →
    word f <:+ w → (word f).length < fuel →
    (∀ g, 0 < g → g < t0.size → (word g).length ≤ (word f).length → ∃ f', t.fail g = some f' ∧ IsFail t0.size word g f') →
    ∃ r, t.chase c fuel f = some r ∧ r < t0.size ∧ word r <:+ w ++ [c] ∧ (word r).length ≤ (word f).length + 1 ∧
      ∀ g, g < t0.size → word g <:+ w ++ [c] → (word g).length ≤ (word f).length + 1 → (word g).length ≤ (word r).length := by
  induction fuel with
  | zero => intro f _ _ hl; omega
  | succ fuel ih =>
    intro f hlt hs hl hfail
    have hroot : ∀ g, g < t0.size → (word g).length = 0 → g = 0 := by
      intro g hg h0
      exact h.inj g 0 hg h.pos (by rw [h.root]; exact List.length_eq_zero_iff.mp h0)
    have hstep : ∀ r, t0.next f c = some r → r < t0.size ∧ word r <:+ w ++ [c] ∧ (word r).length = (word f).length + 1 := by
      intro r hr
      obtain ⟨_, _, h3, h4⟩ := h.child f c r hr
      refine ⟨h3, ?_, by rw [h4]; simp⟩
      rw [h4]
      obtain ⟨y, hy⟩ := hs
      exact ⟨y, by rw [← List.append_assoc, hy]⟩
    by_cases hf0 : f = 0
    · subst hf0
      simp only [Trie.chase, hf.root c]
      cases hn : t0.next 0 c with
      | some r =>
        obtain ⟨h1, h2, h3⟩ := hstep r hn
        exact ⟨r, rfl, h1, h2, by omega, fun g _ _ hg => by omega⟩
      | none =>
        refine ⟨0, rfl, h.pos, by rw [h.root]; exact List.nil_suffix, by rw [h.root]; simp, fun g hg hsg hlg => ?_⟩
        rcases suffix_snoc hsg with h0 | ⟨u, hu, _⟩
        · rw [h0]; simp
        · obtain ⟨i, hi, hwi, hni⟩ := h.prefix hg hu
          rw [hu, h.root] at hlg
          simp at hlg
          rw [hlg] at hwi
          rw [hroot i hi (by rw [hwi]; rfl), hn] at hni
          cases hni
    · simp only [Trie.chase, hf.next f c hf0]
      cases hn : t0.next f c with
      | some r =>
        obtain ⟨h1, h2, h3⟩ := hstep r hn
        exact ⟨r, rfl, h1, h2, by omega, fun g _ _ hg => by omega⟩
      | none =>
        obtain ⟨f', e, k⟩ := hfail f (Nat.pos_of_ne_zero hf0) hlt (Nat.le_refl _)
        rw [e]
        simp only []
        have hp := k.proper
        obtain ⟨r, r1, r2, r3, r4, r5⟩ := ih f' k.lt (k.suffix.trans hs) (by omega) (fun g a b d => hfail g a b (by omega))
        refine ⟨r, r1, r2, r3, by omega, fun g hg hsg hlg => ?_⟩
        by_cases hsmall : (word g).length ≤ (word f').length + 1
        · exact r5 g hg hsg hsmall
        · exfalso
          rcases suffix_snoc hsg with h0 | ⟨u, hu, hus⟩
          · rw [h0] at hsmall; simp at hsmall
          · obtain ⟨i, hi, hwi, hni⟩ := h.prefix hg hu
            rw [hu] at hlg hsmall
            simp only [List.length_append, List.length_singleton] at hlg hsmall
            have huf : u <:+ word f := suffix_of_suffix_length hus hs (by omega)
            by_cases heq : u.length = (word f).length
            · have : u = word f := huf.eq_of_length heq
              rw [h.inj i f hi hlt (hwi.trans this), hn] at hni
              cases hni
            · have := k.longest i hi (by rw [hwi]; exact huf) (by rw [hwi]; have := huf.length_le; omega)
              rw [hwi] at this
              omega

theorem TrieOk.depth_le {t : Trie α} {word : Nat → List α} (h : TrieOk t word) : ∀ i, i < t.size → (word i).length ≤ i := by
  intro i
  induction i using Nat.strongRecOn with
  | _ i ih =>
    intro hi
    by_cases h0 : i = 0
    · subst h0; rw [h.root]; simp
    · obtain ⟨k, c, hk⟩ := h.parent i (Nat.pos_of_ne_zero h0) hi
      obtain ⟨h1, _, _, h4⟩ := h.child k c i hk
      have := h.order k c i hk
      have := ih k this h1
      rw [h4]; simp; omega

theorem TrieOk.next_inj {t : Trie α} {word : Nat → List α} (h : TrieOk t word) {i i' j : Nat} {c c' : α} (h1 : t.next i c = some j)
    (h2 : t.next i' c' = some j) : i = i' ∧ c = c' := by
  obtain ⟨a1, _, _, a4⟩ := h.child i c j h1
  obtain ⟨b1, _, _, b4⟩ := h.child i' c' j h2
  obtain ⟨e1, e2⟩ := List.append_inj' (a4.symm.trans b4) rfl
  simp at e2
  exact ⟨h.inj i i' a1 b1 e1, e2⟩

/-! ### `Build` -/

theorem rootLoop_spec {t0 : Trie α} {word : Nat → List α} (h : TrieOk t0 word) (chs : List α) : ∀ (t : Trie α) (q : List Nat),
    (∀ c, t.next 0 c = t0.next 0 c ∨ (t0.next 0 c = none ∧ t.next 0 c = some 0)) → (∀ i c, i ≠ 0 → t.next i c = t0.next i c) →
    (rootLoop chs (t, q)).2 = q ++ chs.filterMap (t0.next 0) ∧ (rootLoop chs (t, q)).1.size = t.size ∧
    (rootLoop chs (t, q)).1.pat = t.pat ∧ (rootLoop chs (t, q)).1.patterns = t.patterns ∧
    (∀ i c, i ≠ 0 → (rootLoop chs (t, q)).1.next i c = t0.next i c) ∧
    (∀ c, (rootLoop chs (t, q)).1.next 0 c = t0.next 0 c ∨ (t0.next 0 c = none ∧ (rootLoop chs (t, q)).1.next 0 c = some 0)) ∧
    (∀ c, (c ∈ chs ∨ t.next 0 c = some ((t0.next 0 c).getD 0)) → (rootLoop chs (t, q)).1.next 0 c = some ((t0.next 0 c).getD 0)) ∧
    (∀ i, (t.fail i = some 0 ∨ ∃ c ∈ chs, t0.next 0 c = some i) → (rootLoop chs (t, q)).1.fail i = some 0) := by
  induction chs with
  | nil =>
    intro t q h1 h2
    refine ⟨by simp [rootLoop], rfl, rfl, rfl, h2, h1, ?_, ?_⟩
    · intro c hc; rcases hc with hc | hc; cases hc; exact hc
    · intro i hi
      rcases hi with hi | ⟨c, hc, _⟩
      · exact hi
      · cases hc
  | cons c chs ih =>
    intro t q h1 h2
    simp only [rootLoop]
    have fillCase : t0.next 0 c = none → rootLoop chs (t.setNext 0 c 0, q) = rootLoop chs (t.setNext 0 c 0, q) →
        (rootLoop chs (t.setNext 0 c 0, q)).2 = q ++ (c :: chs).filterMap (t0.next 0) ∧ (rootLoop chs (t.setNext 0 c 0, q)).1.size = t.size ∧
        (rootLoop chs (t.setNext 0 c 0, q)).1.pat = t.pat ∧ (rootLoop chs (t.setNext 0 c 0, q)).1.patterns = t.patterns ∧
        (∀ i d, i ≠ 0 → (rootLoop chs (t.setNext 0 c 0, q)).1.next i d = t0.next i d) ∧
        (∀ d, (rootLoop chs (t.setNext 0 c 0, q)).1.next 0 d = t0.next 0 d ∨ (t0.next 0 d = none ∧ (rootLoop chs (t.setNext 0 c 0, q)).1.next 0 d = some 0)) ∧
        (∀ d, (d ∈ c :: chs ∨ t.next 0 d = some ((t0.next 0 d).getD 0)) → (rootLoop chs (t.setNext 0 c 0, q)).1.next 0 d = some ((t0.next 0 d).getD 0)) ∧
        (∀ i, (t.fail i = some 0 ∨ ∃ d ∈ c :: chs, t0.next 0 d = some i) → (rootLoop chs (t.setNext 0 c 0, q)).1.fail i = some 0) := by
      intro hn _
      obtain ⟨a1, a2, a3, a4, a5, a6, a7, a8⟩ := ih (t.setNext 0 c 0) q (by
        intro d
        simp only [Trie.setNext, true_and]
        by_cases hd : d = c
        · subst hd; right; exact ⟨hn, by rw [if_pos rfl]⟩
        · rw [if_neg hd]; exact h1 d) (by
        intro i d hi
        simp only [Trie.setNext]
        rw [if_neg (fun hc => hi hc.1)]
        exact h2 i d hi)
      refine ⟨?_, a2, a3, a4, a5, a6, ?_, ?_⟩
      · rw [a1, List.filterMap_cons, hn]
      · intro d hd
        apply a7
        by_cases hdc : d = c
        · right
          subst hdc
          simp only [Trie.setNext, and_self, if_true, hn, Option.getD_none]
        · rcases hd with hd | hd
          · rcases List.mem_cons.mp hd with hd | hd
            · exact absurd hd hdc
            · exact Or.inl hd
          · right
            simp only [Trie.setNext, true_and]
            rw [if_neg hdc]; exact hd
      · intro i hi
        apply a8
        rcases hi with hi | ⟨d, hd, hdi⟩
        · exact Or.inl hi
        · rcases List.mem_cons.mp hd with hd | hd
          · subst hd; rw [hn] at hdi; cases hdi
          · exact Or.inr ⟨d, hd, hdi⟩
    rcases h1 c with hc | ⟨hc, hc'⟩
    · cases hn : t0.next 0 c with
      | none =>
        rw [hc, hn]
        exact fillCase hn rfl
      | some j =>
        have hj : j ≠ 0 := by have := (h.child 0 c j hn).2.1; omega
        rw [hc, hn]
        simp only [ne_eq, hj, not_false_eq_true, if_true]
        obtain ⟨a1, a2, a3, a4, a5, a6, a7, a8⟩ := ih (t.setFail j 0) (q ++ [j]) h1 h2
        refine ⟨?_, a2, a3, a4, a5, a6, ?_, ?_⟩
        · rw [a1, List.filterMap_cons, hn]; simp
        · intro d hd
          apply a7
          rcases hd with hd | hd
          · rcases List.mem_cons.mp hd with hd | hd
            · right
              subst hd
              show t.next 0 d = _
              rw [hc, hn]; rfl
            · exact Or.inl hd
          · exact Or.inr hd
        · intro i hi
          apply a8
          by_cases hij : i = j
          · left; simp only [Trie.setFail]; rw [if_pos hij]
          · rcases hi with hi | ⟨d, hd, hdi⟩
            · left; simp only [Trie.setFail]; rw [if_neg hij]; exact hi
            · rcases List.mem_cons.mp hd with hd | hd
              · subst hd; rw [hn] at hdi; injection hdi with hdi; exact absurd hdi.symm hij
              · exact Or.inr ⟨d, hd, hdi⟩
    · rw [hc']
      simp only [ne_eq, not_true_eq_false, if_false]
      exact fillCase hc rfl

theorem Filled.setFail {t0 t : Trie α} (h : Filled t0 t) (i f : Nat) : Filled t0 (t.setFail i f) :=
  ⟨h.size, h.pat, h.patterns, h.root, h.next⟩

theorem childLoop_spec {t0 : Trie α} {word : Nat → List α} (h : TrieOk t0 word) {n : Nat} (hn0 : n ≠ 0) (hn : n < t0.size) (chs : List α) :
    ∀ (t : Trie α) (q : List Nat), Filled t0 t →
    (∀ g, 0 < g → g < t0.size → (word g).length ≤ (word n).length → ∃ f, t.fail g = some f ∧ IsFail t0.size word g f) →
    ∃ t', childLoop n chs (t, q) = some (t', q ++ chs.filterMap (t0.next n)) ∧ Filled t0 t' ∧
      (∀ i, (∀ c ∈ chs, t0.next n c ≠ some i) → t'.fail i = t.fail i) ∧
      (∀ c ∈ chs, ∀ i, t0.next n c = some i → ∃ f, t'.fail i = some f ∧ IsFail t0.size word i f) := by
  induction chs with
  | nil => intro t q hf hd; exact ⟨t, by simp [childLoop], hf, fun _ _ => rfl, by simp⟩
  | cons c chs ih =>
    intro t q hf hd
    simp only [childLoop, hf.next n c hn0]
    cases hnc : t0.next n c with
    | none =>
      obtain ⟨t', a1, a2, a3, a4⟩ := ih t q hf hd
      refine ⟨t', ?_, a2, ?_, ?_⟩
      · rw [a1, List.filterMap_cons, hnc]
      · intro i hi; exact a3 i (fun d hd => hi d (by simp [hd]))
      · intro d hd i hdi
        rcases List.mem_cons.mp hd with rfl | hd
        · rw [hnc] at hdi; cases hdi
        · exact a4 d hd i hdi
    | some j =>
      obtain ⟨_, j1, j2, j3⟩ := h.child n c j hnc
      have hjl : (word j).length = (word n).length + 1 := by rw [j3]; simp
      obtain ⟨f, e, k⟩ := hd n (Nat.pos_of_ne_zero hn0) hn (Nat.le_refl _)
      have hp := k.proper
      obtain ⟨r, r1, r2, r3, r4, r5⟩ := chase_spec h hf c (word n) t.size f k.lt k.suffix
        (by rw [hf.size]; exact Nat.lt_of_le_of_lt (h.depth_le f k.lt) k.lt) (fun g a b d => hd g a b (by omega))
      have hfail : IsFail t0.size word j r := by
        refine ⟨r2, by rw [j3]; exact r3, by omega, fun g hg hs hl => ?_⟩
        rw [j3] at hs
        refine r5 g hg hs ?_
        rcases suffix_snoc hs with h0 | ⟨u, hu, hus⟩
        · rw [h0]; simp
        · obtain ⟨i, hi, hwi, _⟩ := h.prefix hg hu
          rw [hu] at hl ⊢
          simp only [List.length_append, List.length_singleton] at hl ⊢
          have := k.longest i hi (by rw [hwi]; exact hus) (by rw [hwi]; omega)
          rw [hwi] at this
          omega
      rw [e]
      simp only [r1]
      obtain ⟨t', a1, a2, a3, a4⟩ := ih (t.setFail j r) (q ++ [j]) (hf.setFail j r) (by
        intro g g0 g1 gl
        obtain ⟨f', e', k'⟩ := hd g g0 g1 gl
        refine ⟨f', ?_, k'⟩
        simp only [Trie.setFail]
        rw [if_neg, e']
        intro hgj
        subst hgj
        omega)
      refine ⟨t', ?_, a2, ?_, ?_⟩
      · rw [a1, List.filterMap_cons, hnc]; simp
      · intro i hi
        rw [a3 i (fun d hd => hi d (by simp [hd]))]
        simp only [Trie.setFail]
        rw [if_neg]
        intro hij
        subst hij
        exact hi c (by simp) hnc
      · intro d hd i hdi
        rcases List.mem_cons.mp hd with rfl | hd
        · rw [hnc] at hdi
          injection hdi with hdi
          subst hdi
          by_cases hm : d ∈ chs
          · exact a4 d hm j hnc
          · refine ⟨r, ?_, hfail⟩
            rw [a3 j ?_]
            · simp [Trie.setFail]
            · intro d' hd' hc
              exact hm ((h.next_inj hc hnc).2 ▸ hd')
        · exact a4 d hd i hdi

/-- The invariant of the queue: `P` has been taken from it. -/
structure BuildOk (t0 : Trie α) (word : Nat → List α) (t : Trie α) (P queue : List Nat) : Prop where
  filled : Filled t0 t
  fails : ∀ i ∈ P ++ queue, ∃ f, t.fail i = some f ∧ IsFail t0.size word i f
  range : ∀ i ∈ P ++ queue, 0 < i ∧ i < t0.size
  nodup : (P ++ queue).Nodup
  closed : ∀ i c j, t0.next i c = some j → (j ∈ P ++ queue ↔ i = 0 ∨ i ∈ P)
  sorted : queue.Pairwise (fun a b => (word a).length ≤ (word b).length)
  close : ∀ a ∈ queue, ∀ b ∈ queue, (word b).length ≤ (word a).length + 1

theorem buildLoop_spec {t0 : Trie α} {word : Nat → List α} (h : TrieOk t0 word) {alphabet : List α} (hall : ∀ c, c ∈ alphabet)
    (hnd : alphabet.Nodup) (fuel : Nat) : ∀ (t : Trie α) (P queue : List Nat), BuildOk t0 word t P queue → t0.size ≤ P.length + fuel →
    ∃ t', buildLoop alphabet fuel t queue = some t' ∧ Filled t0 t' ∧
      ∀ i, 0 < i → i < t0.size → ∃ f, t'.fail i = some f ∧ IsFail t0.size word i f := by
  induction fuel with
  | zero =>
    intro t P queue hb hf
    exfalso
    have hlen : (P ++ queue).length ≤ (List.range (t0.size - 1)).length := by
      have hmap : ((P ++ queue).map (· - 1)).Nodup := by
        rw [List.Nodup, List.pairwise_map]
        refine List.Pairwise.imp_of_mem ?_ hb.nodup
        intro a b ha hb' hab
        have := hb.range a ha
        have := hb.range b hb'
        omega
      have := List.Nodup.length_le_of_subset (l₂ := List.range (t0.size - 1)) hmap (by
        intro x hx
        rw [List.mem_map] at hx
        obtain ⟨y, hy, rfl⟩ := hx
        have := hb.range y hy
        rw [List.mem_range]; omega)
      simpa using this
    have := h.pos
    simp at hlen hf
    omega
  | succ fuel ih =>
    intro t P queue hb hf
    cases queue with
    | nil =>
      refine ⟨t, rfl, hb.filled, ?_⟩
      have hin : ∀ i, 0 < i → i < t0.size → i ∈ P := by
        intro i
        induction i using Nat.strongRecOn with
        | _ i ih' =>
          intro i0 hi
          obtain ⟨k, c, hk⟩ := h.parent i i0 hi
          have hlt := h.order k c i hk
          have := hb.closed k c i hk
          rw [List.append_nil] at this
          rw [this]
          by_cases hk0 : k = 0
          · exact Or.inl hk0
          · exact Or.inr (ih' k hlt (Nat.pos_of_ne_zero hk0) (by omega))
      intro i i0 hi
      exact hb.fails i (by simp [hin i i0 hi])
    | cons n q =>
      obtain ⟨hn0, hn⟩ := hb.range n (by simp)
      have hmin : ∀ a ∈ n :: q, (word n).length ≤ (word a).length := by
        intro a ha
        rcases List.mem_cons.mp ha with rfl | ha
        · exact Nat.le_refl _
        · exact (List.pairwise_cons.mp hb.sorted).1 a ha
      have hin : ∀ g, 0 < g → g < t0.size → (word g).length ≤ (word n).length → g ∈ P ++ n :: q := by
        intro g
        induction g using Nat.strongRecOn with
        | _ g ih' =>
          intro g0 hg hl
          obtain ⟨k, c, hk⟩ := h.parent g g0 hg
          obtain ⟨k1, _, _, k4⟩ := h.child k c g hk
          have hlt := h.order k c g hk
          rw [hb.closed k c g hk]
          by_cases hk0 : k = 0
          · exact Or.inl hk0
          · right
            have hkl : (word g).length = (word k).length + 1 := by rw [k4]; simp
            have := ih' k hlt (Nat.pos_of_ne_zero hk0) k1 (by omega)
            rcases List.mem_append.mp this with h' | h'
            · exact h'
            · have := hmin k h'; omega
      obtain ⟨t', a1, a2, a3, a4⟩ := childLoop_spec h (by omega) hn alphabet t q hb.filled
        (fun g g0 g1 gl => hb.fails g (hin g g0 g1 gl))
      have hnP : n ∉ P := by
        intro hc
        exact (List.nodup_append.mp hb.nodup).2.2 n hc n (by simp) rfl
      have hch : ∀ j, j ∈ alphabet.filterMap (t0.next n) ↔ ∃ c, t0.next n c = some j := by
        intro j
        rw [List.mem_filterMap]
        exact ⟨fun ⟨c, _, e⟩ => ⟨c, e⟩, fun ⟨c, e⟩ => ⟨c, hall c, e⟩⟩
      have hnew : ∀ j, (∃ c, t0.next n c = some j) → j ∉ P ++ n :: q := by
        intro j ⟨c, hc⟩ hm
        rw [hb.closed n c j hc] at hm
        rcases hm with hm | hm
        · omega
        · exact hnP hm
      have hmem : ∀ j, j ∈ (P ++ [n]) ++ (q ++ alphabet.filterMap (t0.next n)) ↔ j ∈ P ++ n :: q ∨ ∃ c, t0.next n c = some j := by
        intro j
        rw [← hch j]
        simp [or_assoc]
      have hclen : ∀ j, (∃ c, t0.next n c = some j) → (word j).length = (word n).length + 1 := by
        intro j ⟨c, hc⟩
        rw [(h.child n c j hc).2.2.2]; simp
      simp only [buildLoop, a1]
      refine ih t' (P ++ [n]) (q ++ alphabet.filterMap (t0.next n)) ?_ (by simp; omega)
      constructor
      · exact a2
      · intro i hi
        rw [hmem] at hi
        rcases hi with hi | ⟨c, hc⟩
        · rw [a3 i (fun c _ hc => hnew i ⟨c, hc⟩ hi)]
          exact hb.fails i hi
        · exact a4 c (hall c) i hc
      · intro i hi
        rw [hmem] at hi
        rcases hi with hi | ⟨c, hc⟩
        · exact hb.range i hi
        · have := h.child n c i hc; exact ⟨this.2.1, this.2.2.1⟩
      · have e : (P ++ [n]) ++ (q ++ alphabet.filterMap (t0.next n)) = (P ++ n :: q) ++ alphabet.filterMap (t0.next n) := by simp
        rw [e, List.nodup_append]
        refine ⟨hb.nodup, ?_, ?_⟩
        · refine List.Pairwise.filterMap _ ?_ hnd
          intro a a' haa b hb' b' hb'' hbb
          subst hbb
          exact haa (h.next_inj hb' hb'').2
        · intro a ha b hb' hab
          subst hab
          exact hnew a ((hch a).mp hb') ha
      · intro i c j hij
        rw [hmem, hb.closed i c j hij]
        constructor
        · rintro ((h' | h') | ⟨d, hd⟩)
          · exact Or.inl h'
          · right; simp [h']
          · right; rw [(h.next_inj hij hd).1]; simp
        · rintro (h' | h')
          · exact Or.inl (Or.inl h')
          · rcases List.mem_append.mp h' with h' | h'
            · exact Or.inl (Or.inr h')
            · simp at h'; subst h'; exact Or.inr ⟨c, hij⟩
      · rw [List.pairwise_append]
        refine ⟨(List.pairwise_cons.mp hb.sorted).2, ?_, ?_⟩
        · rw [List.pairwise_iff_forall_sublist]
          intro a b hab
          have ha : a ∈ alphabet.filterMap (t0.next n) := hab.subset (by simp)
          have hb' : b ∈ alphabet.filterMap (t0.next n) := hab.subset (by simp)
          rw [hclen a ((hch a).mp ha), hclen b ((hch b).mp hb')]
          exact Nat.le_refl _
        · intro a ha b hb'
          rw [hclen b ((hch b).mp hb')]
          exact hb.close n (by simp) a (by simp [ha])
      · intro a ha b hb'
        have h1 : (word n).length ≤ (word a).length := by
          rcases List.mem_append.mp ha with ha | ha
          · exact hmin a (by simp [ha])
          · rw [hclen a ((hch a).mp ha)]; omega
        have h2 : (word b).length ≤ (word n).length + 1 := by
          rcases List.mem_append.mp hb' with hb' | hb'
          · exact hb.close n (by simp) b (by simp [hb'])
          · rw [hclen b ((hch b).mp hb')]; omega
        omega

/-- The built trie. -/
structure Built (t0 : Trie α) (word : Nat → List α) (t : Trie α) : Prop where
  ok : TrieOk t0 word
  filled : Filled t0 t
  fails : ∀ i, 0 < i → i < t0.size → ∃ f, t.fail i = some f ∧ IsFail t0.size word i f

theorem build_spec {t0 : Trie α} {word : Nat → List α} (h : TrieOk t0 word) {alphabet : List α} (hall : ∀ c, c ∈ alphabet)
    (hnd : alphabet.Nodup) : ∃ t', t0.build alphabet = some t' ∧ Filled t0 t' ∧
      ∀ i, 0 < i → i < t0.size → ∃ f, t'.fail i = some f ∧ IsFail t0.size word i f := by
  obtain ⟨a1, a2, a3, a4, a5, a6, a7, a8⟩ := rootLoop_spec h alphabet (t0.setFail 0 0) [] (fun c => Or.inl rfl) (fun i c _ => rfl)
  generalize hs : rootLoop alphabet (t0.setFail 0 0, []) = s at *
  have hch : ∀ j, j ∈ s.2 ↔ ∃ c, t0.next 0 c = some j := by
    intro j
    rw [a1, List.nil_append, List.mem_filterMap]
    exact ⟨fun ⟨c, _, e⟩ => ⟨c, e⟩, fun ⟨c, e⟩ => ⟨c, hall c, e⟩⟩
  have hlen : ∀ j, j ∈ s.2 → (word j).length = 1 := by
    intro j hj
    obtain ⟨c, hc⟩ := (hch j).mp hj
    rw [(h.child 0 c j hc).2.2.2, h.root]; rfl
  have hb : BuildOk t0 word s.1 [] s.2 := by
    constructor
    · exact ⟨a2, a3, a4, fun c => a7 c (Or.inl (hall c)), a5⟩
    · intro i hi
      rw [List.nil_append] at hi
      obtain ⟨c, hc⟩ := (hch i).mp hi
      refine ⟨0, a8 i (Or.inr ⟨c, hall c, hc⟩), h.pos, by rw [h.root]; exact List.nil_suffix, by rw [hlen i hi, h.root]; simp, ?_⟩
      intro g _ _ hl
      rw [hlen i hi] at hl
      omega
    · intro i hi
      rw [List.nil_append] at hi
      obtain ⟨c, hc⟩ := (hch i).mp hi
      have := h.child 0 c i hc
      exact ⟨this.2.1, this.2.2.1⟩
    · rw [List.nil_append, a1, List.nil_append]
      refine List.Pairwise.filterMap _ ?_ hnd
      intro a a' haa b hb' b' hb'' hbb
      subst hbb
      exact haa (h.next_inj hb' hb'').2
    · intro i c j hij
      rw [List.nil_append, hch]
      constructor
      · rintro ⟨d, hd⟩; exact Or.inl (h.next_inj hij hd).1
      · rintro (h' | h')
        · subst h'; exact ⟨c, hij⟩
        · cases h'
    · rw [List.pairwise_iff_forall_sublist]
      intro a b hab
      rw [hlen a (hab.subset (by simp)), hlen b (hab.subset (by simp))]
      exact Nat.le_refl _
    · intro a ha b hb'
      rw [hlen a ha, hlen b hb']; omega
  obtain ⟨t', b1, b2, b3⟩ := buildLoop_spec h hall hnd t0.size s.1 [] s.2 hb (by simp)
  exact ⟨t', by rw [Trie.build, hs]; exact b1, b2, b3⟩

/-! ### `Search` -/

theorem downFrom_skip {β : Type} (F : Nat → Option β) {k m : Nat} (hkm : k ≤ m) (h : ∀ l, k < l → l ≤ m → F l = none) :
    (downFrom m).filterMap F = (downFrom k).filterMap F := by
  induction m with
  | zero => have : k = 0 := by omega
            rw [this]
  | succ m ih =>
    by_cases hk : k = m + 1
    · rw [hk]
    · rw [downFrom, List.filterMap_cons, h (m + 1) (by omega) (Nat.le_refl _)]
      exact ih (by omega) (fun l h1 h2 => h l h1 (by omega))

theorem suffix_eq_drop {x w : List α} (h : x <:+ w) : x = w.drop (w.length - x.length) := by
  obtain ⟨y, rfl⟩ := h
  have : (y ++ x).length - x.length = y.length := by simp
  rw [this, List.drop_left]

/-- What is reported at one position: `w` is the text up to there. -/
theorem reports_spec {t0 t : Trie α} {word : Nat → List α} (h : Built t0 word t) (w : List α) (fuel : Nat) : ∀ f, f < t0.size → word f <:+ w →
    (word f).length < fuel →
    t.reports w.length fuel f = some ((downFrom (word f).length).filterMap fun l =>
      (lastIndex t0.patterns (w.drop (w.length - l))).map fun k => (k, w.length - l)) := by
  induction fuel with
  | zero => intro f _ _ hl; omega
  | succ fuel ih =>
    intro f hf hs hl
    simp only [Trie.reports]
    by_cases hf0 : f = 0
    · rw [if_pos hf0, hf0, h.ok.root]; rfl
    · rw [if_neg hf0]
      obtain ⟨f', e, k⟩ := h.fails f (Nat.pos_of_ne_zero hf0) hf
      have hp := k.proper
      rw [e]
      simp only []
      rw [ih f' k.lt (k.suffix.trans hs) (by omega)]
      simp only []
      have hlen := hs.length_le
      have hword : w.drop (w.length - (word f).length) = word f := (suffix_eq_drop hs).symm
      obtain ⟨m, hm⟩ : ∃ m, (word f).length = m + 1 := ⟨(word f).length - 1, by omega⟩
      have hskip := downFrom_skip (fun l => (lastIndex t0.patterns (w.drop (w.length - l))).map fun k => (k, w.length - l))
        (k := (word f').length) (m := m) (by omega) (by
        intro l hl1 hl2
        have hnone : lastIndex t0.patterns (w.drop (w.length - l)) = none := by
          rw [lastIndex_none]
          intro hmem
          obtain ⟨g, hg, hwg⟩ := h.ok.mem _ hmem
          have hdl : (w.drop (w.length - l)).length = l := by rw [List.length_drop]; omega
          have hgs : word g <:+ word f := by
            rw [hwg]
            exact suffix_of_suffix_length (List.drop_suffix _ _) hs (by rw [hdl]; omega)
          have := k.longest g hg hgs (by rw [hwg, hdl]; omega)
          rw [hwg, hdl] at this
          omega
        rw [hnone]; rfl)
      have hpat : t.pat f = lastIndex t0.patterns (word f) := by rw [h.filled.pat]; exact h.ok.pat f hf
      rw [hm, downFrom, List.filterMap_cons, ← hm, hword, hpat, hskip]
      cases hl' : lastIndex t0.patterns (word f) with
      | none => rfl
      | some k' =>
        have := (lastIndex_some.mp hl').1
        simp only [Option.map_some]
        rw [h.filled.patterns, List.getD_eq_getElem?_getD, this]
        rfl

/-- The state of the search: the node of the longest suffix of what was read. -/
structure Current (n : Nat) (word : Nat → List α) (w : List α) (node : Nat) : Prop where
  lt : node < n
  suffix : word node <:+ w
  longest : ∀ g, g < n → word g <:+ w → (word g).length ≤ (word node).length

theorem searchLoop_spec {t0 t : Trie α} {word : Nat → List α} (h : Built t0 word t) (cs : List α) : ∀ (w : List α) (node : Nat), Current t0.size word w node →
    t.searchLoop cs w.length node = some ((List.range cs.length).flatMap fun i =>
      endingAt t0.patterns (w ++ cs.take (i + 1)) (w.length + i + 1)) := by
  induction cs with
  | nil => intro w node _; rfl
  | cons c cs ih =>
    intro w node hc
    have hsz : t.size = t0.size := h.filled.size
    obtain ⟨r, r1, r2, r3, r4, r5⟩ := chase_spec h.ok h.filled c w t.size node hc.lt hc.suffix
      (by rw [hsz]; exact Nat.lt_of_le_of_lt (h.ok.depth_le node hc.lt) hc.lt) (fun g a b _ => h.fails g a b)
    have hcur : Current t0.size word (w ++ [c]) r := by
      refine ⟨r2, r3, fun g hg hs => r5 g hg hs ?_⟩
      rcases suffix_snoc hs with h0 | ⟨u, hu, hus⟩
      · rw [h0]; simp
      · obtain ⟨i, hi, hwi, _⟩ := h.ok.prefix hg hu
        have := hc.longest i hi (by rw [hwi]; exact hus)
        rw [hwi] at this
        rw [hu]; simp; omega
    have hrep := reports_spec h (w ++ [c]) t.size r r2 r3 (by rw [hsz]; exact Nat.lt_of_le_of_lt (h.ok.depth_le r r2) r2)
    have hlen : (w ++ [c]).length = 1 + w.length := by simp; omega
    have hlen' : (w ++ [c]).length = w.length + 1 := by simp
    have hend : (downFrom (word r).length).filterMap (fun l => (lastIndex t0.patterns ((w ++ [c]).drop ((w ++ [c]).length - l))).map fun k => (k, (w ++ [c]).length - l))
        = endingAt t0.patterns (w ++ [c]) (w ++ [c]).length := by
      unfold endingAt
      symm
      refine downFrom_skip _ r3.length_le ?_
      intro l hl1 hl2
      have hnone : lastIndex t0.patterns ((w ++ [c]).drop ((w ++ [c]).length - l)) = none := by
        rw [lastIndex_none]
        intro hmem
        obtain ⟨g, hg, hwg⟩ := h.ok.mem _ hmem
        have hdl : ((w ++ [c]).drop ((w ++ [c]).length - l)).length = l := by rw [List.length_drop]; omega
        have := hcur.longest g hg (by rw [hwg]; exact List.drop_suffix _ _)
        rw [hwg, hdl] at this
        omega
      rw [hnone]; rfl
    rw [hend] at hrep
    rw [hlen] at hrep
    have hrec := ih (w ++ [c]) r hcur
    rw [hlen'] at hrec
    simp only [Trie.searchLoop, r1, hrep, hrec]
    rw [List.length_cons, List.range_succ_eq_map, List.flatMap_cons, List.flatMap_map]
    refine congrArg some ?_
    congr 1
    · simp [Nat.add_comm]
    · congr 1
      funext i
      simp only [List.take_succ_cons, List.append_assoc, List.singleton_append]
      congr 1
      omega

/-- C80.  Patterns are added, the trie is built, a text is searched: nothing fails, and the callback gets exactly
`allReports`: by end position, at each end the longer patterns first, every occurrence of every pattern that is not empty (of
equal patterns only the last). -/
theorem search_spec {alphabet : List α} (hall : ∀ c, c ∈ alphabet) (hnd : alphabet.Nodup) (ps : List (List α)) :
    ∃ t, (ps.foldl Trie.add Trie.empty).build alphabet = some t ∧ ∀ text, t.search text = some (allReports ps text) := by
  obtain ⟨word, h1, h2⟩ := addAll_ok ps Trie.empty (fun _ => []) trieOk_empty
  have h2' : (ps.foldl Trie.add Trie.empty).patterns = ps := by rw [h2]; rfl
  obtain ⟨t, b1, b2, b3⟩ := build_spec h1 hall hnd
  refine ⟨t, b1, fun text => ?_⟩
  have hb : Built (ps.foldl Trie.add Trie.empty) word t := ⟨h1, b2, b3⟩
  have hc : Current (ps.foldl Trie.add Trie.empty).size word [] 0 :=
    ⟨h1.pos, by rw [h1.root]; exact List.nil_suffix, fun g _ hs => by rw [List.suffix_nil.mp hs]; simp⟩
  have := searchLoop_spec hb text [] 0 hc
  rw [Trie.search]
  rw [List.length_nil] at this
  rw [this, h2']
  simp [allReports]

theorem mem_downFrom {l k : Nat} : l ∈ downFrom k ↔ 0 < l ∧ l ≤ k := by
  induction k with
  | zero => simp [downFrom]; omega
  | succ k ih => rw [downFrom, List.mem_cons, ih]; omega

/-- C80.  Which occurrences these are: the pattern `k` stands at `p` in the text, it is not empty, and no
pattern added later is equal to it. -/
theorem mem_allReports (ps : List (List α)) (text : List α) (k p : Nat) : (k, p) ∈ allReports ps text ↔
    ∃ x y w, text = x ++ w ++ y ∧ x.length = p ∧ w ≠ [] ∧ ps[k]? = some w ∧ ∀ k', k < k' → ps[k']? ≠ some w := by
  unfold allReports endingAt
  simp only [List.mem_flatMap, List.mem_range, List.mem_filterMap, mem_downFrom, Option.map_eq_some_iff, Prod.mk.injEq]
  constructor
  · rintro ⟨i, hi, l, ⟨hl0, hl⟩, k', hk, rfl, rfl⟩
    have hs := lastIndex_some.mp hk
    refine ⟨text.take (i + 1 - l), text.drop (i + 1), (text.take (i + 1)).drop (i + 1 - l), ?_, ?_, ?_, hs.1, hs.2⟩
    · have : text.take (i + 1 - l) = (text.take (i + 1)).take (i + 1 - l) := by rw [List.take_take]; congr 1; omega
      rw [this, List.take_append_drop, List.take_append_drop]
    · simp; omega
    · intro h0
      have := congrArg List.length h0
      simp at this
      omega
  · rintro ⟨x, y, w, rfl, rfl, hw, h1, h2⟩
    have hpos : 0 < w.length := List.length_pos_iff.mpr hw
    refine ⟨x.length + w.length - 1, by simp; omega, w.length, ⟨hpos, by omega⟩, k, ?_, rfl, by omega⟩
    have e1 : x.length + w.length - 1 + 1 = (x ++ w).length := by simp; omega
    have e2 : (x ++ w).length - w.length = x.length := by simp
    rw [e1, List.take_left, e2, List.drop_left]
    exact lastIndex_some.mpr ⟨h1, h2⟩

/-- C80 in one sentence about the code: the callback gets `(k, p)` if and only if pattern `k` stands at `p`
and no later pattern is equal. -/
theorem search_complete {alphabet : List α} (hall : ∀ c, c ∈ alphabet) (hnd : alphabet.Nodup) (ps : List (List α)) (text : List α) :
    ∃ t rs, (ps.foldl Trie.add Trie.empty).build alphabet = some t ∧ t.search text = some rs ∧
      ∀ k p, (k, p) ∈ rs ↔ ∃ x y w, text = x ++ w ++ y ∧ x.length = p ∧ w ≠ [] ∧ ps[k]? = some w ∧ ∀ k', k < k' → ps[k']? ≠ some w := by
  obtain ⟨t, h1, h2⟩ := search_spec hall hnd ps
  exact ⟨t, _, h1, h2 text, mem_allReports ps text⟩

/-- he, she, his, hers in "ushers" over a small alphabet. -/
example : ((([[0, 1], [2, 0, 1], [0, 3, 2], [0, 1, 4, 2]] : List (List (Fin 6))).foldl Trie.add Trie.empty).build (List.finRange 6)).bind
    (fun t => t.search [5, 2, 0, 1, 4, 2]) = some [(1, 1), (0, 2), (3, 2)] := by decide +kernel

/-- C80 is violated for equal patterns and for the empty one: their indices are never reported. -/
theorem duplicate_violated (ps : List (List α)) (text : List α) (k k' p : Nat) (w : List α) (h1 : ps[k]? = some w)
    (h2 : (k < k' ∧ ps[k']? = some w) ∨ w = []) : (k, p) ∉ allReports ps text := by
  rw [mem_allReports]
  rintro ⟨x, y, v, _, _, hv, h3, h4⟩
  rw [h1] at h3
  injection h3 with h3
  subst h3
  rcases h2 with ⟨a, b⟩ | h2
  · exact h4 k' a b
  · exact hv h2

example : allReports ([[0], [0]] : List (List (Fin 2))) [0] = [(1, 0)] := by decide +kernel

end Verif.Str

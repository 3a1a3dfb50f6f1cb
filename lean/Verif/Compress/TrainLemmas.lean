import Verif.Compress.Train
import Verif.Compress.PpmProps
/-
Lemmas for C160: the training of a PPM dictionary.
-/
namespace Verif.Compress.Train
open Verif.Compress

theorem before_trans {a b c : List Nat} (h1 : Spec.Before a b) (h2 : Spec.Before b c) : Spec.Before a c := by
  induction h1 generalizing c with
  | prefix_ => cases h2 <;> exact .prefix_
  | differ h =>
    cases h2 with
    | differ h' => exact .differ (by omega)
    | same _ => exact .differ h
  | same _ ih =>
    cases h2 with
    | differ h' => exact .differ h'
    | same h' => exact .same (ih h')

theorem lexLess_total {a b : List Nat} (h1 : lexLess a b = false) (h2 : lexLess b a = false) : a = b := by
  induction a generalizing b with
  | nil => cases b with
    | nil => rfl
    | cons => simp [lexLess] at h1
  | cons x a ih => cases b with
    | nil => simp [lexLess] at h2
    | cons y b =>
      simp only [lexLess] at h1 h2
      by_cases c1 : x < y
      · simp [c1] at h1
      · by_cases c2 : y < x
        · simp [c2] at h2
        · simp only [c1, c2, if_false] at h1 h2
          rw [ih h1 h2, show x = y by omega]

theorem lexLess_irrefl (a : List Nat) : lexLess a a = false := by
  cases h : lexLess a a with
  | false => rfl
  | true => exact absurd ((lexLess_iff _ _).mp h) (before_irrefl _)

/-! ### Counts -/

/-- the count of a symbol -/
def Spec.count (s : Nat) : List (Nat × Nat) → Nat
  | [] => 0
  | (a, k) :: rest => (if a = s then k else 0) + Spec.count s rest

theorem addSym_count (s n t : Nat) : ∀ c, Spec.count t (addSym s n c).1 = Spec.count t c + if s = t then n else 0
  | [] => by simp [addSym, Spec.count]
  | (a, k) :: rest => by
    unfold addSym
    split
    · simp only [Spec.count, addSym_count s n t rest]; omega
    · split
      · rename_i h; subst h
        simp only [Spec.count]
        split <;> omega
      · simp only [Spec.count]; omega

theorem addSym_sum (s n : Nat) : ∀ c, sum (addSym s n c).1 = sum c + n
  | [] => by simp [addSym, sum]
  | (a, k) :: rest => by
    unfold addSym
    split
    · simp only [sum_cons, addSym_sum s n rest]; omega
    · split
      · simp only [sum_cons]; omega
      · simp only [sum_cons]; omega

theorem addSym_length (s n : Nat) : ∀ c, (addSym s n c).1.length = c.length + if (addSym s n c).2 then 1 else 0
  | [] => by simp [addSym]
  | (a, k) :: rest => by
    unfold addSym
    split
    · simp only [List.length_cons, addSym_length s n rest]; omega
    · split <;> simp

theorem addSym_ne (s n : Nat) (c : List (Nat × Nat)) : (addSym s n c).1 ≠ [] := by
  cases c with
  | nil => simp [addSym]
  | cons x c => obtain ⟨a, k⟩ := x; unfold addSym; split <;> (try split) <;> simp

theorem addSym_keys (s n : Nat) : ∀ c x, x ∈ (addSym s n c).1 → (x.1 = s ∨ ∃ y ∈ c, y.1 = x.1)
  | [], x, h => by simp [addSym] at h; subst h; exact .inl rfl
  | (a, k) :: rest, x, h => by
    unfold addSym at h
    split at h
    · rcases List.mem_cons.mp h with rfl | h
      · exact .inr ⟨_, List.mem_cons_self .., rfl⟩
      · rcases addSym_keys s n rest x h with h | ⟨y, hy, e⟩
        · exact .inl h
        · exact .inr ⟨y, by simp [hy], e⟩
    · split at h
      · rcases List.mem_cons.mp h with rfl | h
        · exact .inr ⟨(a, k), by simp, rfl⟩
        · exact .inr ⟨x, by simp [h], rfl⟩
      · rcases List.mem_cons.mp h with rfl | h
        · exact .inl rfl
        · exact .inr ⟨x, h, rfl⟩

theorem addSym_pos (s n : Nat) (hn : 0 < n) : ∀ c, (∀ x ∈ c, 0 < x.2) → ∀ x ∈ (addSym s n c).1, 0 < x.2
  | [], _, x, h => by simp [addSym] at h; subst h; exact hn
  | (a, k) :: rest, hp, x, h => by
    have hk := hp (a, k) (by simp)
    have hr : ∀ x ∈ rest, 0 < x.2 := fun x hx => hp x (by simp [hx])
    unfold addSym at h
    split at h
    · rcases List.mem_cons.mp h with rfl | h
      · exact hk
      · exact addSym_pos s n hn rest hr x h
    · split at h
      · rcases List.mem_cons.mp h with rfl | h
        · simp only; omega
        · exact hr x h
      · rcases List.mem_cons.mp h with rfl | h
        · exact hn
        · exact hp x h

theorem addSym_sorted (s n : Nat) : ∀ c : List (Nat × Nat), (c.map (·.1)).Pairwise (· < ·) → ((addSym s n c).1.map (·.1)).Pairwise (· < ·)
  | [], _ => by simp [addSym]
  | (a, k) :: rest, hp => by
    have h1 := List.pairwise_cons.mp hp
    unfold addSym
    split
    · rename_i ha
      refine List.pairwise_cons.mpr ⟨?_, addSym_sorted s n rest h1.2⟩
      intro y hy
      obtain ⟨x, hx, rfl⟩ := List.mem_map.mp hy
      rcases addSym_keys s n rest x hx with h | ⟨z, hz, e⟩
      · rw [h]; exact ha
      · rw [← e]; exact h1.1 _ (List.mem_map_of_mem hz)
    · split
      · exact hp
      · refine List.pairwise_cons.mpr ⟨?_, hp⟩
        intro y hy
        rcases List.mem_cons.mp hy with rfl | hy
        · simp only; omega
        · have := h1.1 y hy; simp only at this ⊢; omega

theorem addSym_counts {s n : Nat} (hs : s < 256) (hn : 0 < n) {c : List (Nat × Nat)} (h : Spec.Counts c) : Spec.Counts (addSym s n c).1 :=
  ⟨addSym_sorted s n c h.sorted, fun x hx => by
    rcases addSym_keys s n c x hx with e | ⟨y, hy, e⟩
    · rw [e]; exact hs
    · rw [← e]; exact h.bytes y hy, addSym_pos s n hn c h.pos⟩

theorem counts_nil : Spec.Counts [] := ⟨List.Pairwise.nil, fun _ h => (nomatch h), fun _ h => (nomatch h)⟩

/-! ### Contexts -/

abbrev Ctxs := List (List Nat × List (Nat × Nat))

/-- the keys are in ascending order -/
def Sorted (l : Ctxs) : Prop := (l.map (·.1)).Pairwise Spec.Before

theorem insertKey_spec (key : List Nat) : ∀ l : Ctxs, Sorted l →
    (key ∈ l.map (·.1) ∧ insertKey key l = (l, false)) ∨
    (key ∉ l.map (·.1) ∧ ∃ pre post, l = pre ++ post ∧ insertKey key l = (pre ++ (key, []) :: post, true) ∧ Sorted (pre ++ (key, []) :: post))
  | [], _ => .inr ⟨by simp, [], [], rfl, rfl, by simp [Sorted]⟩
  | (k, c) :: rest, hs => by
    have h1 := List.pairwise_cons.mp (show (((k, c) :: rest).map (·.1)).Pairwise Spec.Before from hs)
    unfold insertKey
    by_cases hlt : lexLess k key = true
    · rw [if_pos hlt]
      have hb := (lexLess_iff _ _).mp hlt
      rcases insertKey_spec key rest h1.2 with ⟨hm, he⟩ | ⟨hm, pre, post, e1, e2, e3⟩
      · left
        exact ⟨by rw [List.map_cons]; exact List.mem_cons_of_mem _ hm, by rw [he]⟩
      · right
        refine ⟨?_, (k, c) :: pre, post, by rw [e1]; rfl, by rw [e2]; rfl, ?_⟩
        · rw [List.map_cons, List.mem_cons]
          rintro (h | h)
          · subst h; exact before_irrefl _ hb
          · exact hm h
        · refine List.pairwise_cons.mpr ⟨?_, e3⟩
          intro y hy
          have hy : y ∈ (pre ++ (key, []) :: post).map (·.1) := hy
          simp only [List.map_append, List.map_cons, List.mem_append, List.mem_cons] at hy
          have hin : ∀ z ∈ rest.map (·.1), Spec.Before k z := h1.1
          rw [e1, List.map_append] at hin
          rcases hy with hy | rfl | hy
          · exact hin y (List.mem_append.mpr (.inl hy))
          · exact hb
          · exact hin y (List.mem_append.mpr (.inr hy))
    · rw [if_neg hlt]
      by_cases hgt : lexLess key k = true
      · rw [if_pos hgt]
        have hb := (lexLess_iff _ _).mp hgt
        right
        have hall : ∀ z ∈ ((k, c) :: rest).map (·.1), Spec.Before key z := by
          intro z hz
          rw [List.map_cons, List.mem_cons] at hz
          rcases hz with rfl | hz
          · exact hb
          · exact before_trans hb (h1.1 z hz)
        refine ⟨fun h => before_irrefl _ (hall key h), [], (k, c) :: rest, rfl, rfl, List.pairwise_cons.mpr ⟨hall, hs⟩⟩
      · rw [if_neg hgt]
        left
        have : k = key := lexLess_total (by simpa using hlt) (by simpa using hgt)
        exact ⟨by simp [this], rfl⟩

theorem get_at (key : List Nat) (c : List (Nat × Nat)) (post : Ctxs) : ∀ pre : Ctxs, key ∉ pre.map (·.1) → get key (pre ++ (key, c) :: post) = c
  | [], _ => by simp [get]
  | (k, d) :: pre, h => by
    rw [List.map_cons, List.mem_cons] at h
    have hk : k ≠ key := fun e => h (.inl e.symm)
    rw [List.cons_append, get, if_neg hk]
    exact get_at key c post pre fun hm => h (.inr hm)

theorem upd_at (key : List Nat) (f : List (Nat × Nat) → List (Nat × Nat)) (c : List (Nat × Nat)) (post : Ctxs) : ∀ pre : Ctxs, key ∉ pre.map (·.1) →
    upd key f (pre ++ (key, c) :: post) = pre ++ (key, f c) :: post
  | [], _ => by simp [upd]
  | (k, d) :: pre, h => by
    rw [List.map_cons, List.mem_cons] at h
    have hk : k ≠ key := fun e => h (.inl e.symm)
    rw [List.cons_append, upd, if_neg hk, upd_at key f c post pre fun hm => h (.inr hm)]; rfl

theorem eraseKey_at (key : List Nat) (c : List (Nat × Nat)) (post : Ctxs) : ∀ pre : Ctxs, key ∉ pre.map (·.1) →
    eraseKey key (pre ++ (key, c) :: post) = pre ++ post
  | [], _ => by simp [eraseKey]
  | (k, d) :: pre, h => by
    rw [List.map_cons, List.mem_cons] at h
    have hk : k ≠ key := fun e => h (.inl e.symm)
    rw [List.cons_append, eraseKey, if_neg hk, eraseKey_at key c post pre fun hm => h (.inr hm)]; rfl

theorem sorted_split {pre post : Ctxs} {key : List Nat} {c : List (Nat × Nat)} (h : Sorted (pre ++ (key, c) :: post)) :
    key ∉ pre.map (·.1) ∧ key ∉ post.map (·.1) ∧ Sorted (pre ++ post) ∧ ∀ d, Sorted (pre ++ (key, d) :: post) := by
  unfold Sorted at *
  have hd : ∀ d, (pre ++ (key, d) :: post).map (·.1) = (pre ++ (key, c) :: post).map (·.1) := by intro d; simp
  rw [List.map_append, List.map_cons] at h
  obtain ⟨h1, h2, h3⟩ := List.pairwise_append.mp h
  have h2' := List.pairwise_cons.mp h2
  refine ⟨?_, ?_, ?_, ?_⟩
  · intro hm; exact before_irrefl _ (h3 _ hm _ (List.mem_cons_self ..))
  · intro hm; exact before_irrefl _ (h2'.1 _ hm)
  · rw [List.map_append]
    exact List.pairwise_append.mpr ⟨h1, h2'.2, fun a ha b hb => h3 a ha b (List.mem_cons_of_mem _ hb)⟩
  · intro d; rw [hd, List.map_append, List.map_cons]; exact h

/-- a level of the builder is as it should be -/
structure BOk (b : Bld) : Prop where
  keys : ∀ x ∈ b.ctxs, x.1.length = b.size
  sorted : Sorted b.ctxs
  counts : ∀ x ∈ b.ctxs, Spec.Counts x.2 ∧ x.2 ≠ []
  contexts : b.contexts = b.ctxs.length
  entries : b.entries = (b.ctxs.map (·.2.length)).sum

theorem mem_split {b : Bld} {key : List Nat} (h : Sorted b.ctxs) (hk : key ∈ b.ctxs.map (·.1)) :
    ∃ pre c post, b.ctxs = pre ++ (key, c) :: post ∧ key ∉ pre.map (·.1) ∧ key ∉ post.map (·.1) := by
  obtain ⟨⟨k, c⟩, hx, rfl⟩ := List.mem_map.mp hk
  obtain ⟨pre, post, e⟩ := List.append_of_mem hx
  rw [e] at h
  obtain ⟨h1, h2, _⟩ := sorted_split h
  exact ⟨pre, c, post, e, h1, h2⟩

/-- what adding a symbol does to a level -/
structure Added (b : Bld) (key : List Nat) (s n : Nat) (pre : Ctxs) (c : List (Nat × Nat)) (post : Ctxs) (new : Bool) : Prop where
  before : b.ctxs = if new then pre ++ post else pre ++ (key, c) :: post
  empty : new = true → c = []
  flag : (b.addContext key).2 = new
  old : new = false → get key (b.addContext key).1.ctxs = c
  after : (b.add key s n).ctxs = pre ++ (key, (addSym s n c).1) :: post
  get : get key (b.add key s n).ctxs = (addSym s n c).1
  npre : key ∉ pre.map (·.1)
  npost : key ∉ post.map (·.1)
  sorted : Sorted (b.add key s n).ctxs
  contexts : (b.add key s n).contexts = b.contexts + if new then 1 else 0
  entries : (b.add key s n).entries = b.entries + if (addSym s n c).2 then 1 else 0
  size : (b.add key s n).size = b.size

theorem add_added {b : Bld} (h : Sorted b.ctxs) (key : List Nat) (s n : Nat) : ∃ pre c post new, Added b key s n pre c post new := by
  rcases insertKey_spec key b.ctxs h with ⟨hm, he⟩ | ⟨hm, pre, post, e1, e2, e3⟩
  · obtain ⟨pre, c, post, e1, hp, hq⟩ := mem_split h hm
    have hu : (b.add key s n).ctxs = pre ++ (key, (addSym s n c).1) :: post := by
      simp only [Bld.add, Bld.addContext, Bld.doAddSymbol, he]
      rw [e1]
      exact upd_at key _ c post pre hp
    have hg : get key b.ctxs = c := by rw [e1]; exact get_at key c post pre hp
    refine ⟨pre, c, post, false, ⟨by simpa using e1, by simp, by simp [Bld.addContext, he], fun _ => by simp only [Bld.addContext, he]; exact hg, hu, by rw [hu]; exact get_at _ _ _ _ hp, hp, hq, ?_, ?_, ?_, rfl⟩⟩
    · rw [hu]; rw [e1] at h; exact (sorted_split h).2.2.2 _
    · simp [Bld.add, Bld.addContext, Bld.doAddSymbol, he]
    · simp only [Bld.add, Bld.addContext, Bld.doAddSymbol, he, hg]
  · obtain ⟨hp, hq, _, hall⟩ := sorted_split e3
    have hu : (b.add key s n).ctxs = pre ++ (key, (addSym s n []).1) :: post := by
      simp only [Bld.add, Bld.addContext, Bld.doAddSymbol, e2]
      exact upd_at key _ [] post pre hp
    have hg : get key (pre ++ (key, []) :: post) = [] := get_at key [] post pre hp
    refine ⟨pre, [], post, true, ⟨by simpa using e1, fun _ => rfl, by simp [Bld.addContext, e2], by simp, hu, by rw [hu]; exact get_at _ _ _ _ hp, hp, hq, ?_, ?_, ?_, rfl⟩⟩
    · rw [hu]; exact hall _
    · simp [Bld.add, Bld.addContext, Bld.doAddSymbol, e2]
    · simp only [Bld.add, Bld.addContext, Bld.doAddSymbol, e2, hg]

theorem add_ok {b : Bld} (h : BOk b) {key : List Nat} (hk : key.length = b.size) {s n : Nat} (hs : s < 256) (hn : 0 < n) : BOk (b.add key s n) := by
  obtain ⟨pre, c, post, new, a⟩ := add_added h.sorted key s n
  have hpp : ∀ x, x ∈ pre ∨ x ∈ post → x ∈ b.ctxs := by
    intro x hx
    rw [a.before]
    rcases hx with hx | hx <;> cases new <;> simp [hx]
  have hc : Spec.Counts c := by
    cases new with
    | true => rw [a.empty rfl]; exact counts_nil
    | false => exact (h.counts (key, c) (by rw [a.before]; simp)).1
  have hmem : ∀ x, x ∈ (b.add key s n).ctxs → x = (key, (addSym s n c).1) ∨ x ∈ b.ctxs := by
    intro x hx
    rw [a.after, List.mem_append, List.mem_cons] at hx
    rcases hx with hx | rfl | hx
    · exact .inr (hpp x (.inl hx))
    · exact .inl rfl
    · exact .inr (hpp x (.inr hx))
  refine ⟨?_, a.sorted, ?_, ?_, ?_⟩
  · intro x hx
    rw [a.size]
    rcases hmem x hx with rfl | hx
    · exact hk
    · exact h.keys x hx
  · intro x hx
    rcases hmem x hx with rfl | hx
    · exact ⟨addSym_counts hs hn hc, addSym_ne _ _ _⟩
    · exact h.counts x hx
  · rw [a.contexts, h.contexts, a.after, a.before]
    cases new <;> simp [Nat.add_assoc]
  · rw [a.entries, h.entries, a.after, a.before]
    have hl := addSym_length s n c
    cases new with
    | true =>
      have := a.empty rfl
      subst this
      simp only [if_true, List.map_append, List.sum_append, List.map_cons, List.sum_cons, hl, List.length_nil]; omega
    | false =>
      simp only [Bool.false_eq_true, if_false, List.map_append, List.sum_append, List.map_cons, List.sum_cons, hl]; omega

theorem remove_ok {b : Bld} (h : BOk b) {key : List Nat} (hk : key ∈ b.ctxs.map (·.1)) :
    ∃ pre c post, b.ctxs = pre ++ (key, c) :: post ∧ get key b.ctxs = c ∧ (b.remove key).ctxs = pre ++ post ∧ BOk (b.remove key) ∧ (b.remove key).size = b.size := by
  obtain ⟨pre, c, post, e, hp, hq⟩ := mem_split h.sorted hk
  have hg : get key b.ctxs = c := by rw [e]; exact get_at _ _ _ _ hp
  have he : (b.remove key).ctxs = pre ++ post := by
    simp only [Bld.remove, e]; exact eraseKey_at _ _ _ _ hp
  have hmem : ∀ x, x ∈ pre ++ post → x ∈ b.ctxs := by
    intro x hx
    rw [e]
    rcases List.mem_append.mp hx with hx | hx <;> simp [hx]
  refine ⟨pre, c, post, e, hg, he, ⟨?_, ?_, ?_, ?_, ?_⟩, rfl⟩
  · intro x hx; rw [he] at hx; exact h.keys x (hmem x hx)
  · rw [he]; have hs := h.sorted; rw [e] at hs; exact (sorted_split hs).2.2.1
  · intro x hx; rw [he] at hx; exact h.counts x (hmem x hx)
  · rw [he]; simp only [Bld.remove]; rw [h.contexts, e]; simp [← Nat.add_assoc]
  · rw [he]; simp only [Bld.remove]; rw [h.entries, hg, e]
    simp only [List.map_append, List.sum_append, List.map_cons, List.sum_cons]; omega

/-! ### Conservation -/

/-- the last `m` symbols -/
def Spec.lastOf (m : Nat) (l : List Nat) : List Nat := l.drop (l.length - m)

/-- how often symbol `s` is counted in the contexts that end in `suf` (of `m` symbols) -/
def Spec.weight (m : Nat) (suf : List Nat) (s : Nat) : Ctxs → Nat
  | [] => 0
  | (k, c) :: rest => (if Spec.lastOf m k = suf then Spec.count s c else 0) + Spec.weight m suf s rest

/-- ... in all levels -/
def Spec.weights (m : Nat) (suf : List Nat) (s : Nat) : List Bld → Nat
  | [] => 0
  | b :: rest => Spec.weight m suf s b.ctxs + Spec.weights m suf s rest

theorem weight_append (m : Nat) (suf : List Nat) (s : Nat) : ∀ a b : Ctxs, Spec.weight m suf s (a ++ b) = Spec.weight m suf s a + Spec.weight m suf s b
  | [], b => by simp [Spec.weight]
  | (k, c) :: a, b => by simp only [List.cons_append, Spec.weight, weight_append m suf s a b]; omega

theorem add_weight {b : Bld} (h : Sorted b.ctxs) (m : Nat) (suf : List Nat) (t : Nat) (key : List Nat) (s n : Nat) :
    Spec.weight m suf t (b.add key s n).ctxs = Spec.weight m suf t b.ctxs + if Spec.lastOf m key = suf then (if s = t then n else 0) else 0 := by
  obtain ⟨pre, c, post, new, a⟩ := add_added h key s n
  rw [a.after, a.before]
  cases new with
  | true =>
    have := a.empty rfl
    subst this
    simp only [if_true, weight_append, Spec.weight, addSym_count, Spec.count]
    split <;> omega
  | false =>
    simp only [Bool.false_eq_true, if_false, weight_append, Spec.weight, addSym_count]
    split <;> omega

theorem lastOf_lastOf {m n : Nat} (l : List Nat) (h : m ≤ n) : Spec.lastOf m (Spec.lastOf n l) = Spec.lastOf m l := by
  unfold Spec.lastOf
  rw [List.drop_drop, List.length_drop]
  by_cases hn : n ≤ l.length
  · rw [show l.length - n + (l.length - (l.length - n) - m) = l.length - m by omega]
  · rw [show l.length - n + (l.length - (l.length - n) - m) = l.length - m by omega]

/-! ### Entries of the compactificator -/

/-- the entries a compactificator should have -/
def wanted (b : Bld) : List (Nat × List Nat) := b.ctxs.map fun x => (sum x.2, x.1)

/-- descending counts -/
def Desc (es : List (Nat × List Nat)) : Prop := es.Pairwise fun x y => y.1 ≤ x.1

/-- a level of the compactificator is as it should be -/
structure COk (last : Bool) (c : Cmp) : Prop where
  b : BOk c.b
  perm : last = false → c.entries.Perm (wanted c.b)
  desc : last = false → Desc c.entries

theorem insertEntry_spec (e : Nat × List Nat) : ∀ es, Desc es → Desc (insertEntry e es) ∧ (insertEntry e es).Perm (e :: es)
  | [], _ => ⟨by simp [insertEntry, Desc], by simp [insertEntry]⟩
  | x :: es, h => by
    have hx := List.pairwise_cons.mp h
    obtain ⟨i1, i2⟩ := insertEntry_spec e es hx.2
    unfold insertEntry
    split
    · rename_i hlt
      refine ⟨List.pairwise_cons.mpr ⟨?_, i1⟩, ?_⟩
      · intro y hy
        rcases List.mem_cons.mp (i2.mem_iff.mp hy) with rfl | hy
        · omega
        · exact hx.1 y hy
      · exact (i2.cons x).trans (List.Perm.swap ..)
    · rename_i hlt
      refine ⟨List.pairwise_cons.mpr ⟨?_, h⟩, List.Perm.refl _⟩
      intro y hy
      rcases List.mem_cons.mp hy with rfl | hy
      · omega
      · have := hx.1 y hy; omega

theorem eraseEntry_spec (e : Nat × List Nat) : ∀ es, Desc es → e ∈ es → ∃ es', eraseEntry e es = some es' ∧ (e :: es').Perm es ∧ Desc es'
  | [], _, h => by cases h
  | x :: es, hd, h => by
    have hx := List.pairwise_cons.mp hd
    unfold eraseEntry
    by_cases hxe : x = e
    · subst hxe
      refine ⟨es, by simp, List.Perm.refl _, hx.2⟩
    · have hm : e ∈ es := by rcases List.mem_cons.mp h with rfl | h; exact absurd rfl hxe; exact h
      obtain ⟨es', h1, h2, h3⟩ := eraseEntry_spec e es hx.2 hm
      have hle := hx.1 e hm
      have hperm : (e :: x :: es').Perm (x :: es) := (List.Perm.swap ..).trans (h2.cons x)
      have hdesc : Desc (x :: es') := List.pairwise_cons.mpr ⟨fun y hy => hx.1 y (h2.mem_iff.mp (List.mem_cons_of_mem _ hy)), h3⟩
      by_cases hlt : e.1 < x.1
      · rw [if_pos hlt, h1]; exact ⟨x :: es', rfl, hperm, hdesc⟩
      · rw [if_neg hlt, if_pos (by omega)]
        have : x.2 ≠ e.2 := fun h2 => hxe (Prod.ext (by omega) h2)
        rw [if_neg this, h1]; exact ⟨x :: es', rfl, hperm, hdesc⟩

theorem cmp_add {last : Bool} {c : Cmp} (h : COk last c) {key : List Nat} (hk : key.length = c.b.size) {s n : Nat} (hs : s < 256) (hn : 0 < n) :
    ∃ c', c.add last key s n = some c' ∧ COk last c' ∧ c'.b = c.b.add key s n := by
  unfold Cmp.add
  cases last with
  | true => exact ⟨_, rfl, ⟨add_ok h.b hk hs hn, by simp, by simp⟩, rfl⟩
  | false =>
    rw [if_neg (by simp)]
    obtain ⟨pre, cc, post, new, a⟩ := add_added h.b.sorted key s n
    have hw : (wanted (c.b.add key s n)).Perm ((sum (addSym s n cc).1, key) :: (pre ++ post).map fun x => (sum x.2, x.1)) := by
      unfold wanted
      rw [a.after, List.map_append, List.map_cons, List.map_append]
      exact List.perm_middle
    cases new with
    | true =>
      rw [if_pos a.flag]
      obtain ⟨i1, i2⟩ := insertEntry_spec (sum (get key (c.b.add key s n).ctxs), key) c.entries (h.desc rfl)
      refine ⟨_, rfl, ⟨add_ok h.b hk hs hn, fun _ => ?_, fun _ => i1⟩, rfl⟩
      refine i2.trans (.trans ?_ hw.symm)
      rw [a.get]
      refine List.Perm.cons _ ((h.perm rfl).trans ?_)
      unfold wanted
      rw [a.before]; simp
    | false =>
      rw [if_neg (by rw [a.flag]; simp), a.old rfl]
      have hold : wanted c.b = (pre ++ (key, cc) :: post).map fun x => (sum x.2, x.1) := by unfold wanted; rw [a.before]; rfl
      have hin : (sum cc, key) ∈ c.entries := by
        rw [(h.perm rfl).mem_iff, hold]; simp
      obtain ⟨es', h1, h2, h3⟩ := eraseEntry_spec _ _ (h.desc rfl) hin
      rw [h1]
      obtain ⟨i1, i2⟩ := insertEntry_spec (sum (get key (c.b.add key s n).ctxs), key) es' h3
      refine ⟨_, rfl, ⟨add_ok h.b hk hs hn, fun _ => ?_, fun _ => i1⟩, rfl⟩
      refine i2.trans (.trans ?_ hw.symm)
      rw [a.get]
      refine List.Perm.cons _ ?_
      have : ((sum cc, key) :: es').Perm ((sum cc, key) :: (pre ++ post).map fun x => (sum x.2, x.1)) := by
        refine h2.trans ((h.perm rfl).trans ?_)
        rw [hold, List.map_append, List.map_cons, List.map_append]
        exact List.perm_middle
      exact (List.perm_cons _).mp this

/-- at most one context more, and the counts arrive -/
theorem cmp_addAll {last : Bool} (m : Nat) {key : List Nat} : ∀ (cs : List (Nat × Nat)) (c : Cmp), COk last c → key.length = c.b.size →
    (∀ x ∈ cs, x.1 < 256 ∧ 0 < x.2) →
    ∃ c', Cmp.addAll last key cs c = some c' ∧ COk last c' ∧ c'.b.size = c.b.size ∧
      (∀ suf t, Spec.weight m suf t c'.b.ctxs = Spec.weight m suf t c.b.ctxs + if Spec.lastOf m key = suf then Spec.count t cs else 0) ∧
      c'.b.ctxs.length ≤ c.b.ctxs.length + 1 ∧ (key ∈ c.b.ctxs.map (·.1) → c'.b.ctxs.length = c.b.ctxs.length)
  | [], c, h, _, _ => ⟨c, rfl, h, rfl, fun suf t => by simp [Spec.count], by omega, fun _ => rfl⟩
  | x :: cs, c, h, hk, hx => by
    obtain ⟨hx1, hx2⟩ := hx x (by simp)
    obtain ⟨c1, g1, g2, g3⟩ := cmp_add h hk hx1 hx2
    obtain ⟨pre, cc, post, new, a⟩ := add_added h.b.sorted key x.1 x.2
    have hsz : c1.b.size = c.b.size := by rw [g3]; exact a.size
    obtain ⟨c2, k1, k2, k3, k4, k5, k6⟩ := cmp_addAll m cs c1 g2 (by rw [hsz]; exact hk) (fun y hy => hx y (by simp [hy]))
    have hin : key ∈ c1.b.ctxs.map (·.1) := by rw [g3, a.after]; simp
    have hlen : c1.b.ctxs.length = c.b.ctxs.length + if new then 1 else 0 := by
      rw [g3, a.after, a.before]; cases new <;> simp <;> omega
    refine ⟨c2, by rw [Cmp.addAll, g1]; exact k1, k2, by rw [k3, hsz], ?_, ?_, ?_⟩
    · intro suf t
      rw [k4, g3, add_weight h.b.sorted]
      simp only [Spec.count]
      split <;> omega
    · rw [k6 hin, hlen]; split <;> omega
    · intro hm
      rw [k6 hin, hlen]
      cases new with
      | false => rfl
      | true =>
        exfalso
        rw [a.before] at hm
        simp only [if_true, List.map_append, List.mem_append] at hm
        rcases hm with hm | hm
        · exact a.npre hm
        · exact a.npost hm

end Verif.Compress.Train

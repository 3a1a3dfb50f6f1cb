import Verif.Joiner.Model
/- Specification and properties of `DataJoiner`. -/
namespace Verif.Joiner
set_option linter.unusedSectionVars false

namespace Spec

/-- A movement inside a sequence of `n` elements: refused if it would leave `[0, n]`. -/
def move (n : Nat) (p : Nat) (d : Int) : Nat := if 0 ≤ (p : Int) + d ∧ (p : Int) + d ≤ n then ((p : Int) + d).toNat else p

def moves (n : Nat) : Nat → List Int → Nat
  | p, [] => p
  | p, d :: ds => moves n (move n p d) ds

/-- The iterators a program can make: `begin()` or `end()` moved around. `Reach parts p it`: `it` is such an iterator that should be at `p`. -/
inductive Reach {α : Type} (parts : List (List α)) : Nat → It → Prop
  | fromBegin (b : It) (ds : List Int) : beginIt parts = some b → (∀ d ∈ ds, -2 ^ 62 ≤ d ∧ d ≤ 2 ^ 62) →
      Reach parts (moves parts.flatten.length 0 ds) (Joiner.moves parts b ds)
  | fromEnd (ds : List Int) : (∀ d ∈ ds, -2 ^ 62 ≤ d ∧ d ≤ 2 ^ 62) →
      Reach parts (moves parts.flatten.length parts.flatten.length ds) (Joiner.moves parts (endIt parts) ds)

end Spec

section
variable {α : Type}

/-- The iterator for position `p`, counted from container `i`. -/
def canon : List (List α) → Nat → Nat → It → It
  | [], _, _, e => e
  | c :: cs, i, p, e => if p ≥ c.length then canon cs (i + 1) (p - c.length) e else ⟨i, p⟩

theorem setDist_canon : ∀ (cs : List (List α)) (i p : Nat) (e : It), p < cs.flatten.length → setDist cs i p = .inr (canon cs i p e)
  | [], i, p, e, h => by simp at h
  | c :: cs, i, p, e, h => by
    simp only [setDist, canon]
    split
    · rename_i hc
      exact setDist_canon cs (i + 1) (p - c.length) e (by simp only [List.flatten_cons, List.length_append] at h; omega)
    · rfl

theorem setDist_end : ∀ (cs : List (List α)) (i p : Nat), cs.flatten.length ≤ p → setDist cs i p = .inl (p - cs.flatten.length)
  | [], i, p, h => by simp [setDist]
  | c :: cs, i, p, h => by
    simp only [List.flatten_cons, List.length_append] at h
    simp only [setDist, List.flatten_cons, List.length_append]
    rw [if_pos (by omega), setDist_end cs (i + 1) _ (by omega)]
    congr 1; omega

theorem canon_end : ∀ (cs : List (List α)) (i p : Nat) (e : It), cs.flatten.length ≤ p → canon cs i p e = e
  | [], _, _, _, _ => rfl
  | c :: cs, i, p, e, h => by
    simp only [List.flatten_cons, List.length_append] at h
    simp only [canon]
    rw [if_pos (by omega)]
    exact canon_end cs (i + 1) _ e (by omega)

theorem canon_which_ge : ∀ (cs : List (List α)) (i p : Nat) (e : It), p < cs.flatten.length → i ≤ (canon cs i p e).which ∧ (canon cs i p e).which < i + cs.length
  | [], i, p, e, h => by simp at h
  | c :: cs, i, p, e, h => by
    simp only [List.flatten_cons, List.length_append] at h
    simp only [canon]
    split
    · have := canon_which_ge cs (i + 1) (p - c.length) e (by omega)
      simp only [List.length_cons]; omega
    · simp

/-- The position of an iterator, when it is the canonical one. -/
def pos (parts : List (List α)) (p : Nat) : It := canon parts 0 p (endIt parts)

theorem setDistance_pos (parts : List (List α)) (p : Nat) : setDistance parts p = if p ≤ parts.flatten.length then some (pos parts p) else none := by
  unfold setDistance pos
  by_cases h : p < parts.flatten.length
  · rw [setDist_canon parts 0 p (endIt parts) h, if_pos (by omega)]
  · rw [setDist_end parts 0 p (by omega)]
    by_cases h2 : p = parts.flatten.length
    · subst h2
      rw [if_pos (Nat.le_refl _), canon_end _ _ _ _ (Nat.le_refl _)]
      simp
    · rw [if_neg (by omega)]
      cases hd : p - parts.flatten.length with
      | zero => omega
      | succ k => rfl

theorem getDist_canon : ∀ (cs : List (List α)) (i p : Nat) (e : It), p < cs.flatten.length → getDist cs i (canon cs i p e) = some p
  | [], i, p, e, h => by simp at h
  | c :: cs, i, p, e, h => by
    simp only [List.flatten_cons, List.length_append] at h
    simp only [canon]
    split
    · rename_i hc
      have hw := canon_which_ge cs (i + 1) (p - c.length) e (by omega)
      simp only [getDist]
      rw [if_pos (by omega), getDist_canon cs (i + 1) (p - c.length) e (by omega)]
      simp only [Option.map_some, Option.some.injEq]; omega
    · simp [getDist]

theorem getDist_last : ∀ (cs : List (List α)) (i : Nat), cs ≠ [] → getDist cs i ⟨i + (cs.length - 1), (cs.getLastD []).length⟩ = some cs.flatten.length
  | [], i, h => absurd rfl h
  | [c], i, _ => by simp [getDist]
  | c :: d :: cs, i, _ => by
    have ih := getDist_last (d :: cs) (i + 1) (by simp)
    simp only [getDist]
    rw [if_pos (by simp only [List.length_cons]; omega)]
    have e1 : i + ((c :: d :: cs).length - 1) = i + 1 + ((d :: cs).length - 1) := by simp only [List.length_cons]; omega
    have e2 : (c :: d :: cs).getLastD [] = (d :: cs).getLastD [] := by simp [List.getLastD]
    simp only [getDist] at ih
    rw [e1, e2, ih]
    simp

theorem getDist_pos (parts : List (List α)) (hne : parts ≠ []) (p : Nat) (hp : p ≤ parts.flatten.length) : getDist parts 0 (pos parts p) = some p := by
  unfold pos
  by_cases h : p < parts.flatten.length
  · exact getDist_canon parts 0 p _ h
  · have : p = parts.flatten.length := by omega
    subst this
    rw [canon_end _ _ _ _ (Nat.le_refl _)]
    have := getDist_last parts 0 hne
    rw [Nat.zero_add] at this
    exact this

theorem advance_pos (parts : List (List α)) (hne : parts ≠ []) (hsz : parts.flatten.length ≤ 2 ^ 62) (p : Nat) (hp : p ≤ parts.flatten.length) (d : Int)
    (hd : -2 ^ 62 ≤ d ∧ d ≤ 2 ^ 62) : advance parts (pos parts p) d =
      if 0 ≤ (p : Int) + d ∧ (p : Int) + d ≤ parts.flatten.length then some (pos parts ((p : Int) + d).toNat) else none := by
  unfold advance
  rw [getDist_pos parts hne p hp]
  simp only
  rw [setDistance_pos]
  by_cases h0 : 0 ≤ (p : Int) + d
  · have hm : ((p : Int) + d) % 2 ^ 64 = (p : Int) + d := Int.emod_eq_of_lt h0 (by omega)
    rw [hm]
    by_cases h1 : (p : Int) + d ≤ parts.flatten.length
    · rw [if_pos (by omega), if_pos ⟨h0, h1⟩]
    · rw [if_neg (by omega), if_neg (by omega)]
  · rw [if_neg (by omega : ¬(0 ≤ (p : Int) + d ∧ _))]
    have hm : ((p : Int) + d) % 2 ^ 64 = (p : Int) + d + 2 ^ 64 := by
      rw [← Int.add_emod_right]
      exact Int.emod_eq_of_lt (by omega) (by omega)
    rw [hm, if_neg (by omega)]

theorem moves_pos (parts : List (List α)) (hne : parts ≠ []) (hsz : parts.flatten.length ≤ 2 ^ 62) : ∀ (ds : List Int) (p : Nat), p ≤ parts.flatten.length →
    (∀ d ∈ ds, -2 ^ 62 ≤ d ∧ d ≤ 2 ^ 62) →
    Spec.moves parts.flatten.length p ds ≤ parts.flatten.length ∧ moves parts (pos parts p) ds = pos parts (Spec.moves parts.flatten.length p ds)
  | [], p, hp, _ => ⟨hp, rfl⟩
  | d :: ds, p, hp, hd => by
    have hm : move parts (pos parts p) d = pos parts (Spec.move parts.flatten.length p d) := by
      unfold move Spec.move
      rw [advance_pos parts hne hsz p hp d (hd d (by simp))]
      split <;> rfl
    simp only [moves, Spec.moves]
    rw [hm]
    refine moves_pos parts hne hsz ds _ ?_ (fun x hx => hd x (List.mem_cons_of_mem _ hx))
    unfold Spec.move
    split <;> omega

theorem reach_pos (parts : List (List α)) (hne : parts ≠ []) (hsz : parts.flatten.length ≤ 2 ^ 62) {p : Nat} {it : It} (h : Spec.Reach parts p it) :
    p ≤ parts.flatten.length ∧ it = pos parts p := by
  cases h with
  | fromBegin b ds hb hd =>
    unfold beginIt at hb
    rw [setDistance_pos, if_pos (Nat.zero_le _)] at hb
    cases hb
    exact moves_pos parts hne hsz ds 0 (Nat.zero_le _) hd
  | fromEnd ds hd =>
    have : endIt parts = pos parts parts.flatten.length := by
      unfold pos; rw [canon_end _ _ _ _ (Nat.le_refl _)]
    rw [this]
    exact moves_pos parts hne hsz ds _ (Nat.le_refl _) hd

theorem deref_canon : ∀ (cs : List (List α)) (pre : List (List α)) (p : Nat) (e : It), p < cs.flatten.length →
    deref (pre ++ cs) (canon cs pre.length p e) = cs.flatten[p]?
  | [], pre, p, e, h => by simp at h
  | c :: cs, pre, p, e, h => by
    simp only [List.flatten_cons, List.length_append] at h
    simp only [canon]
    split
    · rename_i hc
      have := deref_canon cs (pre ++ [c]) (p - c.length) e (by omega)
      rw [List.length_append, List.length_singleton, List.append_assoc, List.singleton_append] at this
      rw [this, List.flatten_cons, List.getElem?_append_right hc]
    · rename_i hc
      unfold deref
      simp only
      rw [List.getElem?_append_right (Nat.le_refl _), Nat.sub_self, List.getElem?_cons_zero, List.flatten_cons,
        List.getElem?_append_left (by omega)]

theorem deref_pos (parts : List (List α)) (hne : parts ≠ []) (p : Nat) (hp : p ≤ parts.flatten.length) : deref parts (pos parts p) = parts.flatten[p]? := by
  by_cases h : p < parts.flatten.length
  · exact deref_canon parts [] p _ h
  · have : p = parts.flatten.length := by omega
    subst this
    unfold pos
    rw [canon_end _ _ _ _ (Nat.le_refl _)]
    rw [List.getElem?_eq_none (Nat.le_refl _)]
    unfold deref endIt
    simp only
    rw [show parts[parts.length - 1]? = parts.getLast? from (List.getLast?_eq_getElem? ..).symm]
    cases h : parts.getLast? with
    | none => rfl
    | some c =>
      simp only
      rw [List.getLastD_eq_getLast?, h]
      simp

theorem size_flatten : ∀ (parts : List (List α)), size parts = parts.flatten.length
  | [] => rfl
  | c :: cs => by simp [size, size_flatten cs]

/-- After both iterators: nothing. -/
theorem intervals_after : ∀ (cs : List (List α)) (i : Nat) (a b : It), b.which < i → (intervals cs i a b).flatten = []
  | [], _, _, _, _ => rfl
  | c :: cs, i, a, b, h => by
    simp only [intervals]
    rw [if_neg (by omega), List.nil_append]
    exact intervals_after cs (i + 1) a b (by omega)

theorem canon_end_which (cs : List (List α)) (i : Nat) (h : cs ≠ []) : i ≤ i + (cs.length - 1) ∧ i + (cs.length - 1) < i + cs.length := by
  cases cs with
  | nil => exact absurd rfl h
  | cons c cs => simp only [List.length_cons]; omega

/-- The end iterator relative to the containers from index `i`. -/
def endAt (cs : List (List α)) (i : Nat) : It := ⟨i + (cs.length - 1), (cs.getLastD []).length⟩

theorem endAt_cons (c d : List α) (cs : List (List α)) (i : Nat) : endAt (c :: d :: cs) i = endAt (d :: cs) (i + 1) := by
  unfold endAt
  simp only [List.length_cons, List.getLastD, It.mk.injEq]
  exact ⟨by omega, by simp⟩

theorem canon_next (c d : List α) (cs : List (List α)) (i r : Nat) (hr : c.length ≤ r) :
    canon (c :: d :: cs) i r (endAt (c :: d :: cs) i) = canon (d :: cs) (i + 1) (r - c.length) (endAt (d :: cs) (i + 1)) := by
  rw [endAt_cons]
  exact if_pos hr

theorem canon_ge (cs : List (List α)) (i p : Nat) (hne : cs ≠ []) : i ≤ (canon cs i p (endAt cs i)).which := by
  by_cases h : p < cs.flatten.length
  · exact (canon_which_ge cs i p _ h).1
  · rw [canon_end _ _ _ _ (by omega)]; unfold endAt; simp

/-- `from` before these containers, `to` inside: everything up to `to`. -/
theorem intervals_to : ∀ (cs : List (List α)) (i q : Nat) (a : It), cs ≠ [] → a.which < i → q ≤ cs.flatten.length →
    (intervals cs i a (canon cs i q (endAt cs i))).flatten = cs.flatten.take q
  | [], _, _, _, h, _, _ => absurd rfl h
  | c :: cs, i, q, a, _, ha, hq => by
    simp only [List.flatten_cons, List.length_append] at hq ⊢
    by_cases hc : q < c.length
    · have hb : canon (c :: cs) i q (endAt (c :: cs) i) = ⟨i, q⟩ := by simp only [canon]; rw [if_neg (by omega)]
      rw [hb]
      simp only [intervals, List.flatten_append]
      rw [intervals_after cs (i + 1) a _ (by simp)]
      rw [if_pos (by constructor <;> first | omega | exact Nat.le_refl _)]
      simp only [if_neg (show ¬ a.which = i by omega), if_true, List.append_nil, Nat.sub_zero, List.drop_zero]
      rw [List.take_append_of_le_length (by omega)]
      split
      · simp
      · rename_i h0; simp only [ne_eq, Decidable.not_not] at h0; rw [← h0]; simp
    · cases cs with
      | nil =>
        have hq' : q = c.length := by simp at hq; omega
        have hb : canon [c] i q (endAt [c] i) = ⟨i, c.length⟩ := by
          rw [canon_end _ _ _ _ (by simp; omega)]; simp [endAt]
        rw [hb]
        simp only [intervals, List.append_nil, List.flatten_nil]
        rw [if_pos (by constructor <;> first | omega | exact Nat.le_refl _)]
        simp only [if_neg (show ¬ a.which = i by omega), if_true, Nat.sub_zero, List.drop_zero]
        rw [hq']
        split
        · simp
        · rename_i h0; simp only [ne_eq, Decidable.not_not] at h0; rw [← h0]; simp
      | cons d cs =>
        have hb : canon (c :: d :: cs) i q (endAt (c :: d :: cs) i) = canon (d :: cs) (i + 1) (q - c.length) (endAt (d :: cs) (i + 1)) := canon_next c d cs i _ (by omega)
        rw [hb]
        have hw := canon_ge (d :: cs) (i + 1) (q - c.length) (by simp)
        have ih := intervals_to (d :: cs) (i + 1) (q - c.length) a (by simp) (by omega) (by simp only [List.flatten_cons, List.length_append] at hq ⊢; omega)
        generalize canon (d :: cs) (i + 1) (q - c.length) (endAt (d :: cs) (i + 1)) = b at hw ih ⊢
        rw [intervals, List.flatten_append, ih]
        rw [if_pos (by constructor <;> omega)]
        simp only [if_neg (show ¬ a.which = i by omega), if_neg (show ¬ b.which = i by omega), Nat.sub_zero, List.drop_zero]
        rw [List.take_append, List.take_of_length_le (show c.length ≤ q by omega)]
        congr 1
        split
        · simp
        · rename_i h0; simp only [ne_eq, Decidable.not_not] at h0
          have : c = [] := List.length_eq_zero_iff.mp h0.symm
          simp [this]

theorem intervals_slice : ∀ (cs : List (List α)) (i p q : Nat), cs ≠ [] → p ≤ q → q ≤ cs.flatten.length →
    (intervals cs i (canon cs i p (endAt cs i)) (canon cs i q (endAt cs i))).flatten = (cs.flatten.drop p).take (q - p)
  | [], _, _, _, h, _, _ => absurd rfl h
  | c :: cs, i, p, q, _, hpq, hq => by
    simp only [List.flatten_cons, List.length_append] at hq ⊢
    by_cases hp : p < c.length
    · have ha : canon (c :: cs) i p (endAt (c :: cs) i) = ⟨i, p⟩ := by simp only [canon]; rw [if_neg (by omega)]
      rw [ha]
      by_cases hc : q < c.length
      · have hb : canon (c :: cs) i q (endAt (c :: cs) i) = ⟨i, q⟩ := by simp only [canon]; rw [if_neg (by omega)]
        rw [hb]
        simp only [intervals, List.flatten_append]
        rw [intervals_after cs (i + 1) _ _ (by simp)]
        simp only [Nat.le_refl, and_self, if_true, List.append_nil]
        rw [List.drop_append_of_le_length (by omega), List.take_append_of_le_length (by simp; omega)]
        split
        · simp
        · rename_i h0; simp only [ne_eq, Decidable.not_not] at h0; rw [← h0]; simp
      · cases cs with
        | nil =>
          have hq' : q = c.length := by simp at hq; omega
          have hb : canon [c] i q (endAt [c] i) = ⟨i, c.length⟩ := by
            rw [canon_end _ _ _ _ (by simp; omega)]; simp [endAt]
          rw [hb]
          simp only [intervals, List.append_nil, List.flatten_nil, Nat.le_refl, and_self, if_true]
          rw [hq', if_pos (by omega)]
          simp
        | cons d cs =>
          have hb : canon (c :: d :: cs) i q (endAt (c :: d :: cs) i) = canon (d :: cs) (i + 1) (q - c.length) (endAt (d :: cs) (i + 1)) := canon_next c d cs i _ (by omega)
          rw [hb]
          have hw := canon_ge (d :: cs) (i + 1) (q - c.length) (by simp)
          have ih := intervals_to (d :: cs) (i + 1) (q - c.length) ⟨i, p⟩ (by simp) (by simp) (by simp only [List.flatten_cons, List.length_append] at hq ⊢; omega)
          generalize canon (d :: cs) (i + 1) (q - c.length) (endAt (d :: cs) (i + 1)) = b at hw ih ⊢
          rw [intervals, List.flatten_append, ih]
          simp only [Nat.le_refl, true_and, if_true]
          rw [if_pos (by omega)]
          simp only [if_neg (show ¬ b.which = i by omega)]
          rw [if_pos (by omega), List.drop_append_of_le_length (by omega), List.take_append]
          simp only [List.flatten_cons, List.flatten_nil, List.append_nil, List.length_drop]
          rw [List.take_of_length_le (by simp), List.take_of_length_le (i := q - p) (by simp; omega)]
          congr 2
          omega
    · cases cs with
      | nil =>
        have hp' : p = c.length := by simp at hq; omega
        have hq' : q = c.length := by simp at hq; omega
        have hb : canon [c] i c.length (endAt [c] i) = ⟨i, c.length⟩ := by
          rw [canon_end _ _ _ _ (by simp)]; simp [endAt]
        rw [hp', hq', hb]
        simp [intervals]
      | cons d cs =>
        have hb : ∀ r, c.length ≤ r → canon (c :: d :: cs) i r (endAt (c :: d :: cs) i) = canon (d :: cs) (i + 1) (r - c.length) (endAt (d :: cs) (i + 1)) := fun r hr => canon_next c d cs i r hr
        rw [hb p (by omega), hb q (by omega)]
        have hw := canon_ge (d :: cs) (i + 1) (p - c.length) (by simp)
        have ih := intervals_slice (d :: cs) (i + 1) (p - c.length) (q - c.length) (by simp) (by omega)
          (by simp only [List.flatten_cons, List.length_append] at hq ⊢; omega)
        generalize canon (d :: cs) (i + 1) (q - c.length) (endAt (d :: cs) (i + 1)) = b at ih ⊢
        generalize canon (d :: cs) (i + 1) (p - c.length) (endAt (d :: cs) (i + 1)) = a at hw ih ⊢
        rw [intervals, if_neg (by omega), List.nil_append, ih, List.drop_append, List.drop_eq_nil_of_le (by omega : c.length ≤ p), List.nil_append]
        congr 1
        omega

theorem intervals_nonempty : ∀ (cs : List (List α)) (i : Nat) (a b : It), (∀ k c, cs[k]? = some c → (i + k = b.which → b.off ≤ c.length)) →
    (a.which = b.which → a.off ≤ b.off) → (∀ k c, cs[k]? = some c → i + k = a.which → a.off ≤ c.length) → ∀ x ∈ intervals cs i a b, x ≠ []
  | [], _, _, _, _, _, _, x, hx => by simp [intervals] at hx
  | c :: cs, i, a, b, h1, h2, h3, x, hx => by
    simp only [intervals] at hx
    rcases List.mem_append.mp hx with hx | hx
    · by_cases hi : a.which ≤ i ∧ i ≤ b.which
      · rw [if_pos hi] at hx
        by_cases hn : (if a.which = i then a.off else 0) ≠ (if b.which = i then b.off else c.length)
        · rw [if_pos hn] at hx
          rw [List.mem_singleton.mp hx]
          intro he
          have hl := congrArg List.length he
          simp only [List.length_take, List.length_drop, List.length_nil] at hl
          have g1 := h1 0 c (by simp)
          have g3 := h3 0 c (by simp)
          simp only [Nat.add_zero] at g1 g3
          by_cases ha : a.which = i <;> by_cases hb : b.which = i <;> simp only [ha, hb, if_true, if_false] at hl hn
          · have := h2 (by omega); have := g1 hb.symm; omega
          · have := g3 ha.symm; omega
          · have := g1 hb.symm; omega
          · omega
        · rw [if_neg hn] at hx; cases hx
      · rw [if_neg hi] at hx; cases hx
    · refine intervals_nonempty cs (i + 1) a b ?_ h2 ?_ x hx
      · intro k c' hk hb; exact h1 (k + 1) c' (by simpa using hk) (by omega)
      · intro k c' hk hb; exact h3 (k + 1) c' (by simpa using hk) (by omega)

theorem canon_off : ∀ (cs : List (List α)) (i p : Nat), cs ≠ [] → p ≤ cs.flatten.length → ∀ k c, cs[k]? = some c →
    i + k = (canon cs i p (endAt cs i)).which → (canon cs i p (endAt cs i)).off ≤ c.length
  | [], _, _, h, _, _, _, _, _ => absurd rfl h
  | c :: cs, i, p, _, hp, k, x, hk, hw => by
    simp only [List.flatten_cons, List.length_append] at hp
    by_cases hc : p < c.length
    · have ha : canon (c :: cs) i p (endAt (c :: cs) i) = ⟨i, p⟩ := by simp only [canon]; rw [if_neg (by omega)]
      rw [ha] at hw ⊢
      simp only at hw
      have : k = 0 := by omega
      subst this
      simp only [List.getElem?_cons_zero, Option.some.injEq] at hk
      subst hk; simp only; omega
    · cases cs with
      | nil =>
        have hb : canon [c] i p (endAt [c] i) = ⟨i, c.length⟩ := by
          rw [canon_end _ _ _ _ (by simp; omega)]; simp [endAt]
        rw [hb] at hw ⊢
        simp only at hw
        have : k = 0 := by omega
        subst this
        simp only [List.getElem?_cons_zero, Option.some.injEq] at hk
        subst hk; exact Nat.le_refl _
      | cons d cs =>
        have hb : canon (c :: d :: cs) i p (endAt (c :: d :: cs) i) = canon (d :: cs) (i + 1) (p - c.length) (endAt (d :: cs) (i + 1)) := canon_next c d cs i _ (by omega)
        rw [hb] at hw ⊢
        have hw' := canon_ge (d :: cs) (i + 1) (p - c.length) (by simp)
        cases k with
        | zero => omega
        | succ k =>
          exact canon_off (d :: cs) (i + 1) (p - c.length) (by simp) (by simp only [List.flatten_cons, List.length_append] at hp ⊢; omega) k x (by simpa using hk) (by omega)

theorem canon_mono : ∀ (cs : List (List α)) (i p q : Nat), cs ≠ [] → p ≤ q → q ≤ cs.flatten.length →
    (canon cs i p (endAt cs i)).which = (canon cs i q (endAt cs i)).which → (canon cs i p (endAt cs i)).off ≤ (canon cs i q (endAt cs i)).off
  | [], _, _, _, h, _, _, _ => absurd rfl h
  | c :: cs, i, p, q, _, hpq, hq, hw => by
    simp only [List.flatten_cons, List.length_append] at hq
    cases cs with
    | nil =>
      have key : ∀ r, r ≤ c.length → canon [c] i r (endAt [c] i) = ⟨i, r⟩ := by
        intro r hr
        by_cases h : r < c.length
        · simp only [canon]; rw [if_neg (by omega)]
        · have : r = c.length := by omega
          subst this
          rw [canon_end _ _ _ _ (by simp)]; simp [endAt]
      simp only [List.flatten_nil, List.length_nil, Nat.add_zero] at hq
      rw [key p (by omega), key q hq]; exact hpq
    | cons d cs =>
      have hb : ∀ r, c.length ≤ r → canon (c :: d :: cs) i r (endAt (c :: d :: cs) i) = canon (d :: cs) (i + 1) (r - c.length) (endAt (d :: cs) (i + 1)) := fun r hr => canon_next c d cs i r hr
      have ha : ∀ r, r < c.length → canon (c :: d :: cs) i r (endAt (c :: d :: cs) i) = ⟨i, r⟩ := by
        intro r hr; simp only [canon]; rw [if_neg (by omega)]
      by_cases hp : p < c.length <;> by_cases hq' : q < c.length
      · rw [ha p hp, ha q hq']; exact hpq
      · rw [ha p hp, hb q (by omega)] at hw ⊢
        have := canon_ge (d :: cs) (i + 1) (q - c.length) (by simp)
        simp only at hw; omega
      · omega
      · rw [hb p (by omega), hb q (by omega)] at hw ⊢
        exact canon_mono (d :: cs) (i + 1) _ _ (by simp) (by omega) (by simp only [List.flatten_cons, List.length_append] at hq ⊢; omega) hw

/-- C23. `size()` is the length of the concatenation, `begin()` exists, and any iterator made from `begin()` or `end()` by any movements (up to
2^62 elements and steps) behaves like a position in the concatenation: it reads the element there, measures distances, compares by position, and a
movement succeeds exactly if it stays in range. -/
theorem joiner_is_concatenation (parts : List (List α)) (hne : parts ≠ []) (hsz : parts.flatten.length ≤ 2 ^ 62) :
    size parts = parts.flatten.length ∧ (beginIt parts).isSome ∧
    (∀ p it, Spec.Reach parts p it →
      p ≤ parts.flatten.length ∧ deref parts it = parts.flatten[p]? ∧
      (∀ d, -2 ^ 62 ≤ d ∧ d ≤ 2 ^ 62 → ((advance parts it d).isSome ↔ 0 ≤ (p : Int) + d ∧ (p : Int) + d ≤ parts.flatten.length)) ∧
      (∀ q it', Spec.Reach parts q it' → distanceTo parts it it' = some ((q : Int) - p) ∧ equal parts it it' = some (decide (p = q)) ∧
        less parts it it' = some (decide (p < q)) ∧ (p = q → it = it'))) := by
  refine ⟨size_flatten parts, ?_, ?_⟩
  · unfold beginIt; rw [setDistance_pos, if_pos (Nat.zero_le _)]; rfl
  · intro p it h
    obtain ⟨hp, rfl⟩ := reach_pos parts hne hsz h
    refine ⟨hp, deref_pos parts hne p hp, ?_, ?_⟩
    · intro d hd
      rw [advance_pos parts hne hsz p hp d hd]
      split
      · rename_i hr; exact ⟨fun _ => hr, fun _ => rfl⟩
      · rename_i hr; simp only [Option.isSome_none, Bool.false_eq_true, false_iff]; exact hr
    · intro q it' h'
      obtain ⟨hq, rfl⟩ := reach_pos parts hne hsz h'
      have hd : distanceTo parts (pos parts p) (pos parts q) = some ((q : Int) - p) := by
        unfold distanceTo; rw [getDist_pos parts hne p hp, getDist_pos parts hne q hq]
      refine ⟨hd, ?_, ?_, fun e => by rw [e]⟩
      · unfold equal; rw [hd]; simp only [Option.map_some, Option.some.injEq, decide_eq_decide]; omega
      · unfold less; rw [hd]; simp only [Option.map_some, Option.some.injEq, decide_eq_decide]; omega

/-- C23. `ApplyToIntervals(from, to)` with `from` not after `to` gives the visitor non-empty intervals whose concatenation is the part of the
sequence between the two positions. -/
theorem joiner_intervals (parts : List (List α)) (hne : parts ≠ []) (hsz : parts.flatten.length ≤ 2 ^ 62) (p q : Nat) (a b : It)
    (ha : Spec.Reach parts p a) (hb : Spec.Reach parts q b) (hpq : p ≤ q) :
    (intervals parts 0 a b).flatten = (parts.flatten.drop p).take (q - p) ∧ ∀ x ∈ intervals parts 0 a b, x ≠ [] := by
  obtain ⟨hp, rfl⟩ := reach_pos parts hne hsz ha
  obtain ⟨hq, rfl⟩ := reach_pos parts hne hsz hb
  have he : endIt parts = endAt parts 0 := by unfold endIt endAt; simp
  unfold pos
  rw [he]
  refine ⟨intervals_slice parts 0 p q hne hpq hq, ?_⟩
  exact intervals_nonempty parts 0 _ _ (fun k c hk h => canon_off parts 0 q hne hq k c hk h) (canon_mono parts 0 p q hne hpq hq)
    (fun k c hk h => canon_off parts 0 p hne hp k c hk h)

end

/-! Non-vacuity: empty parts at both ends and in the middle. -/
example : Spec.Reach [[], [1, 2], [], [3], []] 2 ⟨3, 0⟩ := by
  have := Spec.Reach.fromBegin (parts := [[], [1, 2], [], [3], ([] : List Nat)]) ⟨1, 0⟩ [1, -5, 100, 1] (by decide +kernel) (by decide +kernel)
  have e1 : Spec.moves [[], [1, 2], [], [3], ([] : List Nat)].flatten.length 0 [1, -5, 100, 1] = 2 := by decide +kernel
  have e2 : moves [[], [1, 2], [], [3], ([] : List Nat)] ⟨1, 0⟩ [1, -5, 100, 1] = ⟨3, 0⟩ := by decide +kernel
  rw [e1, e2] at this; exact this

example : intervals [[], [1, 2], [], [3], ([] : List Nat)] 0 ⟨1, 1⟩ ⟨4, 0⟩ = [[2], [3]] := by decide +kernel

end Verif.Joiner

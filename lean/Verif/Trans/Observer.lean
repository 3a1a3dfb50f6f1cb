import Verif.Trans.Steps
/-
Observers of the committed collection: `OnChanged` of `TransactionalSet` and `TransactionalDictionary`.
A connected slot is represented by the replica it maintains from what it is sent.
-/
namespace Verif.Trans
open Verif.Order

section
variable {κ ε : Type} [DecidableEq κ]

namespace Spec
/-- What an observer does with one entry of a diff: forget the entry with this key, put the new one at its place.  For TransactionalSet.h 199-392 and TransactionalDictionary.h 220-497. -/
def applyEntry (lt : κ → κ → Bool) (f : ε → κ) (l : List ε) : DiffOp × ε → List ε
  | (.removed, e) => l.filter (fun x => decide (f x ≠ f e))
  | (.added, e) => ins lt f (l.filter (fun x => decide (f x ≠ f e))) e

/-- Applying a diff in order.  For TransactionalSet.h 199-392 and TransactionalDictionary.h 220-497. -/
def replay (lt : κ → κ → Bool) (f : ε → κ) : List ε → List (DiffOp × ε) → List ε
  | l, [] => l
  | l, x :: d => replay lt f (applyEntry lt f l x) d
end Spec

/-- A collection with the replicas of its observers.  For TransactionalSet.h 199-392 and TransactionalDictionary.h 220-497. -/
structure World (ε : Type) where
  st : State ε
  replicas : List (List ε)

/-- `OnChangedPopulator`: TransactionalSet.h:199-203, TransactionalDictionary.h:220-224; called under the mutex when a slot is connected. -/
def populate (lt : κ → κ → Bool) (f : ε → κ) (items : List ε) : List ε :=
  if items.isEmpty then [] else Spec.replay lt f [] (items.map (fun e => (.added, e)))

/-- What a call sent to `OnChanged`: TransactionalSet.h:392, TransactionalDictionary.h:497. -/
def sent {ν : Type} : Out ε ν → Option (List (DiffOp × ε))
  | .changed d => d
  | _ => none

/-- Every connected slot is called with the diff.  For TransactionalSet.h 199-392 and TransactionalDictionary.h 220-497. -/
def notify (lt : κ → κ → Bool) (f : ε → κ) (rs : List (List ε)) : Option (List (DiffOp × ε)) → List (List ε)
  | none => rs
  | some d => rs.map (fun r => Spec.replay lt f r d)
end

/-- A call on a collection or a new connection to `OnChanged`.  For TransactionalSet.h 199-392 and TransactionalDictionary.h 220-497. -/
inductive Event (Op : Type) where
  | call (op : Op)
  | connect

/-- The number of connections in a history.  For TransactionalSet.h 199-392 and TransactionalDictionary.h 220-497. -/
def connects {Op : Type} : List (Event Op) → Nat
  | [] => 0
  | .connect :: es => connects es + 1
  | .call _ :: es => connects es

theorem connects_cons {Op : Type} (e : Event Op) (es : List (Event Op)) : connects (e :: es) = connects [e] + connects es := by
  cases e <;> simp only [connects] <;> omega

/-- The diff of a transaction, TransactionalSet.h 199-392 and TransactionalDictionary.h 220-497. -/
def setEvent {κ : Type} [DecidableEq κ] (lt : κ → κ → Bool) (w : World κ) : Event (SetOp κ) → Option (World κ)
  | .call op => (setStep lt w.st op).map (fun r => ⟨r.1, notify lt id w.replicas (sent r.2)⟩)
  | .connect => some ⟨w.st, w.replicas ++ [populate lt id w.st.items]⟩

/-- The diffs of a history, TransactionalSet.h 199-392 and TransactionalDictionary.h 220-497. -/
def setEvents {κ : Type} [DecidableEq κ] (lt : κ → κ → Bool) : World κ → List (Event (SetOp κ)) → Option (World κ)
  | w, [] => some w
  | w, e :: es => match setEvent lt w e with
    | none => none
    | some w' => setEvents lt w' es

/-- The diff of a transaction, TransactionalSet.h 199-392 and TransactionalDictionary.h 220-497. -/
def dictEvent {κ ν : Type} [DecidableEq κ] (lt : κ → κ → Bool) (veq : ν → ν → Bool) (w : World (κ × ν)) : Event (DictOp κ ν) → Option (World (κ × ν))
  | .call op => (dictStep lt veq w.st op).map (fun r => ⟨r.1, notify lt Prod.fst w.replicas (sent r.2)⟩)
  | .connect => some ⟨w.st, w.replicas ++ [populate lt Prod.fst w.st.items]⟩

/-- The diffs of a history, TransactionalSet.h 199-392 and TransactionalDictionary.h 220-497. -/
def dictEvents {κ ν : Type} [DecidableEq κ] (lt : κ → κ → Bool) (veq : ν → ν → Bool) : World (κ × ν) → List (Event (DictOp κ ν)) → Option (World (κ × ν))
  | w, [] => some w
  | w, e :: es => match dictEvent lt veq w e with
    | none => none
    | some w' => dictEvents lt veq w' es

section
variable {κ ε : Type} [DecidableEq κ] {lt : κ → κ → Bool} {f : ε → κ}

theorem replay_mem (h : StrictWeak lt) (ht : Total lt) : ∀ (d : List (DiffOp × ε)) (l : List ε), Sorted lt f l →
    (∀ e, (DiffOp.removed, e) ∈ d → e ∈ l) → (∀ e, (DiffOp.added, e) ∈ d → ∀ x ∈ l, f x = f e → (DiffOp.removed, x) ∈ d) →
    d.Pairwise (fun x y => lt (f x.2) (f y.2) = true ∨ (f x.2 = f y.2 ∧ x.1 = .removed ∧ y.1 = .added)) →
    Sorted lt f (Spec.replay lt f l d) ∧ ∀ x, x ∈ Spec.replay lt f l d ↔ (DiffOp.added, x) ∈ d ∨ (x ∈ l ∧ (DiffOp.removed, x) ∉ d)
  | [], l, hs, _, _, _ => ⟨hs, by simp [Spec.replay]⟩
  | (.removed, e) :: d, l, hs, h2, h3, hp => by
    have hpd := List.Pairwise.of_cons hp
    have he : e ∈ l := h2 e (by simp)
    have hk : ∀ x ∈ l, f x = f e → x = e := fun x hx hfx => key_inj h hs hx he hfx
    have := replay_mem h ht d (l.filter (fun x => decide (f x ≠ f e))) (sorted_filter hs _) ?_ ?_ hpd
    · refine ⟨this.1, ?_⟩
      intro x
      simp only [Spec.replay, Spec.applyEntry]
      rw [this.2]
      simp only [List.mem_filter, decide_eq_true_eq, List.mem_cons, Prod.mk.injEq, true_and, not_or]
      constructor
      · rintro (hx | ⟨⟨h4, h5⟩, h6⟩)
        · exact Or.inl (Or.inr hx)
        · exact Or.inr ⟨h4, fun hxe => h5 (by rw [hxe]), h6⟩
      · rintro ((⟨hc, -⟩ | hx) | ⟨h4, h5, h6⟩)
        · cases hc
        · exact Or.inl hx
        · exact Or.inr ⟨⟨h4, fun hfe => h5 (hk x h4 hfe)⟩, h6⟩
    · intro e' he'
      refine List.mem_filter.mpr ⟨h2 e' (List.mem_cons_of_mem _ he'), ?_⟩
      rw [decide_eq_true_eq]
      rcases List.rel_of_pairwise_cons hp he' with hlt | ⟨_, _, hc⟩
      · intro hfe; simp only at hlt; rw [hfe, h.irrefl] at hlt; cases hlt
      · cases hc
    · intro e' he' x hx hfx
      rw [List.mem_filter, decide_eq_true_eq] at hx
      rcases List.mem_cons.mp (h3 e' (List.mem_cons_of_mem _ he') x hx.1 hfx) with hc | hc
      · simp only [Prod.mk.injEq, true_and] at hc; exact absurd (by rw [hc]) hx.2
      · exact hc
  | (.added, e) :: d, l, hs, h2, h3, hp => by
    have hpd := List.Pairwise.of_cons hp
    have hab : ∀ x ∈ l, f x ≠ f e := by
      intro x hx hfx
      rcases List.mem_cons.mp (h3 e (by simp) x hx hfx) with hc | hc
      · simp at hc
      · rcases List.rel_of_pairwise_cons hp hc with hlt | ⟨_, hc, _⟩
        · simp only at hlt; rw [hfx, h.irrefl] at hlt; cases hlt
        · cases hc
    have hfl : l.filter (fun x => decide (f x ≠ f e)) = l := List.filter_eq_self.mpr (fun x hx => decide_eq_true (hab x hx))
    have hins := ins_spec h ht hs e hab
    have := replay_mem h ht d (Spec.ins lt f l e) hins.1 ?_ ?_ hpd
    · simp only [Spec.replay, Spec.applyEntry, hfl]
      refine ⟨this.1, ?_⟩
      intro x
      rw [this.2, hins.2]
      simp only [List.mem_cons, Prod.mk.injEq, true_and, not_or]
      constructor
      · rintro (hx | ⟨h4 | h4, h5⟩)
        · exact Or.inl (Or.inr hx)
        · exact Or.inr ⟨h4, ⟨fun hc => (by cases hc.1), h5⟩⟩
        · exact Or.inl (Or.inl h4)
      · rintro ((h4 | hx) | ⟨h4, -, h5⟩)
        · refine Or.inr ⟨Or.inr h4, ?_⟩
          intro hc
          subst h4
          rcases List.rel_of_pairwise_cons hp hc with hlt | ⟨_, hc, _⟩
          · simp only at hlt; rw [h.irrefl] at hlt; cases hlt
          · cases hc
        · exact Or.inl hx
        · exact Or.inr ⟨Or.inl h4, h5⟩
    · intro e' he'
      rw [hins.2]
      exact Or.inl (h2 e' (List.mem_cons_of_mem _ he'))
    · intro e' he' x hx hfx
      rw [hins.2] at hx
      rcases hx with hx | hx
      · rcases List.mem_cons.mp (h3 e' (List.mem_cons_of_mem _ he') x hx hfx) with hc | hc
        · simp at hc
        · exact hc
      · subst hx
        rcases List.rel_of_pairwise_cons hp he' with hlt | ⟨_, hc, _⟩
        · simp only at hlt; rw [hfx, h.irrefl] at hlt; cases hlt
        · cases hc

/-- Replaying a diff turns the old contents into the new ones. -/
theorem replay_diff (h : StrictWeak lt) (ht : Total lt) {old new : List ε} {d : List (DiffOp × ε)} (ho : Sorted lt f old) (hn : Sorted lt f new)
    (hd : IsDiff lt f old new d) : Spec.replay lt f old d = new := by
  obtain ⟨h1, h2, h3⟩ := hd
  have := replay_mem h ht d old ho (fun e he => ((h1 e).mp he).1) (by
    intro e he x hx hfx
    rw [h1]
    refine ⟨hx, fun hxn => ?_⟩
    have hen := (h2 e).mp he
    exact hen.2 (by rw [← key_inj h hn hxn hen.1 hfx]; exact hx)) h3
  refine sorted_ext h this.1 hn ?_
  intro x
  rw [this.2, h1, h2]
  constructor
  · rintro (hx | ⟨hx, hn⟩)
    · exact hx.1
    · exact Classical.byContradiction (fun hc => hn ⟨hx, hc⟩)
  · intro hx
    by_cases ho : x ∈ old
    · exact Or.inr ⟨ho, fun hc => hc.2 hx⟩
    · exact Or.inl ⟨hx, ho⟩

theorem populate_eq (h : StrictWeak lt) (ht : Total lt) {items : List ε} (hs : Sorted lt f items) : populate lt f items = items := by
  unfold populate
  cases items with
  | nil => rfl
  | cons a l =>
    rw [List.isEmpty_cons, if_neg (by simp)]
    refine replay_diff h ht List.Pairwise.nil hs ⟨by simp, by simp, ?_⟩
    rw [List.pairwise_map]
    exact List.Pairwise.imp (fun hab => Or.inl hab) hs

end

section
variable {κ : Type} [DecidableEq κ] {lt : κ → κ → Bool}

theorem setEvent_ok (h : StrictWeak lt) (ht : Total lt) {w : World κ} {cur : List κ} (hi : Inv lt id w.st cur) (hr : ∀ r ∈ w.replicas, r = w.st.items)
    (e : Event (SetOp κ)) : ∃ w' cur', setEvent lt w e = some w' ∧ Inv lt id w'.st cur' ∧ (∀ r ∈ w'.replicas, r = w'.st.items) ∧
      w'.replicas.length = w.replicas.length + connects [e] := by
  cases e with
  | connect =>
    refine ⟨_, cur, rfl, hi, ?_, by simp [connects]⟩
    intro r hm
    rcases List.mem_append.mp hm with hm | hm
    · exact hr r hm
    · rw [List.mem_singleton] at hm; rw [hm]; exact populate_eq h ht hi.si
  | call op =>
    obtain ⟨s', o, h1, h2, h3, h4⟩ := setStep_spec h ht hi op
    refine ⟨_, _, by simp only [setEvent, h1]; rfl, h4, ?_, ?_⟩
    · simp only
      have key : (∃ d, sent o = some d ∧ IsDiff lt id w.st.items s'.items d) ∨ (sent o = none ∧ s'.items = w.st.items) := by
        rw [h3]
        cases op <;> simp only [Spec.setOut, Spec.setNext] at h2 h3 ⊢
        case commit =>
          split at h2
          · rename_i he; rw [h2]; exact Or.inr ⟨rfl, he⟩
          · obtain ⟨d, rfl, hd⟩ := h2; exact Or.inl ⟨d, rfl, hd⟩
        case diff => obtain ⟨d, rfl, hd⟩ := h2; exact Or.inr ⟨rfl, by first | rfl | trivial⟩
        all_goals (rw [h2]; exact Or.inr ⟨rfl, by first | rfl | trivial⟩)
      rcases key with ⟨d, hs, hd⟩ | ⟨hs, hd⟩
      · rw [hs]
        intro r hm
        obtain ⟨r0, hm0, rfl⟩ := List.mem_map.mp hm
        rw [hr r0 hm0]
        exact replay_diff h ht hi.si h4.si hd
      · rw [hs]
        intro r hm
        rw [hd]; exact hr r hm
    · cases hs : sent o <;> simp [notify, hs, connects]

theorem setEvents_ok (h : StrictWeak lt) (ht : Total lt) : ∀ (es : List (Event (SetOp κ))) {w : World κ} {cur : List κ}, Inv lt id w.st cur →
    (∀ r ∈ w.replicas, r = w.st.items) → ∃ w', setEvents lt w es = some w' ∧ (∀ r ∈ w'.replicas, r = w'.st.items) ∧ w'.replicas.length = w.replicas.length + connects es
  | [], w, _, _, hr => ⟨w, rfl, hr, rfl⟩
  | e :: es, w, cur, hi, hr => by
    obtain ⟨w', cur', h1, h2, h3, h4⟩ := setEvent_ok h ht hi hr e
    obtain ⟨w'', g1, g2, g3⟩ := setEvents_ok h ht es h2 h3
    exact ⟨w'', by simp only [setEvents, h1]; exact g1, g2, by rw [g3, h4, Nat.add_assoc, ← connects_cons]⟩

end

section
variable {κ ν : Type} [DecidableEq κ] [DecidableEq ν] {lt : κ → κ → Bool} {veq : ν → ν → Bool}

theorem dictEvent_ok (h : StrictWeak lt) (ht : Total lt) (hv : ∀ a b, veq a b = true ↔ a = b) {w : World (κ × ν)} {cur : List (κ × ν)}
    (hi : Inv lt Prod.fst w.st cur) (hr : ∀ r ∈ w.replicas, r = w.st.items) (e : Event (DictOp κ ν)) :
    ∃ w' cur', dictEvent lt veq w e = some w' ∧ Inv lt Prod.fst w'.st cur' ∧ (∀ r ∈ w'.replicas, r = w'.st.items) ∧
      w'.replicas.length = w.replicas.length + connects [e] := by
  cases e with
  | connect =>
    refine ⟨_, cur, rfl, hi, ?_, by simp [connects]⟩
    intro r hm
    rcases List.mem_append.mp hm with hm | hm
    · exact hr r hm
    · rw [List.mem_singleton] at hm; rw [hm]; exact populate_eq h ht hi.si
  | call op =>
    obtain ⟨s', o, h1, h2, h3, h4⟩ := dictStep_spec h ht hv hi op
    refine ⟨_, _, by simp only [dictEvent, h1]; rfl, h4, ?_, ?_⟩
    · simp only
      have key : (∃ d, sent o = some d ∧ IsDiff lt Prod.fst w.st.items s'.items d) ∨ (sent o = none ∧ s'.items = w.st.items) := by
        rw [h3]
        cases op <;> simp only [Spec.dictOut, Spec.dictNext] at h2 h3 ⊢
        case commit =>
          split at h2
          · rename_i he; rw [h2]; exact Or.inr ⟨rfl, he⟩
          · obtain ⟨d, rfl, hd⟩ := h2; exact Or.inl ⟨d, rfl, hd⟩
        case diff => obtain ⟨d, rfl, hd⟩ := h2; exact Or.inr ⟨rfl, by first | rfl | trivial⟩
        all_goals (rw [h2]; exact Or.inr ⟨rfl, by first | rfl | trivial⟩)
      rcases key with ⟨d, hs, hd⟩ | ⟨hs, hd⟩
      · rw [hs]
        intro r hm
        obtain ⟨r0, hm0, rfl⟩ := List.mem_map.mp hm
        rw [hr r0 hm0]
        exact replay_diff h ht hi.si h4.si hd
      · rw [hs]
        intro r hm
        rw [hd]; exact hr r hm
    · cases hs : sent o <;> simp [notify, hs, connects]

theorem dictEvents_ok (h : StrictWeak lt) (ht : Total lt) (hv : ∀ a b, veq a b = true ↔ a = b) : ∀ (es : List (Event (DictOp κ ν))) {w : World (κ × ν)}
    {cur : List (κ × ν)}, Inv lt Prod.fst w.st cur → (∀ r ∈ w.replicas, r = w.st.items) →
    ∃ w', dictEvents lt veq w es = some w' ∧ (∀ r ∈ w'.replicas, r = w'.st.items) ∧ w'.replicas.length = w.replicas.length + connects es
  | [], w, _, _, hr => ⟨w, rfl, hr, rfl⟩
  | e :: es, w, cur, hi, hr => by
    obtain ⟨w', cur', h1, h2, h3, h4⟩ := dictEvent_ok h ht hv hi hr e
    obtain ⟨w'', g1, g2, g3⟩ := dictEvents_ok h ht hv es h2 h3
    exact ⟨w'', by simp only [dictEvents, h1]; exact g1, g2, by rw [g3, h4, Nat.add_assoc, ← connects_cons]⟩

end
end Verif.Trans

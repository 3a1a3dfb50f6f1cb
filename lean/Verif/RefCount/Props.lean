import Verif.RefCount.Model
/- Specification from the history alone, invariant and properties of the reference-counting containers. -/
set_option linter.unusedSectionVars false
namespace Verif.RefCount

namespace Spec
section
variable {κ ν : Type} [DecidableEq κ]

/-- Effect of one call on what is held for key `k`: the surplus of additions over removals and the value made by the addition that started it. -/
def upd (k : κ) (h : Option (Nat × ν)) : Op κ ν → Option (Nat × ν)
  | .add k' r => if k' = k then (match h with | none => r.map (fun v => (1, v)) | some p => some (p.1 + 1, p.2)) else h
  | .erase k' _ => if k' = k then (match h with | none => none | some p => if p.1 = 1 then none else some (p.1 - 1, p.2)) else h
  | .clear => none

/-- What is held for `k` after a history. -/
def held (k : κ) (ops : List (Op κ ν)) : Option (Nat × ν) := ops.foldl (upd k) none

/-- The surplus. -/
def net (k : κ) (ops : List (Op κ ν)) : Nat := match held k ops with | none => 0 | some p => p.1

/-- No removal callback throws (addition callbacks may). -/
def quiet : Op κ ν → Prop
  | .erase _ ok => ok = true
  | _ => True

end

section
variable {ν : Type}

/-- The same for the single value. -/
def vupd (h : Option (Nat × ν)) : VOp ν → Option (Nat × ν)
  | .set r => (match h with | none => r.map (fun v => (1, v)) | some p => some (p.1 + 1, p.2))
  | .release _ => (match h with | none => none | some p => if p.1 = 1 then none else some (p.1 - 1, p.2))
  | .reset => none

def vheld (ops : List (VOp ν)) : Option (Nat × ν) := ops.foldl vupd none

end
end Spec

section
variable {κ ν : Type} [DecidableEq κ]

structure Inv (m : List (Entry κ ν)) (h : κ → Option (Nat × ν)) : Prop where
  find : ∀ k, (mfind m k).map (fun e => (e.refs, e.val)) = h k
  pos : ∀ k p, h k = some p → 0 < p.1
  nodup : (m.map Entry.key).Nodup

theorem mfind_key {m : List (Entry κ ν)} {k : κ} {e : Entry κ ν} (h : mfind m k = some e) : e.key = k := by
  have := List.find?_some h
  simpa using this

theorem mfind_setRefs (m : List (Entry κ ν)) (k k' : κ) (n : Nat) :
    mfind (setRefs m k n) k' = if k' = k then (mfind m k).map (fun e => { e with refs := n }) else mfind m k' := by
  unfold mfind setRefs
  induction m with
  | nil => simp
  | cons e m ih =>
    rw [List.map_cons, List.find?_cons]
    by_cases h1 : e.key = k
    · rw [if_pos h1]
      by_cases h2 : k' = k
      · subst h2; simp [h1]
      · simp only [h1, Ne.symm h2, decide_false]
        rw [ih, if_neg h2, List.find?_cons]; simp [h1, Ne.symm h2, if_neg h2]
    · rw [if_neg h1]
      by_cases h2 : e.key = k'
      · have : k' ≠ k := fun h => h1 (h2.trans h)
        simp [h2, if_neg this]
      · simp only [h2, decide_false]
        rw [ih, List.find?_cons, List.find?_cons]; simp [h1, h2]

theorem keys_setRefs (m : List (Entry κ ν)) (k : κ) (n : Nat) : (setRefs m k n).map Entry.key = m.map Entry.key := by
  unfold setRefs
  rw [List.map_map]
  congr 1
  funext e
  simp only [Function.comp]
  split <;> rfl

theorem mfind_filter (m : List (Entry κ ν)) (k k' : κ) :
    mfind (m.filter (fun x => decide (x.key ≠ k))) k' = if k' = k then none else mfind m k' := by
  unfold mfind
  by_cases h : k' = k
  · subst h
    rw [if_pos rfl, List.find?_eq_none]
    intro e he
    have := (List.mem_filter.mp he).2
    simpa using this
  · rw [if_neg h, List.find?_filter]
    congr 1
    funext e
    by_cases h1 : e.key = k'
    · have : e.key ≠ k := fun h2 => h (h1.symm.trans h2)
      simp [h1, this, h]
    · simp [h1]

theorem mfind_append (m : List (Entry κ ν)) (e : Entry κ ν) (k : κ) (hn : mfind m e.key = none) :
    mfind (m ++ [e]) k = if k = e.key then some e else mfind m k := by
  unfold mfind at hn ⊢
  rw [List.find?_append]
  by_cases h : k = e.key
  · subst h; rw [hn]; simp
  · rw [if_neg h]
    have : List.find? (fun x => decide (x.key = k)) [e] = none := by simp [Ne.symm h]
    rw [this]; simp

theorem inv_step {m : List (Entry κ ν)} {h : κ → Option (Nat × ν)} (hi : Inv m h) (op : Op κ ν) (hq : Spec.quiet op) :
    Inv (step m op).1 (fun k => Spec.upd k (h k) op) := by
  cases op with
  | add k r =>
    simp only [step, add]
    cases hf : mfind m k with
    | some e =>
      have hk : h k = some (e.refs, e.val) := by rw [← hi.find k, hf]; rfl
      refine ⟨?_, ?_, by rw [keys_setRefs]; exact hi.nodup⟩
      · intro k'
        rw [mfind_setRefs]
        by_cases hkk : k' = k
        · subst hkk; rw [if_pos rfl, hf]; simp [Spec.upd, hk]
        · rw [if_neg hkk, hi.find]; simp [Spec.upd, Ne.symm hkk]
      · intro k' p hp
        simp only [Spec.upd] at hp
        split at hp
        · rename_i heq; subst heq
          rw [hk] at hp; simp only [Option.some.injEq] at hp; rw [← hp]; simp
        · exact hi.pos k' p hp
    | none =>
      have hk : h k = none := by rw [← hi.find k, hf]; rfl
      cases r with
      | none =>
        refine ⟨?_, ?_, hi.nodup⟩
        · intro k'
          simp only [Spec.upd]
          split
          · rename_i heq; subst heq; rw [hf, hk]; rfl
          · exact hi.find k'
        · intro k' p hp
          simp only [Spec.upd] at hp
          split at hp
          · rename_i heq; subst heq; rw [hk] at hp; cases hp
          · exact hi.pos k' p hp
      | some v =>
        refine ⟨?_, ?_, ?_⟩
        · intro k'
          simp only
          rw [mfind_append m ⟨k, 1, v⟩ k' hf]
          by_cases hkk : k' = k
          · subst hkk; simp [Spec.upd, hk]
          · rw [if_neg hkk, hi.find]; simp [Spec.upd, Ne.symm hkk]
        · intro k' p hp
          simp only [Spec.upd] at hp
          split at hp
          · rename_i heq; subst heq; rw [hk] at hp; simp only [Option.map_some, Option.some.injEq] at hp; rw [← hp]; simp
          · exact hi.pos k' p hp
        · simp only [List.map_append, List.map_cons, List.map_nil]
          rw [List.nodup_append]
          refine ⟨hi.nodup, by simp, ?_⟩
          intro a ha b hb
          rw [List.mem_singleton.mp hb]
          intro hab
          obtain ⟨e, he, hek⟩ := List.mem_map.mp ha
          have := List.find?_eq_none.mp hf e he
          simp [hek, hab] at this
  | erase k ok =>
    simp only [Spec.quiet] at hq; subst hq
    simp only [step, erase]
    cases hf : mfind m k with
    | none =>
      have hk : h k = none := by rw [← hi.find k, hf]; rfl
      refine ⟨?_, ?_, hi.nodup⟩
      · intro k'
        simp only [Spec.upd]
        split
        · rename_i heq; subst heq; rw [hf, hk]; rfl
        · exact hi.find k'
      · intro k' p hp
        simp only [Spec.upd] at hp
        split at hp
        · rename_i heq; subst heq; rw [hk] at hp; cases hp
        · exact hi.pos k' p hp
    | some e =>
      have hk : h k = some (e.refs, e.val) := by rw [← hi.find k, hf]; rfl
      have hpos : 0 < e.refs := hi.pos k _ hk
      have hd : dec e.refs = e.refs - 1 := by unfold dec; rw [if_neg (by omega)]
      by_cases h1 : e.refs = 1
      · have hdz : dec e.refs = 0 := by omega
        simp only [hdz, Nat.lt_irrefl, if_false, if_true]
        refine ⟨?_, ?_, ?_⟩
        · intro k'
          rw [mfind_filter]
          by_cases hkk : k' = k
          · subst hkk; rw [if_pos rfl]; simp [Spec.upd, hk, h1]
          · rw [if_neg hkk, hi.find]; simp [Spec.upd, Ne.symm hkk]
        · intro k' p hp
          simp only [Spec.upd] at hp
          split at hp
          · rename_i heq; subst heq; rw [hk] at hp; simp [h1] at hp
          · exact hi.pos k' p hp
        · exact List.Sublist.nodup (List.Sublist.map _ List.filter_sublist) hi.nodup
      · have hlt : 0 < dec e.refs := by omega
        simp only [hlt, if_true]
        refine ⟨?_, ?_, by rw [keys_setRefs]; exact hi.nodup⟩
        · intro k'
          rw [mfind_setRefs]
          by_cases hkk : k' = k
          · subst hkk; rw [if_pos rfl, hf]; simp [Spec.upd, hk, h1, hd]
          · rw [if_neg hkk, hi.find]; simp [Spec.upd, Ne.symm hkk]
        · intro k' p hp
          simp only [Spec.upd] at hp
          split at hp
          · rename_i heq; subst heq; rw [hk] at hp; simp only [h1, if_false, Option.some.injEq] at hp
            rw [← hp]; simp only; omega
          · exact hi.pos k' p hp
  | clear =>
    refine ⟨fun k => rfl, ?_, List.nodup_nil⟩
    intro k p hp; simp [Spec.upd] at hp

theorem inv_after : ∀ (ops : List (Op κ ν)) {m : List (Entry κ ν)} {h : κ → Option (Nat × ν)}, Inv m h → (∀ op ∈ ops, Spec.quiet op) →
    Inv (after m ops) (fun k => ops.foldl (Spec.upd k) (h k))
  | [], _, _, hi, _ => hi
  | op :: ops, m, h, hi, hq =>
    inv_after ops (inv_step hi op (hq op List.mem_cons_self)) (fun o ho => hq o (List.mem_cons_of_mem _ ho))

theorem inv_empty : Inv ([] : List (Entry κ ν)) (fun _ => none) :=
  ⟨fun _ => rfl, (by intro k p h; cases h), List.nodup_nil⟩

theorem after_held (ops : List (Op κ ν)) (hq : ∀ op ∈ ops, Spec.quiet op) : Inv (after [] ops) (fun k => Spec.held k ops) := by
  have := inv_after ops (inv_empty (κ := κ) (ν := ν)) hq
  exact this

/-- C21. After every history in which no removal callback throws (addition callbacks may: C48), `count(k)` is the number of additions of `k` not yet undone, and the container
has exactly the elements for which that number is positive, once each, with the value made by the addition that started the current presence. -/
theorem refcount_presence (ops : List (Op κ ν)) (hq : ∀ op ∈ ops, Spec.quiet op) :
    (∀ k, count (after [] ops) k = Spec.net k ops) ∧ ((after [] ops).map Entry.key).Nodup ∧
    (∀ k v, (∃ e ∈ after ([] : List (Entry κ ν)) ops, e.key = k ∧ e.val = v) ↔ ∃ n, Spec.held k ops = some (n, v)) ∧
    (∀ k n v, Spec.held k ops = some (n, v) → 0 < n) := by
  have hi := after_held ops hq
  refine ⟨?_, hi.nodup, ?_, ?_⟩
  · intro k
    unfold count Spec.net
    rw [← hi.find k]
    cases mfind (after [] ops) k <;> rfl
  · intro k v
    constructor
    · rintro ⟨e, he, rfl, rfl⟩
      have hf : mfind (after [] ops) e.key = some e := by
        cases hf : mfind (after [] ops) e.key with
        | none => have := List.find?_eq_none.mp hf e he; simp at this
        | some e' =>
          have hk := mfind_key hf
          have hm := List.mem_of_find?_eq_some hf
          have hnd := hi.nodup
          unfold List.Nodup at hnd
          rw [List.pairwise_map] at hnd
          congr 1
          obtain ⟨i, hi1⟩ := List.mem_iff_getElem?.mp hm
          obtain ⟨j, hj1⟩ := List.mem_iff_getElem?.mp he
          obtain ⟨hi2, hi3⟩ := List.getElem?_eq_some_iff.mp hi1
          obtain ⟨hj2, hj3⟩ := List.getElem?_eq_some_iff.mp hj1
          rcases Nat.lt_trichotomy i j with hij | hij | hij
          · have := List.pairwise_iff_getElem.mp hnd i j hi2 hj2 hij
            rw [hi3, hj3] at this; exact absurd hk this
          · subst hij; rw [hi1] at hj1; exact Option.some.inj hj1
          · have := List.pairwise_iff_getElem.mp hnd j i hj2 hi2 hij
            rw [hi3, hj3] at this; exact absurd hk.symm this
      have := hi.find e.key
      rw [hf] at this
      exact ⟨e.refs, this.symm⟩
    · rintro ⟨n, hn⟩
      have := hi.find k
      rw [hn] at this
      obtain ⟨e, he, hev⟩ := Option.map_eq_some_iff.mp this
      simp only [Prod.mk.injEq] at hev
      exact ⟨e, List.mem_of_find?_eq_some he, mfind_key he, hev.2⟩
  · intro k n v hn
    exact hi.pos k _ hn

/-- C21. The callbacks fire exactly on the edges: an addition calls its callback iff the surplus was 0, a removal iff it was 1 (with the stored
value), a clear once for every element present; a removal returns 1 iff something was there. -/
theorem refcount_edges (ops : List (Op κ ν)) (hq : ∀ op ∈ ops, Spec.quiet op) :
    (∀ k v, (step (after [] ops) (.add k (some v))).2 =
      match Spec.held k ops with | none => .add true (some v) | some p => .add false (some p.2)) ∧
    (∀ k, (step (after ([] : List (Entry κ ν)) ops) (.erase k true)).2 =
      match Spec.held k ops with | none => .erase none (some 0) | some p => .erase (if p.1 = 1 then some p.2 else none) (some 1)) ∧
    (∃ calls, (step (after ([] : List (Entry κ ν)) ops) .clear).2 = .clear calls ∧ (calls.map (·.1)).Nodup ∧
      ∀ k v, (k, v) ∈ calls ↔ ∃ n, Spec.held k ops = some (n, v)) := by
  have hi := after_held ops hq
  refine ⟨?_, ?_, ?_⟩
  · intro k v
    simp only [step, add]
    rw [← hi.find k]
    cases mfind (after [] ops) k <;> rfl
  · intro k
    simp only [step, erase]
    have hf := hi.find k
    cases hm : mfind (after [] ops) k with
    | none => rw [hm] at hf; rw [← hf]; rfl
    | some e =>
      rw [hm] at hf
      have hpos : 0 < e.refs := hi.pos k _ hf.symm
      have hd : dec e.refs = e.refs - 1 := by unfold dec; rw [if_neg (by omega)]
      rw [← hf]
      simp only [Option.map_some]
      by_cases h1 : e.refs = 1
      · have h0 : dec 1 = 0 := rfl
        simp [h1, h0]
      · have : 0 < dec e.refs := by omega
        simp [this, h1]
  · refine ⟨_, rfl, ?_, ?_⟩
    · rw [List.map_map]; exact hi.nodup
    · intro k v
      rw [← (refcount_presence ops hq).2.2.1 k v]
      simp only [List.mem_map, Prod.mk.injEq]

end

/-- C48, refuted when a removal callback throws (RefCountingMap.h:130-134, RefCountingSet.h:73-76): the entry stays with count 0, the next removal
wraps the counter, and the element can no longer be removed. -/
theorem refcount_throwing_release_violated :
    after [] [Op.add 'k' (some 7), .erase 'k' false] = [⟨'k', 0, 7⟩] ∧
    after [] [Op.add 'k' (some 7), .erase 'k' false, .erase 'k' true] = [⟨'k', 2 ^ 64 - 1, 7⟩] ∧
    count (after [] [Op.add 'k' (some 7), .erase 'k' false, .erase 'k' true]) 'k' = 2 ^ 64 - 1 := by
  decide +kernel

section
variable {ν : Type}

theorem vinv : ∀ (ops : List (VOp ν)) (s : Val ν) (h : Option (Nat × ν)),
    ((h = none ∧ s.refs = 0) ∨ ∃ p, h = some p ∧ s.refs = p.1 ∧ 0 < p.1 ∧ s.value = some p.2) →
    ((ops.foldl Spec.vupd h = none ∧ (vafter s ops).refs = 0) ∨
      ∃ p, ops.foldl Spec.vupd h = some p ∧ (vafter s ops).refs = p.1 ∧ 0 < p.1 ∧ (vafter s ops).value = some p.2)
  | [], s, h, hi => hi
  | op :: ops, s, h, hi => by
    refine vinv ops (vstep s op).1 (Spec.vupd h op) ?_
    rcases hi with ⟨rfl, h2⟩ | ⟨p, rfl, h2, h3, h4⟩
    · cases op with
      | set r =>
        cases r with
        | none => left; simp [vstep, Spec.vupd, h2]
        | some v => right; exact ⟨(1, v), by simp [Spec.vupd], by simp [vstep, h2], by simp, by simp [vstep, h2]⟩
      | release ok => left; simp [vstep, Spec.vupd, h2]
      | reset => left; simp [vstep, Spec.vupd, h2]
    · have hne : s.refs ≠ 0 := by omega
      cases op with
      | set r =>
        right
        exact ⟨(p.1 + 1, p.2), by simp [Spec.vupd], by simp only [vstep, hne, if_false, h4]; simp only [h2], by simp, by simp [vstep, hne, h4]⟩
      | release ok =>
        by_cases h1 : p.1 = 1
        · left
          refine ⟨by simp [Spec.vupd, h1], ?_⟩
          cases ok <;> simp [vstep, h2, h1, h4]
        · right
          refine ⟨(p.1 - 1, p.2), by simp [Spec.vupd, h1], ?_, by simp only; omega, ?_⟩
          · simp only [vstep, hne, if_false]; rw [if_neg (by omega)]; simp only; omega
          · simp only [vstep, hne, if_false]; rw [if_neg (by omega)]; exact h4
      | reset => left; exact ⟨by simp [Spec.vupd], by simp [vstep, hne, h4]⟩

/-- C21, C48 for `RefCountingValue` and `RefCounter`, whatever the callbacks do: the set callback fires exactly when nothing is held, the release
callback exactly when the last reference goes, `reset` exactly when something is held, each with the stored value; `count()` is the surplus and an
empty value is never dereferenced. -/
theorem refcounting_value_edges (ops : List (VOp ν)) :
    (vafter ⟨0, none⟩ ops).refs = (match Spec.vheld ops with | none => 0 | some p => p.1) ∧
    (∀ v, (vstep (vafter ⟨0, none⟩ ops) (.set (some v))).2 =
      match Spec.vheld ops with | none => .set true (some v) | some p => .set false (some p.2)) ∧
    (∀ ok, (vstep (vafter (⟨0, none⟩ : Val ν) ops) (.release ok)).2 =
      match Spec.vheld ops with
      | none => .release none (some false)
      | some p => if p.1 = 1 then .release (some p.2) (if ok then some true else none) else .release none (some true)) ∧
    (vstep (vafter (⟨0, none⟩ : Val ν) ops) .reset).2 = .reset ((Spec.vheld ops).map (·.2)) := by
  unfold Spec.vheld
  rcases vinv ops ⟨0, none⟩ none (.inl ⟨rfl, rfl⟩) with ⟨h1, h2⟩ | ⟨p, h1, h2, h3, h4⟩
  · rw [h1]
    refine ⟨h2, ?_, ?_, ?_⟩
    · intro v; simp [vstep, h2]
    · intro ok; simp [vstep, h2]
    · simp [vstep, h2]
  · rw [h1]
    have hne : (vafter ⟨0, none⟩ ops).refs ≠ 0 := by omega
    refine ⟨h2, ?_, ?_, ?_⟩
    · intro v; simp [vstep, hne, h4]
    · intro ok
      by_cases h5 : p.1 = 1
      · cases ok <;> simp [vstep, h2, h5, h4]
      · simp only [vstep, hne, if_false, h5]; rw [if_neg (by omega)]
    · simp [vstep, hne, h4]

end

/-! Non-vacuity. -/
example : ∀ op ∈ [Op.add 'a' (some 1), .add 'a' (some 2), .add 'b' none, .erase 'a' true, .erase 'b' true], Spec.quiet op := by
  intro op h
  simp only [List.mem_cons, List.not_mem_nil, or_false] at h
  rcases h with rfl | rfl | rfl | rfl | rfl <;> simp [Spec.quiet]

example : Spec.held 'a' [Op.add 'a' (some 1), .add 'a' (some 2), .add 'b' none, .erase 'a' true] = some (1, 1) ∧
    after [] [Op.add 'a' (some 1), .add 'a' (some 2), .add 'b' none, .erase 'a' true] = [⟨'a', 1, 1⟩] ∧
    (step (after [] [Op.add 'a' (some 1), .add 'a' (some 2), .add 'b' none, .erase 'a' true]) (.erase 'a' true)).2 = .erase (some 1) (some 1) := by
  decide +kernel

example : Spec.vheld [VOp.set (some 'x'), .set (some 'y'), .release true] = some (1, 'x') := by decide +kernel

end Verif.RefCount

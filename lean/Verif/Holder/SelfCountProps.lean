import Verif.Holder.SelfCount
/-
`self_count_ptr` (C86).  Specification: the objects are counted by their pointers, an object is deleted exactly once and only
after its last pointer is gone, and assignment stores the value of its argument, whatever aliases.
-/
namespace Verif.Holder.SelfCount

/-- The destructor of an object does not call `self_count_ptr_from_this`. -/
def Act.ordinary : Act → Bool
  | .fromDtor _ _ => false
  | _ => true

/-- What holds of one object that `n` variables point to. -/
structure ObjOk (x : Obj) (n : Nat) : Prop where
  count : x.count = n
  live : n > 0 → x.dying = 0 ∧ x.deleted = 0
  dead : n = 0 → x.dying + x.deleted = 1

structure Inv (s : State) : Prop where
  objs : ∀ (o : Nat) (x : Obj), s.objs[o]? = some x → ObjOk x (s.vars.count (some o))
  vars : ∀ o, some o ∈ s.vars → o < s.objs.length
  bad : s.bad = false

theorem count_pos_of_get {s : State} {k o : Nat} (h : s.vars[k]? = some (some o)) : s.vars.count (some o) > 0 :=
  List.count_pos_iff.2 (List.mem_of_getElem? h)

theorem count_set_null {l : List (Option Nat)} {k o : Nat} (h : l[k]? = some none) (p : Nat) :
    (l.set k (some p)).count (some o) = l.count (some o) + if p = o then 1 else 0 := by
  obtain ⟨hk, hv⟩ := List.getElem?_eq_some_iff.1 h
  rw [List.count_set hk, hv]
  by_cases e : p = o <;> simp [e]

theorem count_set_none {l : List (Option Nat)} {k p : Nat} (h : l[k]? = some (some p)) (o : Nat) :
    (l.set k none).count (some o) = l.count (some o) - if p = o then 1 else 0 := by
  obtain ⟨hk, hv⟩ := List.getElem?_eq_some_iff.1 h
  rw [List.count_set hk, hv]
  by_cases e : p = o <;> simp [e]

theorem mem_set_imp {l : List (Option Nat)} {k : Nat} {p q : Option Nat} (h : q ∈ l.set k p) : q ∈ l ∨ q = p :=
  List.mem_or_eq_of_mem_set h

theorem inv_init (n : Nat) : Inv (State.init n) where
  objs := by intro o x h; simp [State.init] at h
  vars := by intro o h; simp [State.init, List.mem_replicate] at h
  bad := rfl

/-- Adding a pointer to an object that has one. -/
theorem inv_add {s : State} (i : Inv s) {k o : Nat} {x : Obj} (hk : s.vars[k]? = some none) (hx : s.objs[o]? = some x)
    (hm : some o ∈ s.vars) : Inv { s.addRef o x with vars := s.vars.set k (some o) } := by
  have ho := i.vars o hm
  have hpos : s.vars.count (some o) > 0 := List.count_pos_iff.2 hm
  have ox := i.objs o x hx
  refine ⟨?_, ?_, ?_⟩
  · intro o' x' h
    simp only [State.addRef] at h
    rw [List.getElem?_set] at h
    show ObjOk x' ((s.vars.set k (some o)).count (some o'))
    rw [count_set_null hk]
    by_cases e : o = o'
    · subst e
      rw [if_pos rfl, if_pos ho] at h
      cases h
      rw [if_pos rfl]
      refine ⟨?_, fun _ => ox.live hpos, fun h0 => by omega⟩
      have := ox.count
      simp only []
      omega
    · rw [if_neg e] at h
      rw [if_neg e]
      exact i.objs o' x' h
  · intro o' h
    simp only [State.addRef, List.length_set] at *
    rcases mem_set_imp h with h | h
    · exact i.vars o' h
    · cases h; exact ho
  · simp [State.addRef, i.bad, (ox.live hpos).2]

/-- Removing a pointer. -/
theorem inv_drop {s : State} (i : Inv s) {k o : Nat} {x : Obj} (hk : s.vars[k]? = some (some o)) (hx : s.objs[o]? = some x) :
    Inv { s.releaseRef o x with vars := s.vars.set k none } := by
  have hm := List.mem_of_getElem? hk
  have ho := i.vars o hm
  have hpos : s.vars.count (some o) > 0 := List.count_pos_iff.2 hm
  have ox := i.objs o x hx
  have hc := ox.count
  have hl := ox.live hpos
  refine ⟨?_, ?_, ?_⟩
  · intro o' x' h
    show ObjOk x' ((s.vars.set k none).count (some o'))
    rw [count_set_none hk]
    by_cases z : x.count - 1 = 0
    · simp only [State.releaseRef, z, if_true] at h
      rw [List.getElem?_set] at h
      by_cases e : o = o'
      · subst e
        rw [if_pos rfl, if_pos ho] at h
        cases h
        rw [if_pos rfl]
        refine ⟨?_, ?_, ?_⟩
        · simp only []; omega
        · intro; omega
        · intro; simp only []; omega
      · rw [if_neg e] at h
        rw [if_neg e]
        exact i.objs o' x' h
    · simp only [State.releaseRef, z, if_false] at h
      rw [List.getElem?_set] at h
      by_cases e : o = o'
      · subst e
        rw [if_pos rfl, if_pos ho] at h
        cases h
        rw [if_pos rfl]
        refine ⟨?_, ?_, ?_⟩
        · simp only []; omega
        · intro; exact hl
        · intro; omega
      · rw [if_neg e] at h
        rw [if_neg e]
        exact i.objs o' x' h
  · intro o' h
    have : (s.releaseRef o x).objs.length = s.objs.length := by
      unfold State.releaseRef; split <;> simp
    show o' < (s.releaseRef o x).objs.length
    rw [this]
    rcases mem_set_imp h with h | h
    · exact i.vars o' h
    · cases h
  · show (s.releaseRef o x).bad = false
    unfold State.releaseRef
    split <;> simp [i.bad, hl.2]

theorem step_inv {s s' : State} {a : Act} (i : Inv s) (ha : a.ordinary) (h : step s a = some s') : Inv s' := by
  cases a with
  | make k =>
    simp only [step] at h
    split at h
    · rename_i hk
      cases h
      refine ⟨?_, ?_, i.bad⟩
      · intro o x h
        show ObjOk x ((s.vars.set k (some s.objs.length)).count (some o))
        rw [count_set_null hk]
        simp only [] at h
        by_cases e : o < s.objs.length
        · rw [List.getElem?_append_left e] at h
          rw [if_neg (by omega)]
          exact i.objs o x h
        · by_cases e' : o = s.objs.length
          · subst e'
            simp at h
            subst h
            have : s.vars.count (some s.objs.length) = 0 := by
              apply List.count_eq_zero.2
              intro hm
              exact absurd (i.vars _ hm) (by omega)
            rw [this, if_pos rfl]
            exact ⟨rfl, fun _ => ⟨rfl, rfl⟩, fun h => by omega⟩
          · rw [List.getElem?_eq_none (by simp; omega)] at h
            cases h
      · intro o h
        simp only [List.length_append, List.length_singleton]
        rcases mem_set_imp h with h | h
        · exact Nat.lt_succ_of_lt (i.vars o h)
        · cases h; omega
    · cases h
  | copy k j =>
    simp only [step] at h
    split at h
    · rename_i hk
      split at h
      · cases h
      · cases h; exact i
      · rename_i o hj
        split at h
        · cases h
        · rename_i x hx
          cases h
          exact inv_add i hk hx (List.mem_of_getElem? hj)
    · cases h
  | move k j =>
    simp only [step] at h
    split at h
    · rename_i hk
      split at h
      · cases h
      · rename_i p hj
        cases h
        by_cases kj : k = j
        · subst kj
          rw [hk] at hj
          cases hj
          have : (s.vars.set k none).set k none = s.vars := by
            apply List.ext_getElem?
            intro n
            rw [List.set_set, List.getElem?_set]
            obtain ⟨hl, hv⟩ := List.getElem?_eq_some_iff.1 hk
            by_cases e : k = n
            · subst e; rw [if_pos rfl, if_pos hl, hk]
            · rw [if_neg e]
          rw [this]
          exact i
        · have cnt : ∀ o, ((s.vars.set k p).set j none).count (some o) = s.vars.count (some o) := by
            intro o
            have hj' : (s.vars.set k p)[j]? = some p := by
              rw [List.getElem?_set_ne kj]; exact hj
            cases p with
            | none =>
              have e1 : ∀ (l : List (Option Nat)) (m : Nat), l[m]? = some none → (l.set m none).count (some o) = l.count (some o) := by
                intro l m hm
                obtain ⟨hl, hv⟩ := List.getElem?_eq_some_iff.1 hm
                rw [List.count_set hl, hv]; simp
              rw [e1 _ _ hj', e1 _ _ hk]
            | some q =>
              rw [count_set_none hj', count_set_null hk]
              omega
          refine ⟨?_, ?_, i.bad⟩
          · intro o x h
            rw [cnt]
            exact i.objs o x h
          · intro o h
            rcases mem_set_imp h with h | h
            · rcases mem_set_imp h with h | h
              · exact i.vars o h
              · subst h; exact i.vars o (List.mem_of_getElem? hj)
            · cases h
    · cases h
  | swap a b =>
    simp only [step] at h
    split at h
    · rename_i p q ha' hb'
      cases h
      obtain ⟨hal, hav⟩ := List.getElem?_eq_some_iff.1 ha'
      obtain ⟨hbl, hbv⟩ := List.getElem?_eq_some_iff.1 hb'
      have cnt : ∀ o, ((s.vars.set a q).set b p).count (some o) = s.vars.count (some o) := by
        intro o
        rw [List.count_set (by rw [List.length_set]; exact hbl), List.count_set hal, hav, List.getElem_set]
        by_cases e : a = b
        · subst e
          have : p = q := by rw [← hav, ← hbv]
          subst this
          rw [if_pos rfl]
          by_cases e : p = some o
          · have hp : s.vars.count (some o) > 0 := List.count_pos_iff.2 (e ▸ List.mem_of_getElem? ha')
            simp only [e, beq_self_eq_true, if_true]; omega
          · simp [e]
        · rw [if_neg e, hbv]
          by_cases e1 : p = some o
          · have hp : s.vars.count (some o) > 0 := List.count_pos_iff.2 (e1 ▸ List.mem_of_getElem? ha')
            by_cases e2 : q = some o
            · simp only [e1, e2, beq_self_eq_true, if_true]; omega
            · simp only [e1, beq_self_eq_true, if_true, beq_eq_false_iff_ne.2 e2, Bool.false_eq_true, if_false]; omega
          · by_cases e2 : q = some o <;> simp [e1, e2]
      refine ⟨?_, ?_, i.bad⟩
      · intro o x h
        rw [cnt]
        exact i.objs o x h
      · intro o h
        rcases mem_set_imp h with h | h
        · rcases mem_set_imp h with h | h
          · exact i.vars o h
          · subst h; exact i.vars o (List.mem_of_getElem? hb')
        · subst h; exact i.vars o (List.mem_of_getElem? ha')
    · cases h
  | drop k =>
    simp only [step] at h
    split at h
    · cases h
    · cases h; exact i
    · rename_i o hk
      split at h
      · cases h
      · rename_i x hx
        cases h
        exact inv_drop i hk hx
  | delete o =>
    simp only [step] at h
    split at h
    · cases h
    · rename_i x hx
      split at h
      · rename_i hd
        cases h
        have ox := i.objs o x hx
        have ho := (List.getElem?_eq_some_iff.1 hx).1
        refine ⟨?_, ?_, i.bad⟩
        · intro o' x' h
          simp only [] at h
          show ObjOk x' (s.vars.count (some o'))
          rw [List.getElem?_set] at h
          by_cases e : o = o'
          · subst e
            rw [if_pos rfl, if_pos ho] at h
            cases h
            refine ⟨ox.count, ?_, ?_⟩
            · intro hp; have := ox.live hp; omega
            · intro h0; have := ox.dead h0; simp only []; omega
          · rw [if_neg e] at h
            exact i.objs o' x' h
        · intro o' h
          simp only [List.length_set]
          exact i.vars o' h
      · cases h
  | fromThis k o =>
    simp only [step] at h
    split at h
    · rename_i hc
      split at h
      · cases h
      · rename_i x hx
        cases h
        exact inv_add i hc.1 hx hc.2
    · cases h
  | fromDtor k o => cases ha

theorem run_inv {s s' : State} {as : List Act} (i : Inv s) (ha : ∀ a ∈ as, a.ordinary) (h : run s as = some s') : Inv s' := by
  induction as generalizing s with
  | nil => cases h; exact i
  | cons a as ih =>
    simp only [run] at h
    split at h
    · cases h
    · rename_i s1 h1
      exact ih (step_inv i (ha a (by simp)) h1) (fun b hb => ha b (by simp [hb])) h

/-- **C86 (partial).**  However threads interleave: an object that a variable points to has not been deleted and nobody is
about to delete it, `use_count` is the number of variables that point to it, an object no variable points to is deleted exactly
once, and no counter is used after its object was deleted.  Missing: destructors that call `self_count_ptr_from_this`
(`from_destructor_violated`). -/
theorem self_count_partial {n : Nat} {as : List Act} {s : State} (ha : ∀ a ∈ as, a.ordinary) (h : run (State.init n) as = some s) :
    (∀ (k o : Nat), s.vars[k]? = some (some o) →
      ∃ x, s.objs[o]? = some x ∧ x.deleted = 0 ∧ x.dying = 0 ∧ s.useCount k = some ((s.vars.count (some o) : Nat) : Int)) ∧
    (∀ (o : Nat) (x : Obj), s.objs[o]? = some x → some o ∉ s.vars → x.deleted + x.dying = 1) ∧ s.bad = false := by
  have i := run_inv (inv_init n) ha h
  refine ⟨?_, ?_, i.bad⟩
  · intro k o hk
    have ho := i.vars o (List.mem_of_getElem? hk)
    have hx := List.getElem?_eq_getElem ho
    have ox := i.objs o _ hx
    refine ⟨_, hx, (ox.live (count_pos_of_get hk)).2, (ox.live (count_pos_of_get hk)).1, ?_⟩
    simp only [State.useCount, hk, hx, Option.map_some]
    rw [ox.count]
  · intro o x hx hm
    have ox := i.objs o x hx
    have := ox.dead (List.count_eq_zero.2 hm)
    omega

/-- **C86.**  The use count of a null pointer is zero. -/
theorem null_use_count {s : State} {k : Nat} (h : s.vars[k]? = some none) : s.useCount k = some 0 := by simp [State.useCount, h]

example : (State.init 2).useCount 1 = some 0 := by decide

/-- **C86.**  Nothing leaks: when all variables are null and no deletion is pending, every object made was deleted exactly once. -/
theorem self_count_no_leak {n : Nat} {as : List Act} {s : State} (ha : ∀ a ∈ as, a.ordinary) (h : run (State.init n) as = some s)
    (hv : ∀ p ∈ s.vars, p = none) (hd : ∀ x ∈ s.objs, x.dying = 0) : ∀ x ∈ s.objs, x.deleted = 1 := by
  intro x hx
  obtain ⟨o, hlt, rfl⟩ := List.mem_iff_getElem.1 hx
  have := (self_count_partial ha h).2.1 o _ (List.getElem?_eq_getElem hlt) (fun hm => by cases hv _ hm)
  have := hd _ hx
  omega

/-- A pending deletion can always be carried out: it is enabled until it has happened. -/
theorem delete_enabled {s : State} {o : Nat} {x : Obj} (h : s.objs[o]? = some x) (hd : x.dying ≥ 1) :
    ∃ s', step s (.delete o) = some s' := by
  simp only [step, h]
  rw [if_pos hd]
  exact ⟨_, rfl⟩

/-- **C86.**  Copy assignment, also to itself or between pointers to one object: it succeeds, afterwards the target and the
source are both what the source was, and no other variable has changed. -/
theorem assign_spec {s : State} (i : Inv s) {k a b : Nat} {p q : Option Nat} (hk : s.vars[k]? = some none)
    (ha : s.vars[a]? = some p) (hb : s.vars[b]? = some q) (ka : k ≠ a) (kb : k ≠ b) :
    ∃ s', run s (assign k a b) = some s' ∧ s'.vars = s.vars.set a q := by
  have hkl := (List.getElem?_eq_some_iff.1 hk).1
  have hal := (List.getElem?_eq_some_iff.1 ha).1
  -- the variables after the copy
  have c : ∃ s1, step s (.copy k b) = some s1 ∧ s1.vars = s.vars.set k q ∧ Inv s1 := by
    cases q with
    | none =>
      refine ⟨s, by simp only [step, hk, hb, if_true], ?_, i⟩
      apply List.ext_getElem?
      intro m
      rw [List.getElem?_set]
      by_cases e : k = m
      · subst e; rw [if_pos rfl, if_pos hkl, hk]
      · rw [if_neg e]
    | some o =>
      have hx := List.getElem?_eq_getElem (i.vars o (List.mem_of_getElem? hb))
      have hs : step s (.copy k b) = some { s.addRef o (s.objs[o]'(i.vars o (List.mem_of_getElem? hb))) with vars := s.vars.set k (some o) } := by
        simp only [step, hk, hb, if_true, hx]
      exact ⟨_, hs, rfl, inv_add i hk hx (List.mem_of_getElem? hb)⟩
  obtain ⟨s1, h1, v1, i1⟩ := c
  have g1 : s1.vars[a]? = some p := by rw [v1, List.getElem?_set_ne ka]; exact ha
  have g2 : s1.vars[k]? = some q := by rw [v1, List.getElem?_set_self hkl]
  have h2 : step s1 (.swap a k) = some { s1 with vars := (s1.vars.set a q).set k p } := by
    simp only [step, g1, g2]
  have i2 := step_inv (a := .swap a k) i1 rfl h2
  have fin : ((s1.vars.set a q).set k none) = s.vars.set a q := by
    rw [v1]
    apply List.ext_getElem?
    intro m
    simp only [List.getElem?_set, List.length_set]
    by_cases e : k = m
    · subst e
      rw [if_pos rfl, if_pos hkl, if_neg (Ne.symm ka), hk]
    · rw [if_neg e, if_neg e]
  have g3 : ((s1.vars.set a q).set k p)[k]? = some p := by
    rw [List.getElem?_set_self]
    rw [List.length_set, v1, List.length_set]; exact hkl
  have d : ∀ s2 : State, Inv s2 → s2.vars = (s1.vars.set a q).set k p → ∃ s3, step s2 (.drop k) = some s3 ∧ s3.vars = (s1.vars.set a q).set k none := by
    intro s2 j2 v2
    have g : s2.vars[k]? = some p := by rw [v2]; exact g3
    cases p with
    | none => exact ⟨s2, by simp only [step, g], v2⟩
    | some o =>
      have hx := List.getElem?_eq_getElem (j2.vars o (List.mem_of_getElem? g))
      refine ⟨{ s2.releaseRef o (s2.objs[o]'(j2.vars o (List.mem_of_getElem? g))) with vars := s2.vars.set k none }, ?_, ?_⟩
      · simp only [step, g, hx]
      · show s2.vars.set k none = _
        rw [v2, List.set_set]
  obtain ⟨s3, h3, v3⟩ := d _ i2 rfl
  exact ⟨s3, by simp only [assign, run, h1, h2, h3], v3.trans fin⟩

/-- Self-assignment in a schedule that shares the object with another thread's pointer. -/
example : ∃ s, run (State.init 4) ([.make 0, .copy 1 0] ++ assign 3 0 0 ++ moveAssign 3 1 1 ++ reset 3 0 ++ [.drop 1, .delete 0]) = some s ∧
    s.vars = [some 1, none, none, none] ∧ (s.objs.map (·.deleted)) = [1, 0] := by decide

/-- **C86 violated.**  A destructor that calls `self_count_ptr_from_this` (say, to unregister itself) has its object deleted twice. -/
theorem from_destructor_violated : ∃ (as : List Act) (s : State), run (State.init 1) as = some s ∧ ∃ x ∈ s.objs, x.deleted = 2 :=
  ⟨[.make 0, .drop 0, .fromDtor 0 0, .drop 0, .delete 0, .delete 0], ⟨[none], [⟨0, 0, 2⟩], false⟩, by decide, ⟨0, 0, 2⟩, by decide, rfl⟩

end Verif.Holder.SelfCount

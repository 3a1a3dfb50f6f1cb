import Verif.Holder.Unique
/-
C128: unique_ptr deletes every object exactly once and never points to a deleted one.
-/
namespace Verif.Holder.Unique

/-- 1 if the pointer is `o`. -/
def hit (p : Option Nat) (o : Nat) : Nat := if p = some o then 1 else 0

/-- How many calls of `reset` in progress will store `o`. -/
def pend (fs : List Frame) (o : Nat) : Nat := (fs.map (fun f => hit f.new o)).sum

/-- How many calls of `reset` in progress have deleted `o`. -/
def stale (fs : List Frame) (o : Nat) : Nat := (fs.map (fun f => hit f.old o)).sum

structure Inv (s : State) : Prop where
  frames : ∀ f ∈ s.frames, s.vars[f.var]? = some f.old
  distinct : (s.frames.map (fun f => f.var)).Nodup
  fresh : ∀ o, s.deleted.length ≤ o → s.vars.count (some o) + s.loose.count o + pend s.frames o + stale s.frames o = 0
  count : ∀ o d, s.deleted[o]? = some d → s.vars.count (some o) + s.loose.count o + pend s.frames o + d = 1 + stale s.frames o

theorem inv_init (n : Nat) : Inv (State.init n) := by
  refine ⟨by simp [State.init], by simp [State.init], ?_, by simp [State.init]⟩
  intro o _
  simp [State.init, pend, stale, List.count_replicate]

theorem count_set_opt {l : List (Option Nat)} {i : Nat} {a b : Option Nat} (h : l[i]? = some a) (o : Nat) :
    (l.set i b).count (some o) + hit a o = l.count (some o) + hit b o := by
  obtain ⟨hi, he⟩ := List.getElem?_eq_some_iff.mp h
  have hc : (l.set i b).count (some o) = l.count (some o) - (if (l[i] == some o) = true then 1 else 0) + if (b == some o) = true then 1 else 0 := List.count_set hi
  have h1 : (if (l[i] == some o) = true then 1 else 0) = hit a o := by rw [he]; by_cases ha : a = some o <;> simp [hit, ha]
  have h2 : (if (b == some o) = true then 1 else 0) = hit b o := by by_cases hb : b = some o <;> simp [hit, hb]
  have hle : hit a o ≤ l.count (some o) := by
    unfold hit
    by_cases ha : a = some o
    · rw [if_pos ha]
      have : some o ∈ l := by rw [← ha, ← he]; exact List.getElem_mem hi
      exact List.count_pos_iff.mpr this
    · rw [if_neg ha]; omega
  rw [h1, h2] at hc
  omega

theorem not_busy {s : State} {i : Nat} (h : s.busy i = false) : ∀ f ∈ s.frames, f.var ≠ i := by
  intro f hf e
  have : s.busy i = true := List.any_eq_true.mpr ⟨f, hf, by simp [e]⟩
  rw [h] at this; cases this

theorem abused_mono {s s' : State} {a : Act} (h : step s a = some s') (h' : s'.abused = false) : s.abused = false := by
  cases a with
  | make => simp only [step] at h; cases h; exact h'
  | release i =>
    simp only [step] at h
    split at h
    · cases h
    · cases h; simp at h'; exact h'.1
    · cases h; simp at h'; exact h'.1
  | reset i p =>
    simp only [step] at h
    split at h
    · cases h
    · cases h; simp at h'; exact h'.1.1
  | resetDone =>
    simp only [step] at h
    split at h
    · cases h
    · cases h; exact h'
  | swap i j =>
    simp only [step] at h
    split at h
    · cases h; simp at h'; exact h'.1.1
    · cases h

theorem hit_none (o : Nat) : hit none o = 0 := rfl

theorem erase_count {l : List Nat} {p : Option Nat} (h : mayGive l p = true) (o : Nat) : (takeLoose l p).count o + hit p o = l.count o := by
  cases p with
  | none => rfl
  | some q =>
    simp only [mayGive] at h
    have hm := List.contains_iff_mem.mp h
    simp only [takeLoose, hit]
    rw [List.count_erase]
    by_cases hq : q = o
    · subst hq
      have := List.count_pos_iff.mpr hm
      simp; omega
    · simp [hq]

theorem delete_get {d : List Nat} {p : Option Nat} {o : Nat} {x : Nat} (h : (delete d p)[o]? = some x) : ∃ y, d[o]? = some y ∧ x = y + hit p o := by
  cases p with
  | none => exact ⟨x, h, rfl⟩
  | some q =>
    simp only [delete] at h
    rw [List.getElem?_modify] at h
    obtain ⟨y, hy, he⟩ := Option.map_eq_some_iff.mp h
    refine ⟨y, hy, ?_⟩
    by_cases hq : q = o
    · simp [hit, hq] at he ⊢; omega
    · simp [hit, hq] at he ⊢; omega

theorem delete_length (d : List Nat) (p : Option Nat) : (delete d p).length = d.length := by
  cases p <;> simp [delete]

theorem step_inv {s s' : State} {a : Act} (i : Inv s) (h : step s a = some s') (ha : s'.abused = false) : Inv s' := by
  cases a with
  | make =>
    simp only [step] at h; cases h
    refine ⟨i.frames, i.distinct, ?_, ?_⟩
    · intro o ho
      simp only [List.length_append, List.length_cons, List.length_nil] at ho ⊢
      have := i.fresh o (by omega)
      have hne : s.deleted.length ≠ o := by omega
      simp [List.count_append, hne]
      simp at this
      exact this
    · intro o d hd
      simp only [] at hd ⊢
      rcases Nat.lt_or_ge o s.deleted.length with hlt | hge
      · rw [List.getElem?_append_left hlt] at hd
        have := i.count o d hd
        have hne : s.deleted.length ≠ o := by omega
        simp [List.count_append, hne]
        omega
      · rw [List.getElem?_append_right hge] at hd
        have ho : o = s.deleted.length := by
          rcases Nat.lt_or_ge s.deleted.length o with hc | hc
          · have : o - s.deleted.length = (o - s.deleted.length - 1) + 1 := by omega
            rw [this] at hd; simp at hd
          · omega
        subst ho
        simp at hd
        have := i.fresh _ (Nat.le_refl _)
        simp [List.count_append]
        omega
  | release k =>
    simp only [step] at h
    split at h
    · cases h
    · cases h; exact ⟨i.frames, i.distinct, i.fresh, i.count⟩
    · next o' hk =>
      cases h
      have hb : s.busy k = false := by simp at ha; exact ha.2
      have hc := fun o => count_set_opt (b := none) hk o
      have happ : ∀ o, (s.loose ++ [o']).count o = s.loose.count o + hit (some o') o := by
        intro o; by_cases he : o' = o <;> simp [List.count_append, hit, he]
      refine ⟨?_, i.distinct, ?_, ?_⟩
      · intro f hf
        have := not_busy hb f hf
        simp only []
        rw [List.getElem?_set_ne (Ne.symm this)]
        exact i.frames f hf
      · intro o ho
        have h1 := i.fresh o ho
        have h2 := hc o
        simp only [happ, hit_none] at h2 ⊢
        omega
      · intro o d hd
        have h1 := i.count o d hd
        have h2 := hc o
        simp only [happ, hit_none] at h2 ⊢
        omega
  | reset k p =>
    simp only [step] at h
    split at h
    · cases h
    · next old hk =>
      cases h
      simp at ha
      have hb : s.busy k = false := ha.1.2
      have hg := ha.2
      have he := fun o => erase_count (l := s.loose) (p := p) (by simpa using hg) o
      have hold : ∀ o, hit old o ≤ s.vars.count (some o) := by
        intro o
        unfold hit
        by_cases hx : old = some o
        · rw [if_pos hx]
          exact List.count_pos_iff.mpr (hx ▸ List.mem_of_getElem? hk)
        · rw [if_neg hx]; omega
      refine ⟨?_, ?_, ?_, ?_⟩
      · intro f hf
        rcases List.mem_cons.mp hf with rfl | hf
        · exact hk
        · exact i.frames f hf
      · simp only [List.map_cons]
        refine List.nodup_cons.mpr ⟨?_, i.distinct⟩
        intro hm
        obtain ⟨f, hf, hv⟩ := List.mem_map.mp hm
        exact not_busy hb f hf hv
      · intro o ho
        rw [delete_length] at ho
        have h1 := i.fresh o ho
        have h2 := he o
        have h3 := hold o
        simp only [pend, stale, List.map_cons, List.sum_cons] at h1 ⊢
        omega
      · intro o d hd
        obtain ⟨y, hy, rfl⟩ := delete_get hd
        have h1 := i.count o y hy
        have h2 := he o
        simp only [pend, stale, List.map_cons, List.sum_cons] at h1 ⊢
        omega
  | resetDone =>
    simp only [step] at h
    split at h
    · cases h
    · next f r hf =>
      cases h
      have i1 := i.frames
      have i2 := i.distinct
      have i3 := i.fresh
      have i4 := i.count
      rw [hf] at i1 i2 i3 i4
      have hcnt := fun o => count_set_opt (b := f.new) (i1 f (by simp)) o
      simp only [List.map_cons] at i2
      obtain ⟨n1, n2⟩ := List.nodup_cons.mp i2
      refine ⟨?_, n2, ?_, ?_⟩
      · intro g hg
        simp only []
        have : f.var ≠ g.var := fun e => n1 (e ▸ List.mem_map_of_mem hg)
        rw [List.getElem?_set_ne this]
        exact i1 g (by simp [hg])
      · intro o ho
        have h1 := i3 o ho
        have h2 := hcnt o
        simp only [pend, stale, List.map_cons, List.sum_cons] at h1 ⊢
        omega
      · intro o d hd
        have h1 := i4 o d hd
        have h2 := hcnt o
        simp only [pend, stale, List.map_cons, List.sum_cons] at h1 ⊢
        omega
  | swap k j =>
    simp only [step] at h
    split at h
    · next a b hk hj =>
      cases h
      simp at ha
      have hb1 := not_busy ha.1.2
      have hb2 := not_busy ha.2
      have hc : ∀ o, ((s.vars.set k b).set j a).count (some o) = s.vars.count (some o) := by
        intro o
        have h1 := count_set_opt (b := b) hk o
        by_cases hkj : k = j
        · subst hkj
          rw [hk] at hj; injection hj with hj; subst hj
          have hkk : (s.vars.set k a)[k]? = some a := by
            rw [List.getElem?_set_self (List.getElem?_eq_some_iff.mp hk).1]
          have h2 := count_set_opt (b := a) hkk o
          omega
        · have hjj : (s.vars.set k b)[j]? = some b := by rw [List.getElem?_set_ne hkj]; exact hj
          have h2 := count_set_opt (b := a) hjj o
          omega
      refine ⟨?_, i.distinct, ?_, ?_⟩
      · intro f hf
        simp only []
        rw [List.getElem?_set_ne (Ne.symm (hb2 f hf)), List.getElem?_set_ne (Ne.symm (hb1 f hf))]
        exact i.frames f hf
      · intro o ho
        simp only [hc]
        exact i.fresh o ho
      · intro o d hd
        simp only [hc]
        exact i.count o d hd
    · cases h

theorem run_abused : ∀ {as : List Act} {s s' : State}, run s as = some s' → s'.abused = false → s.abused = false := by
  intro as
  induction as with
  | nil => intro s s' h h'; simp only [run] at h; cases h; exact h'
  | cons a r ih =>
    intro s s' h h'
    simp only [run] at h
    split at h
    · cases h
    · next s1 h1 => exact abused_mono h1 (ih h h')

theorem run_inv : ∀ {as : List Act} {s s' : State}, Inv s → run s as = some s' → s'.abused = false → Inv s' := by
  intro as
  induction as with
  | nil => intro s s' i h _; simp only [run] at h; cases h; exact i
  | cons a r ih =>
    intro s s' i h h'
    simp only [run] at h
    split at h
    · cases h
    · next s1 h1 => exact ih (step_inv i h1 (run_abused h h')) h h'

/-- Distinct places with the same value. -/
theorem places_count (o : Nat) : ∀ (ps : List Nat) (vs : List (Option Nat)), ps.Nodup → (∀ p ∈ ps, vs[p]? = some (some o)) → ps.length ≤ vs.count (some o) := by
  intro ps
  induction ps with
  | nil => intro vs _ _; simp
  | cons p r ih =>
    intro vs hn hp
    obtain ⟨n1, n2⟩ := List.nodup_cons.mp hn
    have h1 := hp p (by simp)
    have h2 := count_set_opt (b := none) h1 o
    have h3 := ih (vs.set p none) n2 (by
      intro q hq
      have : p ≠ q := fun e => n1 (e ▸ hq)
      rw [List.getElem?_set_ne this]
      exact hp q (by simp [hq]))
    simp [hit] at h2
    simp only [List.length_cons]
    omega

/-- The places of the frames that have deleted `o`. -/
theorem stale_places (o : Nat) (fs : List Frame) : stale fs o = ((fs.filter (fun f => f.old = some o)).map (fun f => f.var)).length := by
  induction fs with
  | nil => rfl
  | cons f r ih =>
    simp only [stale, List.map_cons, List.sum_cons] at ih ⊢
    rw [ih]
    by_cases h : f.old = some o
    · simp [hit, h]; omega
    · simp [hit, h]

theorem stale_le {s : State} (i : Inv s) (o : Nat) : stale s.frames o ≤ s.vars.count (some o) := by
  rw [stale_places]
  refine places_count o _ _ ?_ ?_
  · exact List.Nodup.sublist (List.Sublist.map _ List.filter_sublist) i.distinct
  · intro p hp
    obtain ⟨f, hf, rfl⟩ := List.mem_map.mp hp
    obtain ⟨h1, h2⟩ := List.mem_filter.mp hf
    rw [i.frames f h1]
    simp at h2
    rw [h2]

theorem stale_lt {s : State} (i : Inv s) {k o : Nat} (hk : s.vars[k]? = some (some o)) (hb : ∀ f ∈ s.frames, f.var ≠ k) :
    stale s.frames o + 1 ≤ s.vars.count (some o) := by
  rw [stale_places]
  have := places_count o (k :: (s.frames.filter (fun f => decide (f.old = some o))).map (fun f => f.var)) s.vars ?_ ?_
  · simp only [List.length_cons] at this; exact this
  · refine List.nodup_cons.mpr ⟨?_, List.Nodup.sublist (List.Sublist.map _ List.filter_sublist) i.distinct⟩
    intro hm
    obtain ⟨f, hf, hv⟩ := List.mem_map.mp hm
    exact hb f (List.mem_filter.mp hf).1 hv
  · intro p hp
    rcases List.mem_cons.mp hp with rfl | hp
    · exact hk
    · obtain ⟨f, hf, rfl⟩ := List.mem_map.mp hp
      obtain ⟨h1, h2⟩ := List.mem_filter.mp hf
      rw [i.frames f h1]
      simp at h2
      rw [h2]

/-- **C128 (partial).**  In every history in which only raw pointers that are the user's are given to a `unique_ptr`, and no destructor uses the `unique_ptr` whose
`reset` runs it: a `unique_ptr` (that is not being reset) points to an object that is not deleted and that no other `unique_ptr` and nobody else has; no object is
deleted twice; an object that nobody has is deleted.  Missing: the two abuses (`reset_get_violated`, `reset_reentrant_violated`). -/
theorem unique_partial {n : Nat} {as : List Act} {s : State} (h : run (State.init n) as = some s) (ha : s.abused = false) :
    (∀ k o : Nat, s.vars[k]? = some (some o) → (∀ f ∈ s.frames, f.var ≠ k) → s.deleted[o]? = some 0 ∧ o ∉ s.loose ∧
      (∀ j : Nat, s.vars[j]? = some (some o) → (∀ f ∈ s.frames, f.var ≠ j) → j = k) ∧ ∀ f ∈ s.frames, f.new ≠ some o) ∧
    (∀ o d : Nat, s.deleted[o]? = some d → d ≤ 1) ∧
    (∀ o d : Nat, s.deleted[o]? = some d → (∀ k : Nat, s.vars[k]? = some (some o) → ∃ f ∈ s.frames, f.var = k) → o ∉ s.loose → (∀ f ∈ s.frames, f.new ≠ some o) → d = 1) := by
  have i := run_inv (inv_init n) h ha
  refine ⟨?_, ?_, ?_⟩
  · intro k o hk hb
    have hlt := stale_lt i hk hb
    have hdom : o < s.deleted.length := by
      rcases Nat.lt_or_ge o s.deleted.length with hx | hx
      · exact hx
      · have := i.fresh o hx; omega
    have hd := List.getElem?_eq_getElem hdom
    have hc := i.count o _ hd
    have h0 : s.deleted[o] = 0 := by omega
    have hl : s.loose.count o = 0 := by omega
    have hp : pend s.frames o = 0 := by omega
    refine ⟨by rw [hd, h0], List.count_eq_zero.mp hl, ?_, ?_⟩
    · intro j hj hbj
      refine Classical.byContradiction fun hne => ?_
      have hV : s.vars.count (some o) = stale s.frames o + 1 := by omega
      have := places_count o (j :: k :: (s.frames.filter (fun f => decide (f.old = some o))).map (fun f => f.var)) s.vars ?_ ?_
      · simp only [List.length_cons] at this
        rw [← stale_places] at this
        omega
      · have hnm : ∀ x, (∀ f ∈ s.frames, f.var ≠ x) → x ∉ (s.frames.filter (fun f => decide (f.old = some o))).map (fun f => f.var) := by
          intro x hx hm
          obtain ⟨f, hf, hv⟩ := List.mem_map.mp hm
          exact hx f (List.mem_filter.mp hf).1 hv
        refine List.nodup_cons.mpr ⟨?_, List.nodup_cons.mpr ⟨hnm k hb, List.Nodup.sublist (List.Sublist.map _ List.filter_sublist) i.distinct⟩⟩
        intro hm
        rcases List.mem_cons.mp hm with e | hm
        · exact hne e
        · exact hnm j hbj hm
      · intro p hp
        rcases List.mem_cons.mp hp with rfl | hp
        · exact hj
        · rcases List.mem_cons.mp hp with rfl | hp
          · exact hk
          · obtain ⟨f, hf, rfl⟩ := List.mem_map.mp hp
            obtain ⟨h1, h2⟩ := List.mem_filter.mp hf
            rw [i.frames f h1]
            simp at h2
            rw [h2]
    · intro f hf he
      have : 0 < pend s.frames o := by
        unfold pend
        have hle : ∀ fs : List Frame, f ∈ fs → hit f.new o ≤ (fs.map (fun f => hit f.new o)).sum := by
          intro fs
          induction fs with
          | nil => intro h; cases h
          | cons g r ih =>
            intro h
            rw [List.map_cons, List.sum_cons]
            rcases List.mem_cons.mp h with rfl | h
            · omega
            · have := ih h; omega
        have h1 := hle _ hf
        have h2 : hit f.new o = 1 := by simp [hit, he]
        omega
      omega
  · intro o d hd
    have := i.count o d hd
    have := stale_le i o
    omega
  · intro o d hd hv hl hf
    have hc := i.count o d hd
    have h1 : s.loose.count o = 0 := List.count_eq_zero.mpr hl
    have h2 : pend s.frames o = 0 := by
      unfold pend
      have : ∀ fs : List Frame, (∀ f ∈ fs, f.new ≠ some o) → (fs.map (fun f => hit f.new o)).sum = 0 := by
        intro fs
        induction fs with
        | nil => intro _; rfl
        | cons f r ih =>
          intro h
          rw [List.map_cons, List.sum_cons, ih (fun g hg => h g (by simp [hg]))]
          simp [hit, h f (by simp)]
      exact this _ hf
    have h3 : s.vars.count (some o) ≤ stale s.frames o := by
      have key : ∀ (fs : List Frame) (vs : List (Option Nat)), (fs.map (fun f => f.var)).Nodup → (∀ f ∈ fs, vs[f.var]? = some f.old) →
          (∀ k : Nat, vs[k]? = some (some o) → ∃ f ∈ fs, f.var = k) → vs.count (some o) ≤ stale fs o := by
        intro fs
        induction fs with
        | nil =>
          intro vs _ _ hv
          have : vs.count (some o) = 0 := by
            refine List.count_eq_zero.mpr ?_
            intro hm
            obtain ⟨k, hk, he⟩ := List.mem_iff_getElem.mp hm
            obtain ⟨f, hf, _⟩ := hv k (by rw [List.getElem?_eq_getElem hk, he])
            cases hf
          omega
        | cons f r ih =>
          intro vs hn hf hv
          simp only [List.map_cons] at hn
          obtain ⟨n1, n2⟩ := List.nodup_cons.mp hn
          have hcs := count_set_opt (b := none) (hf f (by simp)) o
          have hfv : f.var < vs.length := (List.getElem?_eq_some_iff.mp (hf f (by simp))).1
          have := ih (vs.set f.var none) n2 (by
            intro g hg
            have hne : f.var ≠ g.var := fun e => n1 (e ▸ List.mem_map_of_mem hg)
            rw [List.getElem?_set_ne hne]
            exact hf g (by simp [hg])) (by
            intro k hk
            by_cases hkf : f.var = k
            · subst hkf
              rw [List.getElem?_set_self hfv] at hk
              cases hk
            · rw [List.getElem?_set_ne hkf] at hk
              obtain ⟨g, hg, he⟩ := hv k hk
              rcases List.mem_cons.mp hg with rfl | hg
              · exact absurd he hkf
              · exact ⟨g, hg, he⟩)
          simp only [stale, List.map_cons, List.sum_cons, hit_none] at this hcs ⊢
          omega
      exact key _ _ i.distinct i.frames hv
    have := stale_le i o
    omega

/-- **C128.**  Move assignment: the target has what the source had, the source is null, the target's old object is deleted - and a move to itself changes nothing. -/
theorem move_assign {s : State} {i j : Nat} {a b : Option Nat} (hi : s.vars[i]? = some a) (hj : s.vars[j]? = some b) (hb : s.frames = []) (hl : ∀ o, b = some o → o ∉ s.loose) :
    ∃ s', run s (moveFrom i j b) = some s' ∧ s'.abused = s.abused ∧ s'.frames = [] ∧ s'.vars = (if i = j then s.vars else (s.vars.set j none).set i b) ∧
      s'.deleted = (if i = j then s.deleted else delete s.deleted a) ∧ s'.loose = s.loose := by
  have hbusy : ∀ k, s.busy k = false := by intro k; simp [State.busy, hb]
  have hjl := (List.getElem?_eq_some_iff.mp hj).1
  cases b with
  | none =>
    by_cases hij : i = j
    · subst hij
      rw [hi] at hj; injection hj with hj; subst hj
      refine ⟨⟨s.vars.set i none, s.deleted, s.loose, [], s.abused⟩, by simp [moveFrom, run, step, hi, hb, State.busy, takeLoose, mayGive, delete], ?_⟩
      refine ⟨by simp [hb], rfl, ?_, by simp, rfl⟩
      simp only [if_true]
      refine List.ext_getElem? ?_
      intro n
      by_cases hn : i = n
      · subst hn; rw [List.getElem?_set_self hjl, hi]
      · rw [List.getElem?_set_ne hn]
    · have hset : s.vars.set j none = s.vars := by
        refine List.ext_getElem? ?_
        intro n
        by_cases hn : j = n
        · subst hn; rw [List.getElem?_set_self hjl, hj]
        · rw [List.getElem?_set_ne hn]
      refine ⟨⟨s.vars.set i none, delete s.deleted a, s.loose, [], s.abused⟩, by simp [moveFrom, run, step, hi, hj, hb, State.busy, takeLoose, mayGive], ?_⟩
      refine ⟨by simp [hb], rfl, by simp [hij, hset], by simp [hij], rfl⟩
  | some o =>
    have hlo := hl o rfl
    have herase : (s.loose ++ [o]).erase o = s.loose := by
      rw [List.erase_append_right _ hlo]; simp
    by_cases hij : i = j
    · subst hij
      have hjj : (s.vars.set i none)[i]? = some none := by rw [List.getElem?_set_self hjl]
      refine ⟨⟨(s.vars.set i none).set i (some o), s.deleted, s.loose, [], s.abused⟩, by
        simp only [moveFrom, run, step, hj, hjj, hb]; simp [State.busy, hb, takeLoose, mayGive, delete, herase], ?_⟩
      refine ⟨by simp [hb], rfl, ?_, by simp, rfl⟩
      simp only [if_true]
      refine List.ext_getElem? ?_
      intro n
      by_cases hn : i = n
      · subst hn; rw [List.getElem?_set_self (by simpa using hjl), hj]
      · rw [List.getElem?_set_ne hn, List.getElem?_set_ne hn]
    · have hi' : (s.vars.set j none)[i]? = some a := by rw [List.getElem?_set_ne (Ne.symm hij)]; exact hi
      refine ⟨⟨(s.vars.set j none).set i (some o), delete s.deleted a, s.loose, [], s.abused⟩, by simp [moveFrom, run, step, hj, hi', hb, State.busy, takeLoose, mayGive, herase], ?_⟩
      refine ⟨by simp [hb], rfl, by simp [hij], by simp [hij], rfl⟩

/-- C128.  `release` gives the object away and leaves null. -/
theorem release_spec {s s' : State} {i o : Nat} (hi : s.get i = some o) (h : step s (.release i) = some s') :
    s'.get i = none ∧ s'.loose = s.loose ++ [o] ∧ s'.deleted = s.deleted ∧ ∀ k, k ≠ i → s'.get k = s.get k := by
  unfold State.get at hi
  cases hv : s.vars[i]? with
  | none => rw [hv] at hi; cases hi
  | some x =>
    rw [hv] at hi
    simp at hi; subst hi
    simp only [step, hv] at h
    cases h
    have hil := (List.getElem?_eq_some_iff.mp hv).1
    refine ⟨by simp [State.get, hil], rfl, rfl, ?_⟩
    intro k hk
    simp only [State.get]
    rw [List.getElem?_set_ne (Ne.symm hk)]

/-- C128.  `swap` exchanges the objects and deletes nothing. -/
theorem swap_spec {s s' : State} {i j : Nat} (h : step s (.swap i j) = some s') :
    s'.get i = s.get j ∧ s'.get j = s.get i ∧ s'.deleted = s.deleted ∧ s'.loose = s.loose ∧ ∀ k, k ≠ i → k ≠ j → s'.get k = s.get k := by
  simp only [step] at h
  split at h
  · next a b hk hj =>
    cases h
    have h1 := (List.getElem?_eq_some_iff.mp hk).1
    have h2 := (List.getElem?_eq_some_iff.mp hj).1
    refine ⟨?_, ?_, rfl, rfl, ?_⟩
    · simp only [State.get, hj]
      by_cases hij : j = i
      · subst hij
        rw [hk] at hj; injection hj with hj; subst hj
        rw [List.getElem?_set_self (by simpa using h2)]
      · rw [List.getElem?_set_ne hij, List.getElem?_set_self h1]
    · simp only [State.get, hk]
      rw [List.getElem?_set_self (by simpa using h2)]
    · intro k hki hkj
      simp only [State.get]
      rw [List.getElem?_set_ne (Ne.symm hkj), List.getElem?_set_ne (Ne.symm hki)]
  · cases h

/-- A history that meets the hypotheses of `unique_partial`: two objects, a move to itself, a move, a nested `reset` in a destructor. -/
example : (run (State.init 3) [.make, .make, .reset 0 (some 0), .resetDone, .reset 1 (some 1), .resetDone, .release 0, .reset 0 (some 0), .resetDone,
    .swap 0 2, .reset 2 none, .reset 1 none, .resetDone, .resetDone]) =
    some ⟨[none, none, none], [1, 1], [], [], false⟩ := by decide +kernel

/-- **C128 is violated** by `p.reset(p.get())`: the object is deleted, and `p` keeps pointing to it and deletes it again. -/
theorem reset_get_violated : run (State.init 1) [.make, .reset 0 (some 0), .resetDone, .reset 0 (some 0), .resetDone] = some ⟨[some 0], [1], [], [], true⟩ ∧
    run (State.init 1) [.make, .reset 0 (some 0), .resetDone, .reset 0 (some 0), .resetDone, .reset 0 none, .resetDone] = some ⟨[none], [2], [], [], true⟩ := by
  decide +kernel

/-- **C128 is violated** by a destructor that resets the pointer which is being reset: `_rawPtr` is still set while the object is deleted, it is deleted again. -/
theorem reset_reentrant_violated : run (State.init 1) [.make, .reset 0 (some 0), .resetDone, .reset 0 none, .reset 0 none, .resetDone, .resetDone] =
    some ⟨[none], [2], [], [], true⟩ := by decide +kernel

end Verif.Holder.Unique

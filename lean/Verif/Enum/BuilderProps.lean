import Verif.Enum.Builder
/-!
What `EnumerableBuilder` gives has the elements that were added before, as long as nothing is added afterwards.
-/
namespace Verif.Enum.Builder

variable {T : Type}

/-- What a program expects: lists under construction, shared by the copies of a builder; enumerables are snapshots; enumerators are what is left of one. -/
structure View (T : Type) where
  lists : List (List T)
  builders : List Nat
  snapshots : List (List T)
  left : List (List T)

/-- What one operation should do. -/
inductive Step : View T → Act T → Out T → View T → Prop
  | make {v xs} : Step v (.make xs) .done { v with lists := v.lists ++ [xs], builders := v.builders ++ [v.lists.length] }
  | copy {v b c} : v.builders[b]? = some c → Step v (.copy b) .done { v with builders := v.builders ++ [c] }
  | add {v b c l xs} : v.builders[b]? = some c → v.lists[c]? = some l → Step v (.add b xs) .done { v with lists := v.lists.set c (l ++ xs) }
  | get {v b c l} : v.builders[b]? = some c → v.lists[c]? = some l → Step v (.get b) .done { v with snapshots := v.snapshots ++ [l] }
  | enumerate {v e l} : v.snapshots[e]? = some l → Step v (.enumerate e) .done { v with left := v.left ++ [l] }
  | valid {v i l} : v.left[i]? = some l → Step v (.valid i) (.bool !l.isEmpty) v
  | read {v i x l} : v.left[i]? = some (x :: l) → Step v (.read i) (.item x) v
  | readEnd {v i} : v.left[i]? = some [] → Step v (.read i) .threw v
  | next {v i x l} : v.left[i]? = some (x :: l) → Step v (.next i) .done { v with left := v.left.set i l }
  | nextEnd {v i} : v.left[i]? = some [] → Step v (.next i) .threw v

/-- A history. -/
inductive Steps : View T → List (Act T) → List (Out T) → View T → Prop
  | nil {v} : Steps v [] [] v
  | cons {v a o v' as os v''} : Step v a o v' → Steps v' as os v'' → Steps v (a :: as) (o :: os) v''

/-- The iterators stand for these elements, as long as they are usable. -/
def Stands (vecs : List (List T × Nat)) (i : Iters) (l : List T) : Prop :=
  ∃ v, vecs[i.vec]? = some v ∧ i.version ≤ v.2 ∧ (v.2 = i.version → i.cur ≤ i.last ∧ i.last = v.1.length ∧ v.1.drop i.cur = l)

/-- The same position in both lists. -/
def Pointwise {A B : Type} (r : A → B → Prop) (xs : List A) (ys : List B) : Prop :=
  xs.length = ys.length ∧ ∀ (i : Nat) (x : A) (y : B), xs[i]? = some x → ys[i]? = some y → r x y

theorem Pointwise.append {A B : Type} {r : A → B → Prop} {xs : List A} {ys : List B} (h : Pointwise r xs ys) {x : A} {y : B} (hr : r x y) :
    Pointwise r (xs ++ [x]) (ys ++ [y]) := by
  refine ⟨by simp [h.1], fun i a b ha hb => ?_⟩
  by_cases hi : i < xs.length
  · rw [List.getElem?_append_left hi] at ha
    rw [List.getElem?_append_left (h.1 ▸ hi)] at hb
    exact h.2 i a b ha hb
  · rw [List.getElem?_append_right (by omega)] at ha
    rw [List.getElem?_append_right (by rw [← h.1]; omega), ← h.1] at hb
    cases hk : i - xs.length with
    | zero => rw [hk] at ha hb; simp at ha hb; subst ha hb; exact hr
    | succ k => rw [hk] at ha; simp at ha

theorem Pointwise.set {A B : Type} {r : A → B → Prop} {xs : List A} {ys : List B} (h : Pointwise r xs ys) {i : Nat} {x : A} {y : B} (hr : r x y) :
    Pointwise r (xs.set i x) (ys.set i y) := by
  refine ⟨by simp [h.1], fun j a b ha hb => ?_⟩
  by_cases hj : j = i
  · subst hj
    have h1 : j < xs.length := by have := (List.getElem?_eq_some_iff.mp ha).1; rwa [List.length_set] at this
    rw [List.getElem?_set_self h1] at ha
    rw [List.getElem?_set_self (h.1 ▸ h1)] at hb
    injection ha with ha; injection hb with hb; subst ha hb; exact hr
  · rw [List.getElem?_set_ne (Ne.symm hj)] at ha hb
    exact h.2 j a b ha hb

theorem Pointwise.mono {A B : Type} {r q : A → B → Prop} {xs : List A} {ys : List B} (h : Pointwise r xs ys) (hq : ∀ x y, r x y → q x y) : Pointwise q xs ys :=
  ⟨h.1, fun i x y hx hy => hq x y (h.2 i x y hx hy)⟩

theorem Pointwise.some {A B : Type} {r : A → B → Prop} {xs : List A} {ys : List B} (h : Pointwise r xs ys) {i : Nat} {x : A} (hx : xs[i]? = some x) :
    ∃ y, ys[i]? = some y ∧ r x y := by
  have hl := (List.getElem?_eq_some_iff.mp hx).1
  have hy := List.getElem?_eq_getElem (h.1 ▸ hl)
  exact ⟨_, hy, h.2 i x _ hx hy⟩

structure Inv (s : State T) (v : View T) : Prop where
  lists : v.lists = s.vecs.map Prod.fst
  builders : v.builders = s.builders
  snaps : Pointwise (Stands s.vecs) s.enumerables v.snapshots
  left : Pointwise (Stands s.vecs) s.enumerators v.left

theorem stands_append {vecs : List (List T × Nat)} (v : List T × Nat) (i : Iters) (l : List T) (h : Stands vecs i l) : Stands (vecs ++ [v]) i l := by
  obtain ⟨w, h1, h2⟩ := h
  exact ⟨w, by rw [List.getElem?_append_left (List.getElem?_eq_some_iff.mp h1).1]; exact h1, h2⟩

theorem stands_add {vecs : List (List T × Nat)} {c : Nat} {v : List T × Nat} (hc : vecs[c]? = some v) (xs : List T) (i : Iters) (l : List T)
    (h : Stands vecs i l) : Stands (vecs.set c (v.1 ++ xs, v.2 + xs.length)) i l := by
  obtain ⟨w, h1, h2, h3⟩ := h
  by_cases hi : i.vec = c
  · rw [hi, hc] at h1
    injection h1 with h1; subst h1
    refine ⟨_, by rw [hi]; exact List.getElem?_set_self (List.getElem?_eq_some_iff.mp hc).1, by dsimp only; omega, fun he => ?_⟩
    dsimp only at he ⊢
    have hx : xs = [] := List.eq_nil_of_length_eq_zero (by omega)
    subst hx
    rw [List.append_nil]
    exact h3 (by simpa using he)
  · exact ⟨w, by rw [List.getElem?_set_ne (Ne.symm hi)]; exact h1, h2, h3⟩

theorem usable_stands {s : State T} {i : Iters} {l : List T} (hu : usable s i = true) (h : Stands s.vecs i l) :
    ∃ v, s.vecs[i.vec]? = some v ∧ i.cur ≤ i.last ∧ i.last = v.1.length ∧ v.1.drop i.cur = l := by
  obtain ⟨v, h1, h2, h3⟩ := h
  unfold usable at hu
  rw [h1] at hu
  exact ⟨v, h1, h3 (by simpa using hu)⟩

theorem step_inv {s s' : State T} {v : View T} (h : Inv s v) {a : Act T} {o : Out T} (hs : step s a = some (s', o)) (ho : o ≠ .ub) :
    ∃ v', Step v a o v' ∧ Inv s' v' := by
  have hlist : ∀ {c : Nat} {w : List T × Nat}, s.vecs[c]? = some w → v.lists[c]? = some w.1 := by
    intro c w hw; rw [h.lists, List.getElem?_map, hw]; rfl
  cases a with
  | make xs =>
    injection hs with hs; injection hs with h1 h2; subst h1 h2
    refine ⟨_, .make, ?_, ?_, h.snaps.mono fun i l => stands_append _ i l, h.left.mono fun i l => stands_append _ i l⟩
    · simp [h.lists]
    · simp [h.builders, h.lists]
  | copy b =>
    simp only [step] at hs
    split at hs
    · cases hs
    · rename_i c hc
      injection hs with hs; injection hs with h1 h2; subst h1 h2
      exact ⟨_, .copy (h.builders ▸ hc), h.lists, by simp [h.builders], h.snaps, h.left⟩
  | add b xs =>
    simp only [step] at hs
    split at hs
    · cases hs
    · rename_i c hc
      split at hs
      · cases hs
      · rename_i w hw
        injection hs with hs; injection hs with h1 h2; subst h1 h2
        refine ⟨_, .add (h.builders ▸ hc) (hlist hw), ?_, h.builders, h.snaps.mono (stands_add hw xs), h.left.mono (stands_add hw xs)⟩
        simp [h.lists, List.map_set]
  | get b =>
    simp only [step] at hs
    split at hs
    · cases hs
    · rename_i c hc
      split at hs
      · cases hs
      · rename_i w hw
        injection hs with hs; injection hs with h1 h2; subst h1 h2
        exact ⟨_, .get (h.builders ▸ hc) (hlist hw), h.lists, h.builders, h.snaps.append ⟨w, hw, Nat.le_refl _, fun _ => ⟨Nat.zero_le _, rfl, rfl⟩⟩, h.left⟩
  | enumerate e =>
    simp only [step] at hs
    split at hs
    · cases hs
    · rename_i i hi
      split at hs
      · injection hs with hs; injection hs with h1 h2; subst h1 h2
        obtain ⟨l, hl, hst⟩ := h.snaps.some hi
        exact ⟨_, .enumerate hl, h.lists, h.builders, h.snaps, h.left.append hst⟩
      · injection hs with hs; injection hs with h1 h2; exact absurd h2.symm ho
  | valid i =>
    simp only [step] at hs
    split at hs
    · cases hs
    · rename_i x hx
      split at hs
      · rename_i hu
        injection hs with hs; injection hs with h1 h2; subst h1 h2
        obtain ⟨l, hl, hst⟩ := h.left.some hx
        obtain ⟨w, _, h3, h4, h5⟩ := usable_stands hu hst
        have : (x.cur != x.last) = !l.isEmpty := by
          by_cases he : x.cur = x.last
          · rw [← h5, List.drop_eq_nil_of_le (by omega)]; simp [he]
          · rw [← h5, List.drop_eq_getElem_cons (show x.cur < w.1.length by omega), List.isEmpty_cons, Bool.not_false]; exact bne_iff_ne.mpr he
        rw [this]
        exact ⟨_, .valid hl, h⟩
      · injection hs with hs; injection hs with h1 h2; exact absurd h2.symm ho
  | read i =>
    simp only [step] at hs
    split at hs
    · cases hs
    · rename_i x hx
      split at hs
      · rename_i hu
        obtain ⟨l, hl, hst⟩ := h.left.some hx
        obtain ⟨w, hw, h3, h4, h5⟩ := usable_stands hu hst
        split at hs
        · rename_i he
          injection hs with hs; injection hs with h1 h2; subst h1 h2
          rw [← h5, List.drop_eq_nil_of_le (by omega)] at hl
          exact ⟨_, .readEnd hl, h⟩
        · rename_i he
          rw [hw] at hs
          dsimp only at hs
          have hlt : x.cur < w.1.length := by omega
          rw [List.getElem?_eq_getElem hlt] at hs
          injection hs with hs; injection hs with h1 h2; subst h1 h2
          rw [← h5, List.drop_eq_getElem_cons hlt] at hl
          exact ⟨_, .read hl, h⟩
      · injection hs with hs; injection hs with h1 h2; exact absurd h2.symm ho
  | next i =>
    simp only [step] at hs
    split at hs
    · cases hs
    · rename_i x hx
      split at hs
      · rename_i hu
        obtain ⟨l, hl, hst⟩ := h.left.some hx
        obtain ⟨w, hw, h3, h4, h5⟩ := usable_stands hu hst
        split at hs
        · injection hs with hs; injection hs with h1 h2; subst h1 h2
          rw [← h5, List.drop_eq_nil_of_le (by omega)] at hl
          exact ⟨_, .nextEnd hl, h⟩
        · injection hs with hs; injection hs with h1 h2; subst h1 h2
          have hlt : x.cur < w.1.length := by omega
          obtain ⟨w', hw', hv, _⟩ := hst
          rw [← h5, List.drop_eq_getElem_cons hlt] at hl
          refine ⟨_, .next hl, h.lists, h.builders, h.snaps, h.left.set ⟨w', hw', hv, fun _ => ?_⟩⟩
          rw [hw] at hw'; injection hw' with hw'; subst hw'
          exact ⟨by dsimp only; omega, h4, rfl⟩
      · injection hs with hs; injection hs with h1 h2; exact absurd h2.symm ho

theorem run_inv : ∀ (as : List (Act T)) {s s' : State T} {v : View T} {os : List (Out T)}, Inv s v → run s as = some (s', os) → .ub ∉ os →
    ∃ v', Steps v as os v' ∧ Inv s' v' := by
  intro as
  induction as with
  | nil => intro s s' v os h hr _; injection hr with hr; injection hr with h1 h2; subst h1 h2; exact ⟨v, .nil, h⟩
  | cons a as ih =>
    intro s s' v os h hr hn
    simp only [run] at hr
    cases hs : step s a with
    | none => rw [hs] at hr; cases hr
    | some r =>
      obtain ⟨s1, o⟩ := r
      rw [hs] at hr
      dsimp only at hr
      cases hr' : run s1 as with
      | none => rw [hr'] at hr; cases hr
      | some r =>
        obtain ⟨s2, os'⟩ := r
        rw [hr'] at hr
        injection hr with hr; injection hr with h1 h2; subst h1 h2
        obtain ⟨v1, e1, i1⟩ := step_inv h hs fun e => hn (by rw [e]; exact List.mem_cons_self)
        obtain ⟨v2, e2, i2⟩ := ih i1 hr' fun e => hn (List.mem_cons_of_mem _ e)
        exact ⟨v2, .cons e1 e2, i2⟩

/-- In every history without undefined behaviour, every enumerable has exactly the elements that were in the builder when it was given, and every enumerator
goes through them in order. -/
theorem builder_partial {as : List (Act T)} {s : State T} {os : List (Out T)} (hr : run ⟨[], [], [], []⟩ as = some (s, os)) (hn : .ub ∉ os) :
    ∃ v, Steps ⟨[], [], [], []⟩ as os v := by
  obtain ⟨v, h, _⟩ := run_inv as (v := ⟨[], [], [], []⟩) ⟨rfl, rfl, ⟨rfl, fun i x y hx => by simp at hx⟩, ⟨rfl, fun i x y hx => by simp at hx⟩⟩ hr hn
  exact ⟨v, h⟩

/-- An operation that adds nothing. -/
def Act.quiet : Act T → Bool
  | .add _ _ => false
  | _ => true

/-- An operation before anything was given. -/
def Act.early : Act T → Bool
  | .get _ => false
  | _ => true

/-- All iterators are usable. -/
def Fresh (s : State T) : Prop := (∀ i ∈ s.enumerables, usable s i = true) ∧ ∀ i ∈ s.enumerators, usable s i = true

theorem usable_append {s : State T} {i : Iters} (w : List T × Nat) (b : List Nat) (h : usable s i = true) :
    usable { s with vecs := s.vecs ++ [w], builders := b } i = true := by
  unfold usable at h ⊢
  cases hv : s.vecs[i.vec]? with
  | none => rw [hv] at h; cases h
  | some v =>
    rw [hv] at h
    dsimp only
    rw [List.getElem?_append_left (List.getElem?_eq_some_iff.mp hv).1, hv]
    exact h

theorem step_fresh {s s' : State T} {v : View T} (h : Inv s v) (hf : Fresh s) {a : Act T} (hq : a.quiet = true) {o : Out T} (hs : step s a = some (s', o)) :
    o ≠ .ub ∧ Fresh s' := by
  cases a with
  | make xs =>
    injection hs with hs; injection hs with h1 h2; subst h1 h2
    exact ⟨(nomatch ·), fun i hi => usable_append _ _ (hf.1 i hi), fun i hi => usable_append _ _ (hf.2 i hi)⟩
  | copy b =>
    simp only [step] at hs
    split at hs
    · cases hs
    · injection hs with hs; injection hs with h1 h2; subst h1 h2
      exact ⟨(nomatch ·), hf⟩
  | add b xs => cases hq
  | get b =>
    simp only [step] at hs
    split at hs
    · cases hs
    · split at hs
      · cases hs
      · rename_i w hw
        injection hs with hs; injection hs with h1 h2; subst h1 h2
        refine ⟨(nomatch ·), fun i hi => ?_, hf.2⟩
        rcases List.mem_append.mp hi with hi | hi
        · exact hf.1 i hi
        · rw [List.mem_singleton.mp hi]
          unfold usable
          dsimp only
          rw [hw]
          simp
  | enumerate e =>
    simp only [step] at hs
    split at hs
    · cases hs
    · rename_i i hi
      have hu := hf.1 i (List.mem_of_getElem? hi)
      rw [if_pos hu] at hs
      injection hs with hs; injection hs with h1 h2; subst h1 h2
      refine ⟨(nomatch ·), hf.1, fun j hj => ?_⟩
      rcases List.mem_append.mp hj with hj | hj
      · exact hf.2 j hj
      · rw [List.mem_singleton.mp hj]; exact hu
  | valid i =>
    simp only [step] at hs
    split at hs
    · cases hs
    · rename_i x hx
      rw [if_pos (hf.2 x (List.mem_of_getElem? hx))] at hs
      injection hs with hs; injection hs with h1 h2; subst h1 h2
      exact ⟨(nomatch ·), hf⟩
  | read i =>
    simp only [step] at hs
    split at hs
    · cases hs
    · rename_i x hx
      have hu := hf.2 x (List.mem_of_getElem? hx)
      obtain ⟨l, hl, hst⟩ := h.left.some hx
      obtain ⟨w, hw, h3, h4, h5⟩ := usable_stands hu hst
      rw [if_pos hu] at hs
      split at hs
      · injection hs with hs; injection hs with h1 h2; subst h1 h2
        exact ⟨(nomatch ·), hf⟩
      · rw [hw] at hs
        dsimp only at hs
        have hlt : x.cur < w.1.length := by omega
        rw [List.getElem?_eq_getElem hlt] at hs
        injection hs with hs; injection hs with h1 h2; subst h1 h2
        exact ⟨(nomatch ·), hf⟩
  | next i =>
    simp only [step] at hs
    split at hs
    · cases hs
    · rename_i x hx
      have hu := hf.2 x (List.mem_of_getElem? hx)
      rw [if_pos hu] at hs
      split at hs
      · injection hs with hs; injection hs with h1 h2; subst h1 h2
        exact ⟨(nomatch ·), hf⟩
      · injection hs with hs; injection hs with h1 h2; subst h1 h2
        refine ⟨(nomatch ·), hf.1, fun j hj => ?_⟩
        rcases List.mem_or_eq_of_mem_set hj with hj | hj
        · exact hf.2 j hj
        · rw [hj]; exact hu

theorem run_quiet : ∀ (as : List (Act T)) {s s' : State T} {v : View T} {os : List (Out T)}, Inv s v → Fresh s → (∀ a ∈ as, a.quiet = true) →
    run s as = some (s', os) → .ub ∉ os := by
  intro as
  induction as with
  | nil => intro s s' v os _ _ _ hr; injection hr with hr; injection hr with h1 h2; subst h2; simp
  | cons a as ih =>
    intro s s' v os h hf hq hr
    simp only [run] at hr
    cases hs : step s a with
    | none => rw [hs] at hr; cases hr
    | some r =>
      obtain ⟨s1, o⟩ := r
      rw [hs] at hr
      dsimp only at hr
      cases hr' : run s1 as with
      | none => rw [hr'] at hr; cases hr
      | some r =>
        obtain ⟨s2, os'⟩ := r
        rw [hr'] at hr
        injection hr with hr; injection hr with h1 h2; subst h1 h2
        obtain ⟨ho, hf1⟩ := step_fresh h hf (hq a List.mem_cons_self) hs
        obtain ⟨v1, _, i1⟩ := step_inv h hs ho
        intro hm
        rcases List.mem_cons.mp hm with hm | hm
        · exact ho hm.symm
        · exact ih i1 hf1 (fun b hb => hq b (List.mem_cons_of_mem _ hb)) hr' hm

theorem run_early : ∀ (as : List (Act T)) {s s' : State T} {os : List (Out T)}, s.enumerables = [] → s.enumerators = [] → (∀ a ∈ as, a.early = true) →
    run s as = some (s', os) → .ub ∉ os ∧ s'.enumerables = [] ∧ s'.enumerators = [] := by
  intro as
  induction as with
  | nil => intro s s' os h1 h2 _ hr; injection hr with hr; injection hr with e1 e2; subst e1 e2; exact ⟨by simp, h1, h2⟩
  | cons a as ih =>
    intro s s' os h1 h2 hq hr
    simp only [run] at hr
    cases hs : step s a with
    | none => rw [hs] at hr; cases hr
    | some r =>
      obtain ⟨s1, o⟩ := r
      rw [hs] at hr
      dsimp only at hr
      cases hr' : run s1 as with
      | none => rw [hr'] at hr; cases hr
      | some r =>
        obtain ⟨s2, os'⟩ := r
        rw [hr'] at hr
        injection hr with hr; injection hr with e1 e2; subst e1 e2
        have hst : o ≠ .ub ∧ s1.enumerables = [] ∧ s1.enumerators = [] := by
          have ha := hq a List.mem_cons_self
          cases a with
          | make xs => injection hs with hs; injection hs with e1 e2; subst e1 e2; exact ⟨(nomatch ·), h1, h2⟩
          | copy b =>
            simp only [step] at hs
            split at hs
            · cases hs
            · injection hs with hs; injection hs with e1 e2; subst e1 e2; exact ⟨(nomatch ·), h1, h2⟩
          | add b xs =>
            simp only [step] at hs
            split at hs
            · cases hs
            · split at hs
              · cases hs
              · injection hs with hs; injection hs with e1 e2; subst e1 e2; exact ⟨(nomatch ·), h1, h2⟩
          | get b => cases ha
          | enumerate e => simp [step, h1] at hs
          | valid i => simp [step, h2] at hs
          | read i => simp [step, h2] at hs
          | next i => simp [step, h2] at hs
        obtain ⟨g1, g2, g3⟩ := ih hst.2.1 hst.2.2 (fun b hb => hq b (List.mem_cons_of_mem _ hb)) hr'
        refine ⟨fun hm => ?_, g2, g3⟩
        rcases List.mem_cons.mp hm with hm | hm
        · exact hst.1 hm.symm
        · exact g1 hm

theorem run_append : ∀ (as : List (Act T)) {bs : List (Act T)} {s s' : State T} {os : List (Out T)}, run s (as ++ bs) = some (s', os) →
    ∃ s1 os1 os2, run s as = some (s1, os1) ∧ run s1 bs = some (s', os2) ∧ os = os1 ++ os2 := by
  intro as
  induction as with
  | nil => intro bs s s' os hr; exact ⟨s, [], os, rfl, hr, rfl⟩
  | cons a as ih =>
    intro bs s s' os hr
    rw [List.cons_append] at hr
    simp only [run] at hr ⊢
    cases hs : step s a with
    | none => rw [hs] at hr; cases hr
    | some r =>
      obtain ⟨s1, o⟩ := r
      rw [hs] at hr
      dsimp only at hr ⊢
      cases hr' : run s1 (as ++ bs) with
      | none => rw [hr'] at hr; cases hr
      | some r =>
        obtain ⟨s2, os'⟩ := r
        rw [hr'] at hr
        injection hr with hr; injection hr with h1 h2; subst h1 h2
        obtain ⟨s3, o1, o2, e1, e2, e3⟩ := ih hr'
        rw [e1]
        exact ⟨s3, o :: o1, o2, rfl, e2, by rw [e3]; rfl⟩

/-- If everything is added before the first enumerable is given, nothing is undefined. -/
theorem added_before {as bs : List (Act T)} (ha : ∀ a ∈ as, a.early = true) (hb : ∀ a ∈ bs, a.quiet = true) {s : State T} {os : List (Out T)}
    (hr : run ⟨[], [], [], []⟩ (as ++ bs) = some (s, os)) : .ub ∉ os := by
  obtain ⟨s1, o1, o2, e1, e2, rfl⟩ := run_append as hr
  obtain ⟨n1, g1, g2⟩ := run_early as rfl rfl ha e1
  obtain ⟨v, _, i⟩ := run_inv as (v := ⟨[], [], [], []⟩) ⟨rfl, rfl, ⟨rfl, fun i x y hx => by simp at hx⟩, ⟨rfl, fun i x y hx => by simp at hx⟩⟩ e1 n1
  have n2 := run_quiet bs i ⟨by rw [g1]; simp, by rw [g2]; simp⟩ hb e2
  intro hm
  rcases List.mem_append.mp hm with hm | hm
  · exact n1 hm
  · exact n2 hm

/-- Adding to the builder, or to a copy of it, after an enumerable was given: the enumerable holds invalid iterators. -/
theorem added_after_violated : (run ⟨[], [], [], []⟩ [.make [1], .get 0, .copy 0, .add 1 [2], .enumerate 0]).map Prod.snd = some [.done, .done, .done, .done, .ub] := rfl

example : (run ⟨[], [], [], []⟩ [.make [1], .copy 0, .add 1 [2], .get 0, .enumerate 0, .read 0, .next 0, .read 0, .next 0, .valid 0, .read 0, .enumerate 0, .valid 1]).map Prod.snd =
    some [.done, .done, .done, .done, .done, .item 1, .done, .item 2, .done, .bool false, .threw, .done, .bool true] := rfl

end Verif.Enum.Builder

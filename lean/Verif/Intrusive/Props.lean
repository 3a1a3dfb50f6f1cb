import Verif.Intrusive.Model
/- Specification, ring invariant and properties of `IntrusiveList`. -/
namespace Verif.Intrusive

namespace Spec

/-- The contents of the list with root `r`, for every `r`. -/
abbrev Lists := Nat → List Nat

def step (S : Lists) : Op → Lists
  | .pushBack r n => fun x => if x = r then S r ++ [n] else S x
  | .erase n => fun x => (S x).filter (fun y => decide (y ≠ n))

def run : Lists → List Op → Lists
  | S, [] => S
  | S, op :: ops => run (step S op) ops

/-- `root x`: `x` is the root node of a list. Allowed calls: push a node that is in no list; erase any node. -/
def ok (root : Nat → Bool) (S : Lists) : Op → Prop
  | .pushBack r n => root r = true ∧ root n = false ∧ ∀ x, n ∉ S x
  | .erase n => root n = false

def allOk (root : Nat → Bool) : Lists → List Op → Prop
  | _, [] => True
  | S, op :: ops => ok root S op ∧ allOk root (step S op) ops

end Spec

/-- Two nodes linked to each other. -/
def Linked (h : Heap) (a b : Nat) : Prop := h.next a = b ∧ h.prev b = a

/-- Consecutive nodes are linked. -/
def Chain (h : Heap) : List Nat → Prop
  | [] => True
  | [_] => True
  | a :: b :: l => Linked h a b ∧ Chain h (b :: l)

theorem chain_frame {h h' : Heap} : ∀ {l : List Nat}, Chain h l → (∀ x ∈ l.dropLast, h'.next x = h.next x) →
    (∀ x ∈ l.tail, h'.prev x = h.prev x) → Chain h' l
  | [], _, _, _ => trivial
  | [_], _, _, _ => trivial
  | a :: b :: l, hc, hn, hp => by
    obtain ⟨h1, h2⟩ := hc
    refine ⟨⟨?_, ?_⟩, ?_⟩
    · rw [hn a (by simp)]; exact h1.1
    · rw [hp b (by simp)]; exact h1.2
    · refine chain_frame h2 ?_ ?_
      · intro x hx; apply hn; simp only [List.dropLast_cons_cons]; exact List.mem_cons_of_mem _ hx
      · intro x hx; apply hp; simp only [List.tail_cons] at hx ⊢; exact List.mem_cons_of_mem _ hx

theorem chain_append {h : Heap} : ∀ {u w : List Nat} {a b : Nat}, Chain h (u ++ [a] ++ b :: w) ↔ Chain h (u ++ [a]) ∧ Linked h a b ∧ Chain h (b :: w)
  | [], w, a, b => by simp [Chain]
  | [x], w, a, b => by simp [Chain]
  | x :: y :: u, w, a, b => by
    have ih := chain_append (h := h) (u := y :: u) (w := w) (a := a) (b := b)
    simp only [List.cons_append] at ih ⊢
    simp only [Chain]
    rw [ih]
    exact and_assoc.symm

/-- The links of a list with root `r` and contents `l`. -/
def Ring (h : Heap) (r : Nat) (l : List Nat) : Prop := Chain h (r :: l ++ [r])

theorem ring_frame {h h' : Heap} {r : Nat} {l : List Nat} (hr : Ring h r l) (hn : ∀ x ∈ r :: l, h'.next x = h.next x)
    (hp : ∀ x ∈ r :: l, h'.prev x = h.prev x) : Ring h' r l := by
  refine chain_frame hr ?_ ?_
  · intro x hx
    rw [List.dropLast_concat] at hx
    exact hn x hx
  · intro x hx
    apply hp
    simp only [List.cons_append, List.tail_cons] at hx
    rcases List.mem_append.mp hx with hx | hx
    · exact List.mem_cons_of_mem _ hx
    · rw [List.mem_singleton.mp hx]; exact List.mem_cons_self

/-- Nonempty lists end with an element. -/
theorem exists_snoc (r : Nat) (l : List Nat) : ∃ u a, r :: l = u ++ [a] :=
  ⟨(r :: l).dropLast, (r :: l).getLast (by simp), (List.dropLast_concat_getLast (by simp)).symm⟩

theorem ring_prev {h : Heap} {r : Nat} {l u : List Nat} {a : Nat} (hr : Ring h r l) (hu : r :: l = u ++ [a]) : h.prev r = a ∧ h.next a = r := by
  unfold Ring at hr
  rw [hu] at hr
  have := (chain_append (w := [])).mp hr
  exact ⟨this.2.1.2, this.2.1.1⟩

theorem insertBefore_links (h : Heap) (n r : Nat) (hrn : r ≠ n) (han : h.prev r ≠ n) :
    insertBefore h n r = ⟨fun x => if x = r then n else if x = n then h.prev r else h.prev x,
      fun x => if x = h.prev r then n else if x = n then r else h.next x⟩ := by
  unfold insertBefore insert2 insert1 Heap.setNext Heap.setPrev
  simp only [if_true, Heap.mk.injEq]
  have hna : ¬ n = h.prev r := fun e => han e.symm
  constructor
  · funext x; simp [hna]
  · trivial

theorem unlink_links (h : Heap) (n : Nat) (ha : h.prev n ≠ n) (hb : h.next n ≠ n) :
    unlink h n = ⟨fun x => if x = n then n else if x = h.next n then h.prev n else h.prev x,
      fun x => if x = n then n else if x = h.prev n then h.next n else h.next x⟩ := by
  unfold unlink unlink2 unlink1 Heap.setNext Heap.setPrev
  simp only [Heap.mk.injEq]
  have hna : ¬ n = h.next n := fun e => hb e.symm
  constructor
  · trivial
  · funext x; simp [hna]

theorem unlink_free (h : Heap) (n : Nat) (ha : h.prev n = n) (hb : h.next n = n) :
    ∀ x, (unlink h n).prev x = h.prev x ∧ (unlink h n).next x = h.next x := by
  intro x
  unfold unlink unlink2 unlink1 Heap.setNext Heap.setPrev
  simp only [ha, hb]
  by_cases hx : x = n
  · subst hx; simp [ha, hb]
  · simp [hx]

/-- Pushing to a ring. -/
theorem ring_push {h : Heap} {r n : Nat} {l : List Nat} (hr : Ring h r l) (hnd : (r :: l).Nodup) (hn : n ∉ r :: l) :
    Ring (insertBefore h n r) r (l ++ [n]) := by
  obtain ⟨u, a, hu⟩ := exists_snoc r l
  obtain ⟨h1, h2⟩ := ring_prev hr hu
  have ham : a ∈ r :: l := by rw [hu]; simp
  have hrn : r ≠ n := fun e => hn (by rw [← e]; exact List.mem_cons_self)
  have han : a ≠ n := fun e => hn (by rw [← e]; exact ham)
  rw [insertBefore_links h n r hrn (by rw [h1]; exact han), h1]
  unfold Ring at hr ⊢
  rw [show r :: (l ++ [n]) ++ [r] = (r :: l) ++ n :: [r] by simp, hu]
  rw [hu] at hr
  have hc := (chain_append (w := [])).mp hr
  refine chain_append.mpr ⟨?_, ⟨by simp, by simp [Ne.symm hrn]⟩, ⟨⟨by simp [Ne.symm han], by simp⟩, trivial⟩⟩
  refine chain_frame hc.1 ?_ ?_
  · intro x hx
    rw [List.dropLast_concat] at hx
    have hxa : x ≠ a := by
      rw [hu, List.nodup_append] at hnd
      exact hnd.2.2 x hx a (by simp)
    have hxn : x ≠ n := fun e => hn (by rw [hu, ← e]; exact List.mem_append_left _ hx)
    simp [hxa, hxn]
  · intro x hx
    rw [← hu] at hx
    simp only [List.tail_cons] at hx
    have hxr : x ≠ r := fun e => (List.nodup_cons.mp hnd).1 (by rw [← e]; exact hx)
    have hxn : x ≠ n := fun e => hn (by rw [← e]; exact List.mem_cons_of_mem _ hx)
    simp [hxr, hxn]

theorem exists_cons_snoc (ys : List Nat) (r : Nat) : ∃ b w, ys ++ [r] = b :: w := by
  cases ys with
  | nil => exact ⟨r, [], rfl⟩
  | cons b ys => exact ⟨b, ys ++ [r], rfl⟩

/-- What surrounds a node of a ring. -/
theorem ring_split {h : Heap} {r n : Nat} {xs ys : List Nat} (hr : Ring h r (xs ++ n :: ys)) :
    ∃ u a b w, r :: xs = u ++ [a] ∧ ys ++ [r] = b :: w ∧ h.prev n = a ∧ h.next n = b ∧ Chain h (u ++ [a]) ∧ Chain h (b :: w) := by
  obtain ⟨u, a, hu⟩ := exists_snoc r xs
  obtain ⟨b, w, hw⟩ := exists_cons_snoc ys r
  unfold Ring at hr
  rw [show r :: (xs ++ n :: ys) ++ [r] = (r :: xs) ++ n :: (ys ++ [r]) by simp, hu, hw] at hr
  have hc := chain_append.mp hr
  exact ⟨u, a, b, w, hu, hw, hc.2.1.2, hc.2.2.1.1, hc.1, hc.2.2.2⟩

/-- Erasing from a ring. -/
theorem ring_erase {h : Heap} {r n : Nat} {xs ys : List Nat} (hr : Ring h r (xs ++ n :: ys)) (hnd : (r :: (xs ++ n :: ys)).Nodup) :
    Ring (unlink h n) r (xs ++ ys) ∧ Ring (unlink h n) n [] ∧
    (∀ x, x ∉ r :: (xs ++ n :: ys) → (unlink h n).prev x = h.prev x ∧ (unlink h n).next x = h.next x) := by
  obtain ⟨u, a, b, w, hu, hw, ha, hb, hc1, hc2⟩ := ring_split hr
  have hnd' : (r :: xs ++ n :: ys).Nodup := by simpa using hnd
  rw [List.nodup_append] at hnd'
  obtain ⟨hndl, hndr, hdis⟩ := hnd'
  have ham : a ∈ r :: xs := by rw [hu]; simp
  have hbm : b ∈ ys ++ [r] := by rw [hw]; simp
  have han : a ≠ n := hdis a ham n (by simp)
  have hnr : n ≠ r := fun e => hdis r (by simp) n (by simp) e.symm
  have hnys : n ∉ ys := (List.nodup_cons.mp hndr).1
  have hbn : b ≠ n := by
    intro e
    rcases List.mem_append.mp hbm with hm | hm
    · exact hnys (by rw [← e]; exact hm)
    · exact hnr (by rw [← e]; exact List.mem_singleton.mp hm)
  have hul := unlink_links h n (by rw [ha]; exact han) (by rw [hb]; exact hbn)
  rw [ha, hb] at hul
  have hwnd : (ys ++ [r]).Nodup := by
    rw [List.nodup_append]
    refine ⟨(List.nodup_cons.mp hndr).2, by simp, ?_⟩
    intro x hx y hy
    rw [List.mem_singleton.mp hy]
    exact fun e => hdis r (by simp) x (List.mem_cons_of_mem _ hx) e.symm
  refine ⟨?_, ?_, ?_⟩
  · unfold Ring
    rw [show r :: (xs ++ ys) ++ [r] = (r :: xs) ++ (ys ++ [r]) by simp, hu, hw]
    refine chain_append.mpr ⟨chain_frame hc1 ?_ ?_, ⟨by rw [hul]; simp [han], by rw [hul]; simp [hbn]⟩, chain_frame hc2 ?_ ?_⟩
    · intro x hx
      rw [List.dropLast_concat] at hx
      have hxm : x ∈ r :: xs := by rw [hu]; exact List.mem_append_left _ hx
      have hxa : x ≠ a := by
        rw [hu, List.nodup_append] at hndl
        exact hndl.2.2 x hx a (by simp)
      have hxn : x ≠ n := hdis x hxm n (by simp)
      rw [hul]; simp [hxa, hxn]
    · intro x hx
      rw [← hu] at hx
      simp only [List.tail_cons] at hx
      have hxn : x ≠ n := hdis x (List.mem_cons_of_mem _ hx) n (by simp)
      have hxb : x ≠ b := by
        intro e
        rcases List.mem_append.mp hbm with hm | hm
        · exact hdis x (List.mem_cons_of_mem _ hx) b (List.mem_cons_of_mem _ hm) e
        · rw [List.mem_singleton.mp hm] at e
          exact (List.nodup_cons.mp hndl).1 (by rw [← e]; exact hx)
      rw [hul]; simp [hxb, hxn]
    · intro x hx
      rw [← hw, List.dropLast_concat] at hx
      have hxn : x ≠ n := fun e => hnys (by rw [← e]; exact hx)
      have hxa : x ≠ a := fun e => hdis a ham x (List.mem_cons_of_mem _ hx) e.symm
      rw [hul]; simp [hxa, hxn]
    · intro x hx
      simp only [List.tail_cons] at hx
      have hxb : x ≠ b := by
        rw [hw] at hwnd
        intro e
        exact (List.nodup_cons.mp hwnd).1 (by rw [← e]; exact hx)
      have hxm : x ∈ ys ++ [r] := by rw [hw]; exact List.mem_cons_of_mem _ hx
      have hxn : x ≠ n := by
        intro e
        rcases List.mem_append.mp hxm with hm | hm
        · exact hnys (by rw [← e]; exact hm)
        · exact hnr (by rw [← e]; exact List.mem_singleton.mp hm)
      rw [hul]; simp [hxb, hxn]
  · rw [hul]; exact ⟨⟨by simp, by simp⟩, trivial⟩
  · intro x hx
    have hxn : x ≠ n := fun e => hx (by rw [e]; simp)
    have hxa : x ≠ a := by
      intro e; apply hx; rw [e]
      rcases List.mem_cons.mp ham with h1 | h1
      · rw [h1]; simp
      · exact List.mem_cons_of_mem _ (List.mem_append_left _ h1)
    have hxb : x ≠ b := by
      intro e; apply hx; rw [e]
      rcases List.mem_append.mp hbm with h1 | h1
      · exact List.mem_cons_of_mem _ (List.mem_append_right _ (List.mem_cons_of_mem _ h1))
      · rw [List.mem_singleton.mp h1]; simp
    rw [hul]; simp [hxn, hxa, hxb]

/-- Every node that is in no list (roots included) heads a ring with its contents. -/
structure Inv (root : Nat → Bool) (h : Heap) (S : Spec.Lists) : Prop where
  ring : ∀ x, (∀ r, x ∉ S r) → Ring h x (S x)
  nonroot : ∀ x, root x = false → S x = []
  member : ∀ r x, x ∈ S r → root x = false
  nodup : ∀ r, (S r).Nodup
  single : ∀ r r' x, x ∈ S r → x ∈ S r' → r = r'

theorem inv_init (root : Nat → Bool) : Inv root Heap.init (fun _ => []) :=
  ⟨fun x _ => ⟨⟨rfl, rfl⟩, trivial⟩, fun _ _ => rfl, (by intro r x h; cases h), fun _ => List.nodup_nil, (by intro r r' x h; cases h)⟩

theorem Inv.root_free {root : Nat → Bool} {h : Heap} {S : Spec.Lists} (hi : Inv root h S) {x : Nat} (hx : root x = true) : ∀ r, x ∉ S r := by
  intro r hm
  have := hi.member r x hm
  rw [hx] at this; cases this

theorem Inv.ring_nodup {root : Nat → Bool} {h : Heap} {S : Spec.Lists} (hi : Inv root h S) {x : Nat} (hx : ∀ r, x ∉ S r) : (x :: S x).Nodup :=
  List.nodup_cons.mpr ⟨hx x, hi.nodup x⟩

theorem filter_mid (l : List Nat) (n : Nat) (hm : n ∈ l) (hnd : l.Nodup) : ∃ xs ys, l = xs ++ n :: ys ∧ l.filter (fun y => decide (y ≠ n)) = xs ++ ys := by
  obtain ⟨xs, ys, rfl⟩ := List.append_of_mem hm
  refine ⟨xs, ys, rfl, ?_⟩
  rw [List.nodup_append] at hnd
  rw [List.filter_append, List.filter_cons]
  simp only [ne_eq, not_true_eq_false, decide_false, Bool.false_eq_true, if_false]
  rw [List.filter_eq_self.mpr, List.filter_eq_self.mpr]
  · intro y hy
    simp only [decide_eq_true_eq]
    exact fun e => (List.nodup_cons.mp hnd.2.1).1 (by rw [← e]; exact hy)
  · intro y hy
    simp only [decide_eq_true_eq]
    exact hnd.2.2 y hy n (by simp)

theorem inv_step {root : Nat → Bool} {h : Heap} {S : Spec.Lists} (hi : Inv root h S) (op : Op) (hok : Spec.ok root S op) :
    Inv root (step h op) (Spec.step S op) := by
  cases op with
  | pushBack r n =>
    obtain ⟨hr, hn, hfree⟩ := hok
    have hrf := hi.root_free hr
    have hrn : r ≠ n := by intro e; rw [e, hn] at hr; cases hr
    have hnr : n ∉ r :: S r := by
      intro hm
      rcases List.mem_cons.mp hm with hm | hm
      · exact hrn hm.symm
      · exact hfree r hm
    refine ⟨?_, ?_, ?_, ?_, ?_⟩
    · intro x hx
      by_cases hxr : x = r
      · subst hxr
        simp only [Spec.step, if_true, step]
        exact ring_push (hi.ring x hrf) (hi.ring_nodup hrf) hnr
      · have hxS : ∀ r', x ∉ S r' := by
          intro r' hm
          apply hx r'
          simp only [Spec.step]
          split
          · rename_i e; subst e; exact List.mem_append_left _ hm
          · exact hm
        have hxn : x ≠ n := by
          intro e
          apply hx r
          simp [Spec.step, e]
        simp only [Spec.step, if_neg hxr, step]
        obtain ⟨u, a, hu⟩ := exists_snoc r (S r)
        obtain ⟨h1, h2⟩ := ring_prev (hi.ring r hrf) hu
        have ham : a ∈ r :: S r := by rw [hu]; simp
        have han : a ≠ n := fun e => hnr (by rw [← e]; exact ham)
        rw [insertBefore_links h n r hrn (by rw [h1]; exact han), h1]
        have hother : ∀ y ∈ x :: S x, y ≠ r ∧ y ≠ n ∧ y ≠ a := by
          intro y hy
          rcases List.mem_cons.mp hy with rfl | hy
          · refine ⟨hxr, hxn, ?_⟩
            intro e
            rcases List.mem_cons.mp ham with hm | hm
            · exact hxr (e.trans hm)
            · exact hxS r (by rw [e]; exact hm)
          · refine ⟨fun e => hrf x (by rw [← e]; exact hy), fun e => hfree x (by rw [← e]; exact hy), ?_⟩
            intro e
            rcases List.mem_cons.mp ham with hm | hm
            · exact hrf x (by rw [← hm, ← e]; exact hy)
            · exact hxr (hi.single x r y hy (by rw [e]; exact hm))
        refine ring_frame (hi.ring x hxS) ?_ ?_
        · intro y hy; obtain ⟨g1, g2, g3⟩ := hother y hy; simp [g1, g2, g3]
        · intro y hy; obtain ⟨g1, g2, g3⟩ := hother y hy; simp [g1, g2, g3]
    · intro x hx
      have : x ≠ r := by intro e; rw [e, hr] at hx; cases hx
      simp only [Spec.step, if_neg this]; exact hi.nonroot x hx
    · intro r' x hm
      simp only [Spec.step] at hm
      split at hm
      · rcases List.mem_append.mp hm with hm | hm
        · exact hi.member r x hm
        · rw [List.mem_singleton.mp hm]; exact hn
      · exact hi.member r' x hm
    · intro r'
      simp only [Spec.step]
      split
      · rw [List.nodup_append]
        refine ⟨hi.nodup r, by simp, ?_⟩
        intro y hy z hz
        rw [List.mem_singleton.mp hz]
        exact fun e => hfree r (by rw [← e]; exact hy)
      · exact hi.nodup r'
    · intro r1 r2 x h1 h2
      simp only [Spec.step] at h1 h2
      split at h1 <;> split at h2
      · rename_i e1 e2; rw [e1, e2]
      · rename_i e1 e2
        rcases List.mem_append.mp h1 with h1 | h1
        · rw [e1]; exact hi.single r r2 x h1 h2
        · rw [List.mem_singleton.mp h1] at h2; exact absurd h2 (hfree r2)
      · rename_i e1 e2
        rcases List.mem_append.mp h2 with h2 | h2
        · rw [e2]; exact hi.single r1 r x h1 h2
        · rw [List.mem_singleton.mp h2] at h1; exact absurd h1 (hfree r1)
      · exact hi.single r1 r2 x h1 h2
  | erase n =>
    have hn : root n = false := hok
    have hsub : ∀ r x, x ∈ (S r).filter (fun y => decide (y ≠ n)) → x ∈ S r := fun r x hx => (List.mem_filter.mp hx).1
    refine ⟨?_, ?_, fun r x hx => hi.member r x (hsub r x hx), fun r => List.Sublist.nodup List.filter_sublist (hi.nodup r),
      fun r r' x h1 h2 => hi.single r r' x (hsub r x h1) (hsub r' x h2)⟩
    · intro x hx
      simp only [Spec.step, step] at hx ⊢
      by_cases hmem : ∃ r, n ∈ S r
      · obtain ⟨r, hm⟩ := hmem
        have hrhead : ∀ r', r ∉ S r' := by
          intro r' hr'
          have := hi.nonroot r (hi.member r' r hr')
          rw [this] at hm; cases hm
        obtain ⟨xs, ys, hl, hf⟩ := filter_mid (S r) n hm (hi.nodup r)
        have hring := hi.ring r hrhead
        have hnd := hi.ring_nodup hrhead
        rw [hl] at hring hnd
        obtain ⟨g1, g2, g3⟩ := ring_erase hring hnd
        by_cases hxr : x = r
        · subst hxr; rw [hf]; exact g1
        · by_cases hxn : x = n
          · subst hxn
            rw [hi.nonroot x hn]; exact g2
          · have hxS : ∀ r', x ∉ S r' := by
              intro r' hm'
              exact hx r' (List.mem_filter.mpr ⟨hm', by simpa using hxn⟩)
            have hnx : (S x).filter (fun y => decide (y ≠ n)) = S x := by
              rw [List.filter_eq_self]
              intro y hy
              simp only [decide_eq_true_eq]
              intro e
              exact hxr (hi.single x r n (by rw [← e]; exact hy) hm)
            rw [hnx]
            have hout : ∀ y ∈ x :: S x, y ∉ r :: (xs ++ n :: ys) := by
              intro y hy hc
              rw [← hl] at hc
              rcases List.mem_cons.mp hy with hy' | hy'
              · rcases List.mem_cons.mp hc with hc | hc
                · exact hxr (hy'.symm.trans hc)
                · exact hxS r (by rw [← hy']; exact hc)
              · rcases List.mem_cons.mp hc with hc | hc
                · exact hrhead x (by rw [← hc]; exact hy')
                · exact hxr (hi.single x r y hy' hc)
            refine ring_frame (hi.ring x hxS) ?_ ?_
            · intro y hy; exact (g3 y (hout y hy)).2
            · intro y hy; exact (g3 y (hout y hy)).1
      · have hnone : ∀ r, n ∉ S r := fun r hm => hmem ⟨r, hm⟩
        have hring := hi.ring n hnone
        rw [hi.nonroot n hn] at hring
        have hfree := unlink_free h n hring.1.2 hring.1.1
        have hfx : ∀ r, (S r).filter (fun y => decide (y ≠ n)) = S r := by
          intro r
          rw [List.filter_eq_self]
          intro y hy
          simp only [decide_eq_true_eq]
          exact fun e => hnone r (by rw [← e]; exact hy)
        rw [hfx]
        refine ring_frame (hi.ring x ?_) (fun y _ => (hfree y).2) (fun y _ => (hfree y).1)
        intro r hm
        exact hx r (by rw [hfx]; exact hm)
    · intro x hx
      simp only [Spec.step]
      rw [hi.nonroot x hx]; rfl

theorem inv_run {root : Nat → Bool} : ∀ (ops : List Op) {h : Heap} {S : Spec.Lists}, Inv root h S → Spec.allOk root S ops →
    Inv root (run h ops) (Spec.run S ops)
  | [], _, _, hi, _ => hi
  | op :: ops, _, _, hi, hok => inv_run ops (inv_step hi op hok.1) hok.2

theorem walk_chain {h : Heap} (r : Nat) : ∀ (l : List Nat) (x fuel : Nat), Chain h (x :: l ++ [r]) → r ∉ l → l.length < fuel →
    walk h.next r fuel (h.next x) = l
  | [], x, fuel + 1, hc, _, _ => by simp only [walk]; rw [if_pos hc.1.1]
  | y :: l, x, fuel + 1, hc, hr, hf => by
    have h1 : h.next x = y := hc.1.1
    have hy : y ≠ r := fun e => hr (by rw [e]; simp)
    simp only [walk, h1, if_neg hy]
    rw [walk_chain r l y fuel hc.2 (fun hm => hr (List.mem_cons_of_mem _ hm)) (by simpa using hf)]

theorem chain_reverse {h : Heap} : ∀ {l : List Nat}, Chain h l → Chain ⟨h.next, h.prev⟩ l.reverse
  | [], _ => trivial
  | [_], _ => trivial
  | a :: b :: l, hc => by
    have ih := chain_reverse hc.2
    have : (a :: b :: l).reverse = l.reverse ++ [b] ++ a :: [] := by simp
    rw [this]
    refine chain_append.mpr ⟨by simpa using ih, ⟨hc.1.2, hc.1.1⟩, trivial⟩

/-- C22. After any sequence of `push_back` (of nodes that are in no list) and `erase` on any number of lists: walking a list forward gives its
elements in insertion order without the erased ones, walking backward the reverse, `empty()` says whether there are none, and nodes in no list are
linked to themselves. (`fuel` bounds the walk; the walk stops at `end()` by itself.) -/
theorem intrusive_list_refines (root : Nat → Bool) (ops : List Op) (hok : Spec.allOk root (fun _ => []) ops) :
    (∀ r fuel, root r = true → (Spec.run (fun _ => []) ops r).length < fuel →
      forward (run Heap.init ops) r fuel = Spec.run (fun _ => []) ops r ∧
      backward (run Heap.init ops) r fuel = (Spec.run (fun _ => []) ops r).reverse ∧
      (isEmpty (run Heap.init ops) r = true ↔ Spec.run (fun _ => []) ops r = [])) ∧
    (∀ n, root n = false → (∀ r, n ∉ Spec.run (fun _ => []) ops r) → (run Heap.init ops).next n = n ∧ (run Heap.init ops).prev n = n) := by
  have hi := inv_run ops (inv_init root) hok
  constructor
  · intro r fuel hr hf
    have hrf := hi.root_free hr
    have hring := hi.ring r hrf
    refine ⟨walk_chain r _ r fuel hring (hrf r) hf, ?_, ?_⟩
    · have hrev := chain_reverse hring
      have : (r :: Spec.run (fun _ => []) ops r ++ [r]).reverse = r :: (Spec.run (fun _ => []) ops r).reverse ++ [r] := by simp
      rw [this] at hrev
      exact walk_chain (h := ⟨(run Heap.init ops).next, (run Heap.init ops).prev⟩) r _ r fuel hrev (by rw [List.mem_reverse]; exact hrf r) (by simpa using hf)
    · unfold isEmpty
      rw [decide_eq_true_eq]
      cases hl : Spec.run (fun _ => []) ops r with
      | nil => rw [hl] at hring; exact ⟨fun _ => rfl, fun _ => hring.1.1⟩
      | cons y l =>
        rw [hl] at hring
        have h1 : (run Heap.init ops).next r = y := hring.1.1
        constructor
        · intro e
          exfalso
          apply hrf r
          rw [hl, ← h1, e]; simp
        · intro e; cases e
  · intro n hn hnone
    have hring := hi.ring n hnone
    rw [hi.nonroot n hn] at hring
    exact hring.1

/-- The precondition is needed: pushing a node that is already in a list breaks the list (a walk from `begin()` never comes to `end()`). -/
theorem intrusive_list_double_push_violated :
    forward (run Heap.init [.pushBack 0 1, .pushBack 0 2, .pushBack 0 1]) 0 10 ≠ [2, 1] := by decide +kernel

/-! Non-vacuity: two lists (roots 0 and 100), erasing from the middle, moving a node to the other list. -/
example : Spec.allOk (fun x => x == 0 || x == 100) (fun _ => []) [.pushBack 0 1, .pushBack 0 2, .pushBack 0 3, .erase 2, .pushBack 100 2] := by
  refine ⟨⟨rfl, rfl, by simp⟩, ⟨rfl, rfl, ?_⟩, ⟨rfl, rfl, ?_⟩, rfl, ⟨rfl, rfl, ?_⟩, trivial⟩
  · intro x; simp only [Spec.step]; split <;> simp
  · intro x; simp only [Spec.step]; split <;> simp
  · intro x; simp only [Spec.step]; split <;> simp

example : forward (run Heap.init [.pushBack 0 1, .pushBack 0 2, .pushBack 0 3, .erase 2, .pushBack 100 2]) 0 10 = [1, 3] ∧
    forward (run Heap.init [.pushBack 0 1, .pushBack 0 2, .pushBack 0 3, .erase 2, .pushBack 100 2]) 100 10 = [2] ∧
    backward (run Heap.init [.pushBack 0 1, .pushBack 0 2, .pushBack 0 3, .erase 2, .pushBack 100 2]) 0 10 = [3, 1] := by decide +kernel

end Verif.Intrusive

import Verif.Token.Compose
/-
C129: tokens made of tokens.
-/
namespace Verif.Token.Compose

/-! ### Counting -/

/-- References from nodes that are alive. -/
def held (z : Nat) (n : Node) : Nat := if n.count = 0 then 0 else n.kids.count z

def refs (nodes : List Node) (z : Nat) : Nat := (nodes.map (held z)).sum

/-- Edges from nodes that are alive. -/
def edges (n : Node) : Nat := if n.count = 0 then 0 else n.kids.length

theorem sum_set (f : Node → Nat) : ∀ {l : List Node} {i : Nat} {a b : Node}, l[i]? = some a → ((l.set i b).map f).sum + f a = (l.map f).sum + f b := by
  intro l
  induction l with
  | nil => intro i a b h; simp at h
  | cons x r ih =>
    intro i a b h
    cases i with
    | zero => simp at h; subst h; simp; omega
    | succ i =>
      simp at h
      have := ih (b := b) h
      simp only [List.set_cons_succ, List.map_cons, List.sum_cons]
      omega

structure Inv (s : State) (w : List Nat) : Prop where
  acyclic : ∀ (x : Nat) (n : Node), s.nodes[x]? = some n → ∀ k ∈ n.kids, k < x
  count : ∀ (x : Nat) (n : Node), s.nodes[x]? = some n → n.count = s.ext.count x + w.count x + refs s.nodes x
  dom : ∀ x : Nat, s.nodes.length ≤ x → s.ext.count x + w.count x = 0
  log : ∀ x : Nat, x ∈ s.log ↔ ∃ n, s.nodes[x]? = some n ∧ n.count = 0
  nodup : s.log.Nodup

theorem refs_pos {nodes : List Node} {y z : Nat} {n : Node} (h : nodes[y]? = some n) (hc : n.count ≠ 0) (hz : z ∈ n.kids) : 0 < refs nodes z := by
  have h1 : held z n ≤ (nodes.map (held z)).sum := by
    have := sum_set (held z) (b := ⟨[], 0⟩) h
    have h0 : held z ⟨[], 0⟩ = 0 := rfl
    omega
  have h2 : 0 < held z n := by
    unfold held
    rw [if_neg hc]
    exact List.count_pos_iff.mpr hz
  unfold refs
  omega

theorem refs_some {z : Nat} : ∀ {nodes : List Node}, 0 < refs nodes z → ∃ (y : Nat) (n : Node), nodes[y]? = some n ∧ n.count ≠ 0 ∧ z ∈ n.kids := by
  intro nodes
  induction nodes with
  | nil => intro h; simp [refs] at h
  | cons x r ih =>
    intro h
    simp only [refs, List.map_cons, List.sum_cons] at h
    rcases Nat.eq_zero_or_pos (held z x) with h0 | h0
    · obtain ⟨y, n, a, b⟩ := ih (by unfold refs; omega)
      exact ⟨y + 1, n, by simpa using a, b⟩
    · refine ⟨0, x, rfl, ?_⟩
      unfold held at h0
      by_cases hc : x.count = 0
      · rw [if_pos hc] at h0; omega
      · rw [if_neg hc] at h0
        exact ⟨hc, List.count_pos_iff.mp h0⟩

theorem inv_last {s : State} {x : Nat} {r kids : List Nat} {count : Nat} (i : Inv s (x :: r)) (hx : s.nodes[x]? = some ⟨kids, count⟩) (hc : count = 1) :
    Inv { s with nodes := s.nodes.set x ⟨kids, 0⟩, log := s.log ++ [x] } (kids ++ r) := by
  have hxl := (List.getElem?_eq_some_iff.mp hx).1
  have hcx := i.count x _ hx
  simp at hcx
  have hkx : x ∉ kids := by
    intro hk
    have := i.acyclic x _ hx x hk
    omega
  have hrefs : ∀ z, refs (s.nodes.set x ⟨kids, 0⟩) z + kids.count z = refs s.nodes z := by
    intro z
    have := sum_set (held z) (b := ⟨kids, 0⟩) hx
    have h1 : held z ⟨kids, count⟩ = kids.count z := by simp [held, hc]
    have h2 : held z ⟨kids, 0⟩ = 0 := by simp [held]
    unfold refs
    omega
  refine ⟨?_, ?_, ?_, ?_, ?_⟩
  · intro y m hm k hk
    simp only [] at hm
    by_cases hxy : x = y
    · subst hxy
      rw [List.getElem?_set_self hxl] at hm; injection hm with hm; subst hm
      exact i.acyclic x _ hx k hk
    · rw [List.getElem?_set_ne hxy] at hm
      exact i.acyclic y m hm k hk
  · intro y m hm
    simp only [] at hm ⊢
    have h1 := hrefs y
    rw [List.count_append]
    by_cases hxy : x = y
    · subst hxy
      rw [List.getElem?_set_self hxl] at hm; injection hm with hm; subst hm
      have : kids.count x = 0 := List.count_eq_zero.mpr hkx
      simp only []
      omega
    · rw [List.getElem?_set_ne hxy] at hm
      have h2 := i.count y m hm
      simp [hxy] at h2
      omega
  · intro y hy
    simp only [List.length_set] at hy ⊢
    have h1 := i.dom y hy
    have hxy : x ≠ y := by omega
    simp [hxy] at h1
    have h2 : kids.count y = 0 := by
      refine List.count_eq_zero.mpr ?_
      intro hk
      have := i.acyclic x _ hx y hk
      omega
    rw [List.count_append]
    have h3 : s.ext.count y = 0 := h1.1
    have h4 : r.count y = 0 := h1.2
    omega
  · intro y
    simp only [List.mem_append, List.mem_singleton]
    by_cases hxy : x = y
    · subst hxy
      rw [List.getElem?_set_self hxl]
      exact ⟨fun _ => ⟨_, rfl, rfl⟩, fun _ => Or.inr rfl⟩
    · rw [List.getElem?_set_ne hxy, i.log y]
      constructor
      · rintro (h | h)
        · exact h
        · exact absurd h.symm hxy
      · exact fun h => Or.inl h
  · simp only []
    refine List.nodup_append.mpr ⟨i.nodup, by simp, ?_⟩
    intro a ha b hb
    simp at hb; subst hb
    rintro rfl
    obtain ⟨m, hm, h0⟩ := (i.log a).mp ha
    rw [hx] at hm; injection hm with hm; subst hm
    simp only [] at h0
    omega

theorem inv_less {s : State} {x : Nat} {r kids : List Nat} {count : Nat} (i : Inv s (x :: r)) (hx : s.nodes[x]? = some ⟨kids, count⟩) (hc : ¬ count = 1) :
    Inv { s with nodes := s.nodes.set x ⟨kids, count - 1⟩ } r := by
  have hxl := (List.getElem?_eq_some_iff.mp hx).1
  have hcx := i.count x _ hx
  simp at hcx
  have hkx : x ∉ kids := by
    intro hk
    have := i.acyclic x _ hx x hk
    omega
  have hrefs : ∀ z, refs (s.nodes.set x ⟨kids, count - 1⟩) z = refs s.nodes z := by
    intro z
    have := sum_set (held z) (b := ⟨kids, count - 1⟩) hx
    have h1 : held z ⟨kids, count⟩ = kids.count z := by unfold held; rw [if_neg (by simp; omega)]
    have h2 : held z ⟨kids, count - 1⟩ = kids.count z := by unfold held; rw [if_neg (by simp; omega)]
    unfold refs
    omega
  refine ⟨?_, ?_, ?_, ?_, i.nodup⟩
  · intro y m hm k hk
    simp only [] at hm
    by_cases hxy : x = y
    · subst hxy
      rw [List.getElem?_set_self hxl] at hm; injection hm with hm; subst hm
      exact i.acyclic x _ hx k hk
    · rw [List.getElem?_set_ne hxy] at hm
      exact i.acyclic y m hm k hk
  · intro y m hm
    simp only [] at hm ⊢
    have h1 := hrefs y
    by_cases hxy : x = y
    · subst hxy
      rw [List.getElem?_set_self hxl] at hm; injection hm with hm; subst hm
      simp only []
      omega
    · rw [List.getElem?_set_ne hxy] at hm
      have h2 := i.count y m hm
      simp [hxy] at h2
      omega
  · intro y hy
    simp only [List.length_set] at hy ⊢
    have h1 := i.dom y hy
    have hxy : x ≠ y := by omega
    simp [hxy] at h1
    have h3 : s.ext.count y = 0 := h1.1
    have h4 : r.count y = 0 := h1.2
    omega
  · intro y
    simp only []
    rw [i.log y]
    by_cases hxy : x = y
    · subst hxy
      rw [List.getElem?_set_self hxl, hx]
      constructor
      · rintro ⟨m, hm, h0⟩
        injection hm with hm; subst hm
        simp only [] at h0
        omega
      · rintro ⟨m, hm, h0⟩
        injection hm with hm; subst hm
        simp only [] at h0
        omega
    · rw [List.getElem?_set_ne hxy]

theorem release_inv : ∀ (n : Nat) (s s' : State) (w : List Nat), Inv s w → release n s w = some s' →
    Inv s' [] ∧ s'.ext = s.ext ∧ s'.nodes.length = s.nodes.length ∧ (∀ (x : Nat) (m : Node), s.nodes[x]? = some m → ∃ c, s'.nodes[x]? = some ⟨m.kids, c⟩) := by
  intro n
  induction n with
  | zero =>
    intro s s' w i h
    cases w with
    | nil => simp only [release] at h; cases h; exact ⟨i, rfl, rfl, fun x m hm => ⟨m.count, hm⟩⟩
    | cons x r => simp only [release] at h; cases h
  | succ n ih =>
    intro s s' w i h
    cases w with
    | nil => simp only [release] at h; cases h; exact ⟨i, rfl, rfl, fun x m hm => ⟨m.count, hm⟩⟩
    | cons x r =>
      simp only [release] at h
      split at h
      · cases h
      · next kids count hx =>
        have hxl := (List.getElem?_eq_some_iff.mp hx).1
        have hcx := i.count x _ hx
        simp at hcx
        have hkx : x ∉ kids := by
          intro hk
          have := i.acyclic x _ hx x hk
          omega
        have upd : ∀ c : Nat, ∀ (y : Nat) (m : Node), s.nodes[y]? = some m → ∃ c', (s.nodes.set x ⟨kids, c⟩)[y]? = some ⟨m.kids, c'⟩ := by
          intro c y m hm
          by_cases hxy : x = y
          · subst hxy
            rw [hx] at hm; injection hm with hm; subst hm
            exact ⟨c, by rw [List.getElem?_set_self hxl]⟩
          · exact ⟨m.count, by rw [List.getElem?_set_ne hxy]; exact hm⟩
        split at h
        · next hc =>
          have i' := inv_last i hx hc
          obtain ⟨a, b, c, d⟩ := ih _ _ _ i' h
          refine ⟨a, b, by rw [c]; simp, ?_⟩
          intro y m hm
          obtain ⟨c', hc'⟩ := upd 0 y m hm
          obtain ⟨c'', hc''⟩ := d y _ hc'
          exact ⟨c'', hc''⟩
        · next hc =>
          have i' := inv_less i hx hc
          obtain ⟨a, b, c, d⟩ := ih _ _ _ i' h
          refine ⟨a, b, by rw [c]; simp, ?_⟩
          intro y m hm
          obtain ⟨c', hc'⟩ := upd (count - 1) y m hm
          obtain ⟨c'', hc''⟩ := d y _ hc'
          exact ⟨c'', hc''⟩

/-- The steps that remain suffice. -/
theorem release_total : ∀ (n : Nat) (s : State) (w : List Nat), Inv s w → w.length + (s.nodes.map edges).sum ≤ n → ∃ s', release n s w = some s' := by
  intro n
  induction n with
  | zero =>
    intro s w i h
    cases w with
    | nil => exact ⟨s, rfl⟩
    | cons x r => simp at h
  | succ n ih =>
    intro s w i h
    cases w with
    | nil => exact ⟨s, rfl⟩
    | cons x r =>
      have hxl : x < s.nodes.length := by
        rcases Nat.lt_or_ge x s.nodes.length with hc | hc
        · exact hc
        · have := i.dom x hc
          simp at this
      obtain ⟨kids, count, hx⟩ : ∃ kids count, s.nodes[x]? = some ⟨kids, count⟩ := ⟨_, _, List.getElem?_eq_getElem hxl⟩
      have hpos : 1 ≤ count := by
        have := i.count x _ hx
        simp at this
        omega
      simp only [List.length_cons] at h
      have hc := i.count x _ hx
      by_cases h1 : count = 1
      · have hi := inv_last i hx h1
        have hs := sum_set edges (b := ⟨kids, 0⟩) hx
        have e1 : edges ⟨kids, count⟩ = kids.length := by simp [edges, h1]
        have e2 : edges ⟨kids, 0⟩ = 0 := by simp [edges]
        obtain ⟨s', hs'⟩ := ih _ _ hi (by simp only [List.length_append]; omega)
        exact ⟨s', by simp only [release, hx, h1, if_true] at hs' ⊢; exact hs'⟩
      · have hi := inv_less i hx h1
        have hs := sum_set edges (b := ⟨kids, count - 1⟩) hx
        have e1 : edges ⟨kids, count⟩ = kids.length := by unfold edges; rw [if_neg (by simp; omega)]
        have e2 : edges ⟨kids, count - 1⟩ = kids.length := by unfold edges; rw [if_neg (by simp; omega)]
        obtain ⟨s', hs'⟩ := ih _ _ hi (by simp only []; omega)
        exact ⟨s', by simp only [release, hx, h1, if_false] at hs' ⊢; exact hs'⟩

/-! ### Histories -/

theorem takeAll_count : ∀ {kids ext e : List Nat}, takeAll ext kids = some e → ∀ x, e.count x + kids.count x = ext.count x := by
  intro kids
  induction kids with
  | nil => intro ext e h x; simp only [takeAll] at h; cases h; simp
  | cons k r ih =>
    intro ext e h x
    simp only [takeAll] at h
    split at h
    · next hk =>
      have := ih h x
      rw [List.count_erase] at this
      have hm := List.contains_iff_mem.mp hk
      by_cases hkx : k = x
      · subst hkx
        have hp := List.count_pos_iff.mpr hm
        rw [List.count_cons_self]
        simp only [beq_self_eq_true, if_true] at this
        omega
      · rw [List.count_cons_of_ne hkx]
        have hb : (x == k) = false := by simpa using (Ne.symm hkx)
        have hb2 : (k == x) = false := by simpa using hkx
        simp only [hb, hb2, Bool.false_eq_true, if_false] at this
        omega
    · cases h

theorem inv_init : Inv State.init [] := by
  refine ⟨by simp [State.init], by simp [State.init], by simp [State.init], by simp [State.init], by simp [State.init]⟩

theorem drop_inv {s : State} {x : Nat} (i : Inv s []) (hx : x ∈ s.ext) : Inv { s with ext := s.ext.erase x } [x] := by
  have hcnt : ∀ y, (s.ext.erase x).count y + [x].count y = s.ext.count y := by
    intro y
    rw [List.count_erase]
    by_cases hxy : x = y
    · subst hxy
      have := List.count_pos_iff.mpr hx
      simp; omega
    · simp [hxy]
  refine ⟨i.acyclic, ?_, ?_, i.log, i.nodup⟩
  · intro y m hm
    have h1 := i.count y m hm
    have h2 := hcnt y
    simp only [List.count_nil] at h1 ⊢
    omega
  · intro y hy
    have h1 := i.dom y hy
    have h2 := hcnt y
    simp only [List.count_nil] at h1 ⊢
    omega

theorem step_inv {s s' : State} {a : Act} (i : Inv s []) (h : step s a = some s') : Inv s' [] := by
  cases a with
  | make kids =>
    simp only [step] at h
    split at h
    · cases h
    · next e he =>
      cases h
      have hcnt := takeAll_count he
      have hkids : ∀ k ∈ kids, k < s.nodes.length := by
        intro k hk
        rcases Nat.lt_or_ge k s.nodes.length with hc | hc
        · exact hc
        · have h1 := i.dom k hc
          have h2 := hcnt k
          have h3 := List.count_pos_iff.mpr hk
          omega
      have hrefs : ∀ z, refs (s.nodes ++ [⟨kids, 1⟩]) z = refs s.nodes z + kids.count z := by
        intro z; simp [refs, held]
      have hself : refs s.nodes s.nodes.length = 0 := by
        rcases Nat.eq_zero_or_pos (refs s.nodes s.nodes.length) with h0 | h0
        · exact h0
        · obtain ⟨y, n, h1, _, h3⟩ := refs_some h0
          have := i.acyclic y n h1 _ h3
          have := (List.getElem?_eq_some_iff.mp h1).1
          omega
      have hlast : ∀ (y : Nat) (m : Node), (s.nodes ++ [⟨kids, 1⟩])[y]? = some m → (s.nodes[y]? = some m ∧ y < s.nodes.length) ∨ (y = s.nodes.length ∧ m = ⟨kids, 1⟩) := by
        intro y m hm
        rcases Nat.lt_or_ge y s.nodes.length with hlt | hge
        · rw [List.getElem?_append_left hlt] at hm; exact Or.inl ⟨hm, hlt⟩
        · rw [List.getElem?_append_right hge] at hm
          have hy : y = s.nodes.length := by
            have := (List.getElem?_eq_some_iff.mp hm).1
            simp at this; omega
          subst hy
          simp at hm
          exact Or.inr ⟨rfl, hm.symm⟩
      refine ⟨?_, ?_, ?_, ?_, i.nodup⟩
      · intro y m hm k hk
        rcases hlast y m hm with ⟨h1, _⟩ | ⟨rfl, rfl⟩
        · exact i.acyclic y m h1 k hk
        · exact hkids k hk
      · intro y m hm
        simp only [hrefs, List.count_append]
        rcases hlast y m hm with ⟨h1, h2⟩ | ⟨rfl, rfl⟩
        · have h3 := i.count y m h1
          have h4 := hcnt y
          have hne : s.nodes.length ≠ y := by omega
          simp [hne] at h3 ⊢
          omega
        · have h4 := hcnt s.nodes.length
          have h5 := i.dom s.nodes.length (Nat.le_refl _)
          have h6 : kids.count s.nodes.length = 0 := List.count_eq_zero.mpr (fun hk => by have := hkids _ hk; omega)
          simp
          omega
      · intro y hy
        simp only [List.length_append, List.length_cons, List.length_nil] at hy
        have h4 := hcnt y
        have h5 := i.dom y (by omega)
        have hne : s.nodes.length ≠ y := by omega
        simp [hne, List.count_append] at h5 ⊢
        omega
      · intro y
        rw [i.log y]
        constructor
        · rintro ⟨m, hm, h0⟩
          refine ⟨m, ?_, h0⟩
          simp only []
          rw [List.getElem?_append_left (List.getElem?_eq_some_iff.mp hm).1]; exact hm
        · rintro ⟨m, hm, h0⟩
          rcases hlast y m hm with ⟨h1, _⟩ | ⟨rfl, rfl⟩
          · exact ⟨m, h1, h0⟩
          · cases h0
  | copy x =>
    simp only [step] at h
    split at h
    · next hx =>
      cases h
      have hm := List.contains_iff_mem.mp hx
      have hpos := List.count_pos_iff.mpr hm
      have hxl : x < s.nodes.length := by
        rcases Nat.lt_or_ge x s.nodes.length with hc | hc
        · exact hc
        · have := i.dom x hc; omega
      have hxe := List.getElem?_eq_getElem hxl
      have hcx := i.count x _ hxe
      have hmod : s.nodes.modify x (fun n => { n with count := n.count + 1 }) = s.nodes.set x { s.nodes[x] with count := s.nodes[x].count + 1 } := by
        apply List.ext_getElem?
        intro y
        rw [List.getElem?_modify]
        by_cases hxy : x = y
        · subst hxy; rw [List.getElem?_set_self hxl, hxe]; simp
        · rw [List.getElem?_set_ne hxy]; simp [hxy]
      have hrefs : ∀ z, refs (s.nodes.modify x (fun n => { n with count := n.count + 1 })) z = refs s.nodes z := by
        intro z
        rw [hmod]
        have := sum_set (held z) (b := { s.nodes[x] with count := s.nodes[x].count + 1 }) hxe
        have h1 : held z { s.nodes[x] with count := s.nodes[x].count + 1 } = held z s.nodes[x] := by
          unfold held
          rw [if_neg (by simp), if_neg (by omega)]
        unfold refs
        omega
      have hlook : ∀ (y : Nat) (m : Node), (s.nodes.modify x (fun n => { n with count := n.count + 1 }))[y]? = some m →
          ∃ m0, s.nodes[y]? = some m0 ∧ m.kids = m0.kids ∧ m.count = m0.count + [x].count y := by
        intro y m hy
        rw [List.getElem?_modify] at hy
        obtain ⟨m0, h1, h2⟩ := Option.map_eq_some_iff.mp hy
        refine ⟨m0, h1, ?_⟩
        by_cases hxy : x = y
        · subst hxy; simp at h2; subst h2; simp
        · simp [hxy] at h2; subst h2; simp [hxy]
      refine ⟨?_, ?_, ?_, ?_, i.nodup⟩
      · intro y m hy k hk
        obtain ⟨m0, h1, h2, _⟩ := hlook y m hy
        exact i.acyclic y m0 h1 k (h2 ▸ hk)
      · intro y m hy
        obtain ⟨m0, h1, _, h3⟩ := hlook y m hy
        have := i.count y m0 h1
        simp only [hrefs, List.count_append, List.count_nil] at this ⊢
        omega
      · intro y hy
        simp only [List.length_modify] at hy
        have := i.dom y hy
        have hne : x ≠ y := by omega
        simp [List.count_append, hne] at this ⊢
        exact this
      · intro y
        rw [i.log y]
        constructor
        · rintro ⟨m, hm', h0⟩
          have hne : x ≠ y := by
            rintro rfl
            rw [hxe] at hm'; injection hm' with hm'; subst hm'
            omega
          exact ⟨m, by simp only []; rw [List.getElem?_modify, hm']; simp [hne], h0⟩
        · rintro ⟨m, hm', h0⟩
          obtain ⟨m0, h1, _, h3⟩ := hlook y m hm'
          exact ⟨m0, h1, by omega⟩
    · cases h
  | drop x =>
    simp only [step] at h
    split at h
    · next hx => exact (release_inv _ _ _ _ (drop_inv i (List.contains_iff_mem.mp hx)) h).1
    · cases h

theorem run_inv : ∀ {as : List Act} {s s' : State}, Inv s [] → run s as = some s' → Inv s' [] := by
  intro as
  induction as with
  | nil => intro s s' i h; simp only [run] at h; cases h; exact i
  | cons a r ih =>
    intro s s' i h
    simp only [run] at h
    split at h
    · cases h
    · next s1 h1 => exact ih (step_inv i h1) h

/-- What the user can still reach: a reference of his own, or one held by something he can reach. -/
inductive Spec.Reach (s : State) : Nat → Prop where
  | own {x : Nat} : x ∈ s.ext → Reach s x
  | kid {x y : Nat} {n : Node} : Reach s y → s.nodes[y]? = some n → x ∈ n.kids → Reach s x

theorem inv_destroyed {s : State} (i : Inv s []) : (∀ x, x < s.nodes.length → (x ∈ s.log ↔ ¬ Spec.Reach s x)) ∧ s.log.Nodup := by
  have alive : ∀ x, Spec.Reach s x → ∃ n, s.nodes[x]? = some n ∧ n.count ≠ 0 := by
    intro x hr
    have dom : ∀ x, x ∈ s.ext → x < s.nodes.length := by
      intro x hx
      rcases Nat.lt_or_ge x s.nodes.length with hc | hc
      · exact hc
      · have h1 := i.dom x hc
        have h2 := List.count_pos_iff.mpr hx
        omega
    induction hr with
    | own hx =>
      rename_i x
      have he := List.getElem?_eq_getElem (dom x hx)
      refine ⟨_, he, ?_⟩
      have h1 := i.count x _ he
      have h2 := List.count_pos_iff.mpr hx
      omega
    | kid hy hn hk ih =>
      rename_i x y n
      obtain ⟨n', h1, h2⟩ := ih
      rw [hn] at h1; injection h1 with h1; subst h1
      have hlt := i.acyclic y n hn x hk
      have hyl := (List.getElem?_eq_some_iff.mp hn).1
      have he := List.getElem?_eq_getElem (show x < s.nodes.length by omega)
      refine ⟨_, he, ?_⟩
      have h3 := i.count x _ he
      have h4 := refs_pos hn h2 hk
      omega
  have reach : ∀ k x, s.nodes.length - x ≤ k → ∀ n, s.nodes[x]? = some n → n.count ≠ 0 → Spec.Reach s x := by
    intro k
    induction k with
    | zero =>
      intro x hx n hn _
      have := (List.getElem?_eq_some_iff.mp hn).1
      omega
    | succ k ih =>
      intro x hx n hn hc
      have h1 := i.count x n hn
      rcases Nat.eq_zero_or_pos (s.ext.count x) with h0 | h0
      · simp at h1
        have h0' : 0 < refs s.nodes x := by
          have : s.ext.count x = 0 := h0
          omega
        obtain ⟨y, m, a, b, c⟩ := refs_some h0'
        have hlt := i.acyclic y m a x c
        have hyl := (List.getElem?_eq_some_iff.mp a).1
        exact .kid (ih y (by omega) m a b) a c
      · exact .own (List.count_pos_iff.mp h0)
  refine ⟨?_, i.nodup⟩
  intro x hx
  rw [i.log x]
  constructor
  · rintro ⟨n, hn, h0⟩ hr
    obtain ⟨m, h1, h2⟩ := alive x hr
    rw [hn] at h1; injection h1 with h1; subst h1
    exact h2 h0
  · intro hr
    have he := List.getElem?_eq_getElem hx
    refine ⟨_, he, ?_⟩
    refine Classical.byContradiction fun hc => ?_
    exact hr (reach _ x (Nat.le_refl _) _ he hc)

/-- **C129.**  In every history of making, copying and dropping tokens (multi tokens, attached tokens, plain ones): exactly what the user can no longer reach is destroyed,
and nothing twice. -/
theorem destroyed_exactly {as : List Act} {s : State} (h : run State.init as = some s) :
    (∀ x, x < s.nodes.length → (x ∈ s.log ↔ ¬ Spec.Reach s x)) ∧ s.log.Nodup :=
  inv_destroyed (run_inv inv_init h)

theorem inv_drop {s : State} (i : Inv s []) {x : Nat} (hx : x ∈ s.ext) :
    (∃ s', step s (.drop x) = some s' ∧ s'.ext = s.ext.erase x) ∧ ∃ s', step s (.copy x) = some s' ∧ s'.ext = s.ext ++ [x] ∧ s'.log = s.log := by
  refine ⟨?_, ⟨⟨s.nodes.modify x (fun n => { n with count := n.count + 1 }), s.ext ++ [x], s.log⟩, (by simp only [step, List.contains_iff_mem.mpr hx, if_true]), rfl, rfl⟩⟩
  have i := drop_inv i hx
  have hb : ∀ l : List Node, (l.map edges).sum ≤ (l.map (fun n => n.kids.length)).sum := by
    intro l
    induction l with
    | nil => simp
    | cons n r ih =>
      simp only [List.map_cons, List.sum_cons]
      have : edges n ≤ n.kids.length := by unfold edges; split <;> omega
      omega
  obtain ⟨s', hs'⟩ := release_total s.work { s with ext := s.ext.erase x } [x] i (by
    have := hb s.nodes
    simp only [State.work, List.length_singleton]
    omega)
  refine ⟨s', ?_, (release_inv _ _ _ _ i hs').2.1⟩
  simp only [step, List.contains_iff_mem.mpr hx, if_true]
  exact hs'

/-- **C129.**  A reference the user has can always be dropped (the destructors come to an end), and copied, which destroys nothing. -/
theorem drop_possible {as : List Act} {s : State} (h : run State.init as = some s) {x : Nat} (hx : x ∈ s.ext) :
    (∃ s', step s (.drop x) = some s' ∧ s'.ext = s.ext.erase x) ∧ ∃ s', step s (.copy x) = some s' ∧ s'.ext = s.ext ++ [x] ∧ s'.log = s.log :=
  inv_drop (run_inv inv_init h) hx

/-! ### Order -/

theorem release_mono : ∀ (n k : Nat) (s s' : State) (w : List Nat), release n s w = some s' → release (n + k) s w = some s' := by
  intro n
  induction n with
  | zero =>
    intro k s s' w h
    cases w with
    | nil =>
      simp only [release] at h
      cases k <;> simp only [release, Nat.zero_add] <;> exact h
    | cons x r => simp only [release] at h; cases h
  | succ n ih =>
    intro k s s' w h
    cases w with
    | nil =>
      simp only [release] at h
      rw [show n + 1 + k = (n + k) + 1 by omega]
      simp only [release]; exact h
    | cons x r =>
      rw [show n + 1 + k = (n + k) + 1 by omega]
      simp only [release] at h ⊢
      split at h
      · cases h
      · next kids count hx =>
        split at h
        · next hc => rw [if_pos hc]; exact ih k _ _ _ h
        · next hc => rw [if_neg hc]; exact ih k _ _ _ h

/-- What a reference leads to, when nothing in it is shared. -/
inductive Spec.Forest where
  | nil
  | cons (id : Nat) (kids rest : Spec.Forest)

/-- The references. -/
def Spec.Forest.roots : Spec.Forest → List Nat
  | .nil => []
  | .cons id _ rest => id :: rest.roots

/-- Everything, a holder before what it holds, the first reference with all it leads to before the next. -/
def Spec.Forest.all : Spec.Forest → List Nat
  | .nil => []
  | .cons id kids rest => id :: (kids.all ++ rest.all)

/-- The forest is there, and not shared. -/
def Spec.Forest.In (s : State) : Spec.Forest → Prop
  | .nil => True
  | .cons id kids rest => s.nodes[id]? = some ⟨kids.roots, 1⟩ ∧ kids.In s ∧ rest.In s

theorem in_congr {s s' : State} : ∀ (f : Spec.Forest), (∀ x ∈ f.all, s'.nodes[x]? = s.nodes[x]?) → f.In s → f.In s'
  | .nil, _, _ => trivial
  | .cons id kids rest, h, hf => by
    obtain ⟨a, b, c⟩ := hf
    refine ⟨by rw [h id (by simp [Spec.Forest.all])]; exact a, in_congr kids (fun x hx => h x (by simp [Spec.Forest.all, hx])) b,
      in_congr rest (fun x hx => h x (by simp [Spec.Forest.all, hx])) c⟩

theorem release_forest : ∀ (f : Spec.Forest) (s : State), f.In s → f.all.Nodup → ∃ s', (∀ n r, release (n + f.all.length) s (f.roots ++ r) = release n s' r) ∧
    s'.log = s.log ++ f.all ∧ (∀ x, x ∉ f.all → s'.nodes[x]? = s.nodes[x]?)
  | .nil, s, _, _ => ⟨s, fun n r => by simp [Spec.Forest.all, Spec.Forest.roots], by simp [Spec.Forest.all], fun x _ => rfl⟩
  | .cons id kids rest, s, hf, hn => by
    obtain ⟨a, b, c⟩ := hf
    simp only [Spec.Forest.all] at hn
    obtain ⟨n1, n2⟩ := List.nodup_cons.mp hn
    obtain ⟨n3, n4, n5⟩ := List.nodup_append.mp n2
    have k1 : id ∉ kids.all := fun h => n1 (by simp [h])
    have k2 : id ∉ rest.all := fun h => n1 (by simp [h])
    have look : ∀ x, x ≠ id → (s.nodes.set id ⟨kids.roots, 0⟩)[x]? = s.nodes[x]? := fun x hx => by rw [List.getElem?_set_ne (Ne.symm hx)]
    obtain ⟨s2, r2, l2, m2⟩ := release_forest kids { s with nodes := s.nodes.set id ⟨kids.roots, 0⟩, log := s.log ++ [id] }
      (in_congr kids (fun x hx => look x (fun e => k1 (e ▸ hx))) b) n3
    obtain ⟨s3, r3, l3, m3⟩ := release_forest rest s2 (in_congr rest (fun x hx => by
      have hxid : x ≠ id := fun e => k2 (e ▸ hx)
      have hxk : x ∉ kids.all := fun h => n5 x h x hx rfl
      rw [m2 x hxk]; exact look x hxid) c) n4
    refine ⟨s3, ?_, ?_, ?_⟩
    · intro n r
      show release (n + (kids.all ++ rest.all).length + 1) s (id :: (rest.roots ++ r)) = _
      simp only [release, a, if_true, List.length_append]
      rw [show n + (kids.all.length + rest.all.length) = (n + rest.all.length) + kids.all.length by omega, r2, r3]
    · rw [l3, l2]; simp [Spec.Forest.all]
    · intro x hx
      simp only [Spec.Forest.all, List.mem_cons, List.mem_append, not_or] at hx
      rw [m3 x hx.2.2, m2 x hx.2.1]
      exact look x hx.1

/-- **C129.**  Dropping the last reference to something that is not shared destroys all of it: a holder first, then what it holds, one after another, in its order. -/
theorem drop_order {as : List Act} {s s' : State} (h : run State.init as = some s) {x : Nat} {kids : Spec.Forest}
    (hf : (Spec.Forest.cons x kids .nil).In s) (hn : (Spec.Forest.cons x kids .nil).all.Nodup) (hd : step s (.drop x) = some s') :
    s'.log = s.log ++ (Spec.Forest.cons x kids .nil).all := by
  simp only [step] at hd
  split at hd
  · obtain ⟨s3, h1, h2, _⟩ := release_forest _ { s with ext := s.ext.erase x } (in_congr (s := s) _ (fun _ _ => rfl) hf) hn
    have h3 := h1 s.work []
    have h4 := release_mono _ (Spec.Forest.cons x kids .nil).all.length _ _ _ hd
    rw [show (Spec.Forest.cons x kids .nil).roots ++ [] = [x] from rfl, h4] at h3
    have h5 : release s.work s3 [] = some s3 := by
      cases s.work <;> rfl
    rw [h5] at h3
    injection h3 with h3
    rw [h3, h2]
  · cases hd

/-! ### Multi tokens -/

/-- C129.  A forward multi token lets go of its tokens in the order they were added, a reverse one in the opposite order. -/
theorem popOrder_spec : ∀ (n : Nat) (l : List Nat), l.length ≤ n → popOrder true n l = l ∧ popOrder false n l = l.reverse := by
  intro n
  induction n with
  | zero =>
    intro l h
    cases l with
    | nil => exact ⟨rfl, rfl⟩
    | cons x r => simp at h
  | succ n ih =>
    intro l h
    constructor
    · cases l with
      | nil => simp [popOrder]
      | cons x r =>
        simp only [popOrder, if_true]
        rw [(ih r (by simp at h; omega)).1]
    · rcases List.eq_nil_or_concat l with rfl | ⟨r, x, rfl⟩
      · simp [popOrder]
      · rw [List.concat_eq_append] at h ⊢
        simp only [popOrder, Bool.false_eq_true, if_false, List.getLast?_concat, List.dropLast_concat]
        rw [(ih r (by simp at h; omega)).2]
        simp

/-- The builder after a series of additions. -/
def addAll : Builder → List Nat → Option Builder
  | b, [] => some b
  | b, t :: r => (b.add t).bind (fun b' => addAll b' r)

/-- **C129.**  A builder makes one token of all that was added, in the order of destruction asked for; after that it refuses everything. -/
theorem builder_once (ts : List Nat) (forward : Bool) : ∃ b, addAll Builder.new ts = some b ∧
    b.convert forward = some (.make (if forward then ts else ts.reverse), none) ∧
    ∀ t f, Builder.add none t = none ∧ Builder.convert none f = none := by
  have key : ∀ (ts pre : List Nat), addAll (some pre) ts = some (some (pre ++ ts)) := by
    intro ts
    induction ts with
    | nil => intro pre; simp [addAll]
    | cons t r ih => intro pre; simp [addAll, Builder.add, ih]
  refine ⟨some ts, by simpa [Builder.new] using key ts [], ?_, fun t f => ⟨rfl, rfl⟩⟩
  simp only [Builder.convert, Option.map_some]
  obtain ⟨h1, h2⟩ := popOrder_spec ts.length ts (Nat.le_refl _)
  cases forward
  · rw [h2]; simp
  · rw [h1]; simp

/-- Leaves as a forest. -/
def leaves : List Nat → Spec.Forest
  | [] => .nil
  | t :: r => .cons t .nil (leaves r)

theorem leaves_spec : ∀ (ts : List Nat), (leaves ts).roots = ts ∧ (leaves ts).all = ts := by
  intro ts
  induction ts with
  | nil => exact ⟨rfl, rfl⟩
  | cons t r ih => exact ⟨by simp [leaves, Spec.Forest.roots, ih.1], by simp [leaves, Spec.Forest.all, ih.2]⟩

theorem leaves_in {s : State} : ∀ (ts : List Nat), (∀ t ∈ ts, s.nodes[t]? = some ⟨[], 1⟩) → (leaves ts).In s := by
  intro ts
  induction ts with
  | nil => intro _; trivial
  | cons t r ih => intro h; exact ⟨h t (by simp), trivial, ih (fun x hx => h x (by simp [hx]))⟩

theorem takeAll_some : ∀ {kids ext : List Nat}, kids.Nodup → (∀ k ∈ kids, k ∈ ext) → ∃ e, takeAll ext kids = some e := by
  intro kids
  induction kids with
  | nil => intro ext _ _; exact ⟨ext, rfl⟩
  | cons k r ih =>
    intro ext hn hk
    obtain ⟨n1, n2⟩ := List.nodup_cons.mp hn
    simp only [takeAll, List.contains_iff_mem.mpr (hk k (by simp)), if_true]
    refine ih n2 ?_
    intro x hx
    have : x ≠ k := fun e => n1 (e ▸ hx)
    exact (List.mem_erase_of_ne this).mpr (hk x (by simp [hx]))

theorem run_snoc : ∀ (as : List Act) (s0 s1 : State), run s0 as = some s1 → ∀ b, run s0 (as ++ [b]) = step s1 b := by
  intro as
  induction as with
  | nil => intro s0 s1 h b; simp only [run] at h; cases h; simp only [List.nil_append, run]; cases step s0 b <;> rfl
  | cons a r ih =>
    intro s0 s1 h b
    simp only [run, List.cons_append] at h ⊢
    cases hs : step s0 a with
    | none => rw [hs] at h; cases h
    | some s2 => rw [hs] at h; simp only []; exact ih s2 s1 h b

/-- **C129.**  Cleanup tokens gathered in a multi token run when it goes, in the order asked for: as added, or the other way round. -/
theorem multi_token_order {as : List Act} {s : State} (h : run State.init as = some s) {ts : List Nat} (hn : ts.Nodup) (he : ∀ t ∈ ts, t ∈ s.ext)
    (hl : ∀ t ∈ ts, s.nodes[t]? = some ⟨[], 1⟩) (forward : Bool) :
    ∃ b a s', addAll Builder.new ts = some b ∧ b.convert forward = some (a, none) ∧ run s [a, .drop s.nodes.length] = some s' ∧
      s'.log = s.log ++ s.nodes.length :: (if forward then ts else ts.reverse) := by
  obtain ⟨b, hb1, hb2, _⟩ := builder_once ts forward
  have hk : ∃ ks, ks = (if forward then ts else ts.reverse) ∧ ks.Nodup ∧ (∀ t ∈ ks, t ∈ s.ext) ∧ (∀ t ∈ ks, s.nodes[t]? = some ⟨[], 1⟩) := by
    refine ⟨_, rfl, ?_, ?_, ?_⟩
    · cases forward
      · simp only [Bool.false_eq_true, if_false]
        exact List.pairwise_reverse.mpr (List.Pairwise.imp (fun h => Ne.symm h) hn)
      · simpa using hn
    · cases forward <;> simpa using he
    · cases forward <;> simpa using hl
  obtain ⟨ks, e, k1, k2, k3⟩ := hk
  rw [← e] at hb2 ⊢
  obtain ⟨e', he'⟩ := takeAll_some k1 k2
  have hmake : step s (.make ks) = some ⟨s.nodes ++ [⟨ks, 1⟩], e' ++ [s.nodes.length], s.log⟩ := by simp only [step, he']
  have hrun : run State.init (as ++ [.make ks]) = some ⟨s.nodes ++ [⟨ks, 1⟩], e' ++ [s.nodes.length], s.log⟩ := by
    rw [run_snoc as _ _ h]; exact hmake
  obtain ⟨⟨s', hs', _⟩, _⟩ := drop_possible hrun (x := s.nodes.length) (by simp)
  refine ⟨b, _, s', hb1, hb2, by simp only [run, hmake, hs'], ?_⟩
  have hlt : ∀ t ∈ ks, t < s.nodes.length := fun t ht => (List.getElem?_eq_some_iff.mp (k3 t ht)).1
  have := drop_order hrun (x := s.nodes.length) (kids := leaves ks) ⟨by simp [(leaves_spec ks).1], leaves_in ks (fun t ht => by
      simp only []; rw [List.getElem?_append_left (hlt t ht)]; exact k3 t ht), trivial⟩ (by
      simp only [Spec.Forest.all, (leaves_spec ks).2, List.append_nil]
      exact List.nodup_cons.mpr ⟨fun hm => by have := hlt _ hm; omega, k1⟩) hs'
  rw [this]
  simp [Spec.Forest.all, (leaves_spec ks).2]

/-! ### Attached tokens -/

theorem forest_lt {s : State} : ∀ (f : Spec.Forest), f.In s → ∀ x ∈ f.all, x < s.nodes.length
  | .nil, _, x, hx => by simp [Spec.Forest.all] at hx
  | .cons id kids rest, hf, x, hx => by
    obtain ⟨a, b, c⟩ := hf
    simp only [Spec.Forest.all, List.mem_cons, List.mem_append] at hx
    rcases hx with rfl | hx | hx
    · exact (List.getElem?_eq_some_iff.mp a).1
    · exact forest_lt kids b x hx
    · exact forest_lt rest c x hx

theorem takeAll_mem : ∀ {kids ext e : List Nat}, takeAll ext kids = some e → ∀ x, x ∈ ext → x ∉ kids → x ∈ e := by
  intro kids ext e h x hx hk
  have h1 := takeAll_count h x
  have h2 := List.count_pos_iff.mpr hx
  have h3 := List.count_eq_zero.mpr hk
  exact List.count_pos_iff.mp (by omega)

theorem attach_build (m : Nat) : ∀ (ts : List Nat) (as : List Act) (s : State) (q : Nat) (F : Spec.Forest), run State.init as = some s →
    (Spec.Forest.cons q F .nil).In s → (Spec.Forest.cons q F .nil).all.Nodup → q ∈ s.ext → m ≤ s.nodes.length → ts.Nodup → (∀ t ∈ ts, t ∈ s.ext) →
    (∀ t ∈ ts, s.nodes[t]? = some ⟨[], 1⟩) → (∀ t ∈ ts, t < m ∧ t ∉ (Spec.Forest.cons q F .nil).all) →
    ∃ s1 q1 F1, run s (attachAll s.nodes.length q ts) = some s1 ∧ run State.init (as ++ attachAll s.nodes.length q ts) = some s1 ∧
      (Spec.Forest.cons q1 F1 .nil).In s1 ∧ (Spec.Forest.cons q1 F1 .nil).all.Nodup ∧
      q1 ∈ s1.ext ∧ s1.log = s.log ∧ ((ts = [] → q1 = q) ∧ (ts ≠ [] → q1 = s.nodes.length + ts.length - 1)) ∧
      (Spec.Forest.cons q1 F1 .nil).all.filter (· < m) = ts.reverse ++ (Spec.Forest.cons q F .nil).all.filter (· < m) := by
  intro ts
  induction ts with
  | nil =>
    intro as s q F h hf hn hq _ _ _ _ _
    exact ⟨s, q, F, rfl, by simpa [attachAll] using h, hf, hn, hq, rfl, ⟨fun _ => rfl, fun c => absurd rfl c⟩, by simp⟩
  | cons t r ih =>
    intro as s q F h hf hn hq hm hnd he hl hlt
    obtain ⟨n1, n2⟩ := List.nodup_cons.mp hnd
    have ht := hlt t (by simp)
    have htq : t ≠ q := fun e => ht.2 (by simp [Spec.Forest.all, e])
    obtain ⟨e', he'⟩ := takeAll_some (kids := [t, q]) (ext := s.ext) (by simp [htq]) (by
      intro k hk
      simp only [List.mem_cons, List.not_mem_nil, or_false] at hk
      rcases hk with rfl | rfl
      · exact he _ (by simp)
      · exact hq)
    have hmake : step s (.make [t, q]) = some ⟨s.nodes ++ [⟨[t, q], 1⟩], e' ++ [s.nodes.length], s.log⟩ := by simp only [step, he']
    have hrun : run State.init (as ++ [.make [t, q]]) = some ⟨s.nodes ++ [⟨[t, q], 1⟩], e' ++ [s.nodes.length], s.log⟩ := by
      rw [run_snoc as _ _ h]; exact hmake
    have hold : ∀ x, x < s.nodes.length → (s.nodes ++ [⟨[t, q], 1⟩])[x]? = s.nodes[x]? := fun x hx => List.getElem?_append_left hx
    have hall := forest_lt _ hf
    have htl : t < s.nodes.length := by omega
    have hqa : ∀ x, x ∈ (Spec.Forest.cons q F .nil).all ↔ x = q ∨ x ∈ F.all := by intro x; simp [Spec.Forest.all]
    obtain ⟨s1, q1, F1, a1, a2, a3, a4, a5, a6, a7, a8⟩ := ih (as ++ [.make [t, q]]) _ s.nodes.length (.cons t .nil (.cons q F .nil)) hrun
      ⟨by simp [Spec.Forest.roots], ⟨by simp only []; rw [hold t htl]; exact hl t (by simp), trivial,
        in_congr _ (fun x hx => by simp only []; exact hold x (hall x hx)) hf⟩, trivial⟩
      (by
        simp only [Spec.Forest.all, List.nil_append, List.append_nil] at hn ⊢
        refine List.nodup_cons.mpr ⟨?_, List.nodup_cons.mpr ⟨?_, hn⟩⟩
        · intro hc
          simp only [List.mem_cons] at hc
          rcases hc with hc | hc | hc
          · omega
          · have := hall q ((hqa q).mpr (Or.inl rfl)); omega
          · have := hall _ ((hqa _).mpr (Or.inr hc)); omega
        · intro hc
          simp only [List.mem_cons] at hc
          exact ht.2 ((hqa t).mpr hc))
      (by simp) (by simp; omega) n2
      (by
        intro x hx
        have hxq : x ∉ [t, q] := by
          simp only [List.mem_cons, List.not_mem_nil, or_false, not_or]
          exact ⟨fun e => n1 (e ▸ hx), fun e => (hlt x (by simp [hx])).2 (by simp [Spec.Forest.all, e])⟩
        simp only [List.mem_append]
        exact Or.inl (takeAll_mem he' x (he x (by simp [hx])) hxq))
      (by
        intro x hx
        simp only []
        rw [hold x (by have := (hlt x (by simp [hx])).1; omega)]; exact hl x (by simp [hx]))
      (by
        intro x hx
        have hx2 := hlt x (by simp [hx])
        refine ⟨hx2.1, ?_⟩
        simp only [Spec.Forest.all, List.nil_append, List.append_nil, List.mem_cons, not_or]
        have h3 : ¬ (x = q ∨ x ∈ F.all) := fun c => hx2.2 ((hqa x).mpr c)
        exact ⟨by omega, fun e => n1 (e ▸ hx), fun c => h3 (Or.inl c), fun c => h3 (Or.inr c)⟩)
    have hlen : (s.nodes ++ [(⟨[t, q], 1⟩ : Node)]).length = s.nodes.length + 1 := by simp
    simp only [hlen] at a1 a2 a7
    refine ⟨s1, q1, F1, ?_, ?_, a3, a4, a5, a6, ?_, ?_⟩
    · simp only [attachAll, attach, run, hmake]; exact a1
    · simp only [attachAll, attach]
      rw [List.append_assoc] at a2
      exact a2
    · refine ⟨fun c => (by cases c), fun _ => ?_⟩
      cases r with
      | nil => rw [a7.1 rfl]; simp
      | cons u v => rw [a7.2 (by simp)]; simp; omega
    · rw [a8]
      simp only [Spec.Forest.all, List.nil_append, List.append_nil, List.reverse_cons, List.append_assoc, List.singleton_append]
      rw [List.filter_cons_of_neg (by simp; omega), List.filter_cons_of_pos (by simpa using ht.1)]

/-- **C129.**  Tokens attached to an object, one after another, are let go with its last reference: the last attached first, all of them before the object. -/
theorem attach_order {as : List Act} {s : State} (h : run State.init as = some s) {p : Nat} {ts : List Nat} (ht : ts ≠ []) (hn : (p :: ts).Nodup)
    (he : ∀ t ∈ p :: ts, t ∈ s.ext) (hl : ∀ t ∈ p :: ts, s.nodes[t]? = some ⟨[], 1⟩) :
    ∃ s' new, run s (attachAll s.nodes.length p ts ++ [.drop (s.nodes.length + ts.length - 1)]) = some s' ∧
      s'.log = s.log ++ new ∧ new.filter (· < s.nodes.length) = ts.reverse ++ [p] := by
  obtain ⟨n1, n2⟩ := List.nodup_cons.mp hn
  have hlt : ∀ t ∈ p :: ts, t < s.nodes.length := fun t ht => (List.getElem?_eq_some_iff.mp (hl t ht)).1
  obtain ⟨s1, q1, F1, a1, a2, a3, a4, a5, a6, a7, a8⟩ := attach_build s.nodes.length ts as s p .nil h ⟨hl p (by simp), trivial, trivial⟩
    (by simp [Spec.Forest.all]) (he p (by simp)) (Nat.le_refl _) n2 (fun t ht => he t (by simp [ht])) (fun t ht => hl t (by simp [ht]))
    (fun t ht => ⟨hlt t (by simp [ht]), by simp only [Spec.Forest.all, List.append_nil, List.mem_singleton]; exact fun e => n1 (e ▸ ht)⟩)
  have hq := a7.2 ht
  subst hq
  obtain ⟨⟨s', hs', _⟩, _⟩ := drop_possible a2 a5
  refine ⟨s', (Spec.Forest.cons (s.nodes.length + ts.length - 1) F1 .nil).all, by rw [run_snoc _ _ _ a1]; exact hs', ?_, ?_⟩
  · rw [← a6]; exact drop_order a2 a3 a4 hs'
  · rw [a8]
    simp only [Spec.Forest.all, List.append_nil]
    rw [List.filter_cons_of_pos (by simpa using hlt p (by simp))]
    simp

/-! ### A history -/

/-- Three tokens, one of them copied. -/
def demo : List Act := [.make [], .make [], .make [], .copy 0]

example : ∃ s, run State.init demo = some s ∧ s.ext = [0, 1, 2, 0] ∧ (s.nodes.map (·.count)) = [2, 1, 1] := ⟨_, rfl, by decide, by decide⟩

/-- A multi token over the first and the second, the copy of the first lives on. -/
example : ∃ s, run State.init (demo ++ [.make [1, 0], .drop 3]) = some s ∧ s.log = [3, 1] ∧ s.ext = [2, 0] := ⟨_, rfl, by decide, by decide⟩

/-- Tokens 1 and 2 attached to the object 0. -/
example : ∃ s, run State.init ([.make [], .make [], .make []] ++ attachAll 3 0 [1, 2] ++ [.drop 4]) = some s ∧ s.log = [4, 2, 3, 1, 0] := ⟨_, rfl, by decide⟩

end Verif.Token.Compose

import Verif.Holder.ObjectPool
import Verif.Token.ComposeProps
/-
C130: garbage collection of the object pool.
-/
namespace Verif.Holder.ObjectPool

open Verif.Token.Compose (Node Act Inv release refs refs_pos refs_some held)

/-! ### Facts about references -/

abbrev G := Verif.Token.Compose.State

theorem release_ext : ∀ (n : Nat) (g g' : G) (w : List Nat), release n g w = some g' →
    g'.ext = g.ext ∧ g.log <+: g'.log ∧ ∀ e, release n ⟨g.nodes, e, g.log⟩ w = some ⟨g'.nodes, e, g'.log⟩ := by
  intro n
  induction n with
  | zero =>
    intro g g' w h
    cases w with
    | nil => simp only [release] at h; cases h; exact ⟨rfl, List.prefix_rfl, fun e => rfl⟩
    | cons x r => simp only [release] at h; cases h
  | succ n ih =>
    intro g g' w h
    cases w with
    | nil => simp only [release] at h; cases h; exact ⟨rfl, List.prefix_rfl, fun e => rfl⟩
    | cons x r =>
      simp only [release] at h ⊢
      split at h
      · cases h
      · next kids count hx =>
        split at h
        · next hc =>
          obtain ⟨a, b, c⟩ := ih _ _ _ h
          refine ⟨a, List.IsPrefix.trans ⟨[x], rfl⟩ b, fun e => ?_⟩
          rw [if_pos hc]; exact c e
        · next hc =>
          obtain ⟨a, b, c⟩ := ih _ _ _ h
          refine ⟨a, b, fun e => ?_⟩
          rw [if_neg hc]; exact c e

theorem inv_perm {g : G} {e : List Nat} (i : Inv g []) (h : ∀ x, e.count x = g.ext.count x) : Inv ⟨g.nodes, e, g.log⟩ [] :=
  ⟨i.acyclic, fun x n hn => by rw [h x]; exact i.count x n hn, fun x hx => by rw [h x]; exact i.dom x hx, i.log, i.nodup⟩

theorem takeAll_append {pool : List Nat} : ∀ {kids ext e : List Nat}, Token.Compose.takeAll ext kids = some e → Token.Compose.takeAll (ext ++ pool) kids = some (e ++ pool) := by
  intro kids
  induction kids with
  | nil => intro ext e h; simp only [Token.Compose.takeAll] at h ⊢; cases h; rfl
  | cons k r ih =>
    intro ext e h
    simp only [Token.Compose.takeAll] at h ⊢
    split at h
    · next hk =>
      have hm := List.contains_iff_mem.mp hk
      rw [if_pos (List.contains_iff_mem.mpr (by simp [hm])), List.erase_append_left _ hm]
      exact ih h
    · cases h

theorem cstep_inv {nodes : List Node} {user pool log : List Nat} {a : Act} {g : G} (i : Inv ⟨nodes, user ++ pool, log⟩ []) (h : Token.Compose.step ⟨nodes, user, log⟩ a = some g) :
    Inv ⟨g.nodes, g.ext ++ pool, g.log⟩ [] := by
  cases a with
  | make kids =>
    simp only [Token.Compose.step] at h
    split at h
    · cases h
    · next e he =>
      cases h
      have := Token.Compose.step_inv (a := .make kids) (s' := ⟨nodes ++ [⟨kids, 1⟩], e ++ pool ++ [nodes.length], log⟩) i (by simp only [Token.Compose.step, takeAll_append he])
      exact inv_perm (g := ⟨nodes ++ [⟨kids, 1⟩], e ++ pool ++ [nodes.length], log⟩) (e := (e ++ [nodes.length]) ++ pool) this (fun x => by simp only [List.count_append]; omega)
  | copy x =>
    simp only [Token.Compose.step] at h
    split at h
    · next hx =>
      cases h
      have hm := List.contains_iff_mem.mp hx
      have := Token.Compose.step_inv (a := .copy x) (s' := ⟨nodes.modify x (fun n => { n with count := n.count + 1 }), user ++ pool ++ [x], log⟩) i (by
        simp only [Token.Compose.step]
        rw [if_pos (List.contains_iff_mem.mpr (by simp [hm]))])
      exact inv_perm (g := ⟨nodes.modify x (fun n => { n with count := n.count + 1 }), user ++ pool ++ [x], log⟩) (e := (user ++ [x]) ++ pool) this (fun x => by simp only [List.count_append]; omega)
    · cases h
  | drop x =>
    simp only [Token.Compose.step] at h
    split at h
    · next hx =>
      have hm := List.contains_iff_mem.mp hx
      obtain ⟨a1, _, a2⟩ := release_ext _ _ _ _ h
      have := Token.Compose.step_inv (a := .drop x) i (by
        simp only [Token.Compose.step]
        rw [if_pos (List.contains_iff_mem.mpr (by simp [hm])), List.erase_append_left _ hm]
        exact a2 _)
      simp only [] at a1
      rw [a1]; exact this
    · cases h

/-! ### The loop -/

theorem loop_spec : ∀ (todo : List Nat) (g : G) (kept : List Nat), Inv ⟨g.nodes, g.ext ++ (kept ++ todo), g.log⟩ [] →
    ∃ g' K, collectLoop g kept todo = some (g', kept ++ K) ∧ Inv ⟨g'.nodes, g'.ext ++ (kept ++ K), g'.log⟩ [] ∧ g'.ext = g.ext ∧ K.Sublist todo ∧
      g'.nodes.length = g.nodes.length ∧ (∀ (x : Nat) (m : Node), g.nodes[x]? = some m → ∃ c, g'.nodes[x]? = some ⟨m.kids, c⟩) ∧ g.log <+: g'.log ∧
      (K.length = todo.length → g' = g ∧ K = todo ∧ ∀ x ∈ todo, ∀ n, g.nodes[x]? = some n → n.count ≠ 1) ∧
      (∀ x ∈ todo, (g.ext ++ (kept ++ todo)).count x = 1 → refs g.nodes x = 0 → x ∈ g'.log) := by
  intro todo
  induction todo with
  | nil =>
    intro g kept i
    exact ⟨g, [], by simp [collectLoop], i, rfl, .slnil, rfl, fun x m hm => ⟨m.count, hm⟩, List.prefix_rfl, fun _ => ⟨rfl, rfl, fun x hx => by cases hx⟩, fun x hx => by cases hx⟩
  | cons x r ih =>
    intro g kept i
    have hxm : x ∈ g.ext ++ (kept ++ x :: r) := by simp
    have hxl : x < g.nodes.length := by
      rcases Nat.lt_or_ge x g.nodes.length with hc | hc
      · exact hc
      · have h1 := i.dom x hc
        have h2 := List.count_pos_iff.mpr hxm
        simp only [] at h1
        omega
    have hx := List.getElem?_eq_getElem hxl
    by_cases hc : g.nodes[x].count = 1
    · -- destroyed
      have hd := Token.Compose.drop_inv i hxm
      obtain ⟨⟨g2, hg2, he2⟩, _⟩ := Token.Compose.inv_drop i hxm
      have hcx := i.count x _ hx
      simp only [List.count_nil] at hcx
      simp only [Token.Compose.step, List.contains_iff_mem.mpr hxm, if_true] at hg2
      obtain ⟨_, r2, r3, r4⟩ := Token.Compose.release_inv _ _ _ _ hd hg2
      obtain ⟨_, p2, p3⟩ := release_ext _ _ _ _ hg2
      have hi2 := (Token.Compose.release_inv _ _ _ _ hd hg2).1
      have hrel : release g.work g [x] = some ⟨g2.nodes, g.ext, g2.log⟩ := p3 g.ext
      have hin : Inv ⟨g2.nodes, g.ext ++ (kept ++ r), g2.log⟩ [] := inv_perm hi2 (fun z => by
        rw [he2]
        simp only [List.count_erase, List.count_append, List.count_cons]
        by_cases hxz : x = z
        · subst hxz; simp; omega
        · have hb : (x == z) = false := by simpa using hxz
          have hb2 : (z == x) = false := by simpa using (Ne.symm hxz)
          simp [hb, hb2])
      obtain ⟨g', K, a1, a2, a3, a4, a5, a6, a7, a8, a9⟩ := ih ⟨g2.nodes, g.ext, g2.log⟩ kept hin
      refine ⟨g', K, ?_, a2, a3, .cons _ a4, ?_, ?_, ?_, ?_, ?_⟩
      · simp only [collectLoop, hx, hc, if_true, hrel]; exact a1
      · rw [a5]; exact r3
      · intro y m hm
        obtain ⟨c, h1⟩ := r4 y m hm
        obtain ⟨c', h2⟩ := a6 y _ h1
        exact ⟨c', h2⟩
      · exact List.IsPrefix.trans p2 a7
      · intro hl
        have := a4.length_le
        simp only [List.length_cons] at hl
        omega
      · intro z hz h1 h2
        by_cases hzx : z = x
        · subst hzx
          apply a7.subset
          -- x is destroyed
          have hlog : z ∈ g2.log := by
            obtain ⟨c', h3⟩ := r4 z _ hx
            have h4 := hi2.count z _ h3
            refine (hi2.log z).mpr ⟨_, h3, ?_⟩
            simp only [List.count_nil] at h4
            rw [he2, List.count_erase] at h4
            simp only [] at h4
            rw [h1] at h4
            have h5 : refs g2.nodes z = 0 := by
              refine Nat.eq_zero_of_not_pos fun hp => ?_
              obtain ⟨y, m, q1, q2, q3⟩ := refs_some hp
              have hyl := (List.getElem?_eq_some_iff.mp q1).1
              have hy := List.getElem?_eq_getElem (show y < g.nodes.length by simp only [] at r3; omega)
              obtain ⟨c2, q4⟩ := r4 y _ hy
              rw [q1] at q4; injection q4 with q4; subst q4
              have h0 : g.nodes[y].count = 0 := by
                refine Classical.byContradiction fun hne => ?_
                have := refs_pos hy hne q3
                omega
              have h6 := (i.log y).mpr ⟨_, hy, h0⟩
              obtain ⟨m', w1, w2⟩ := (hi2.log y).mp (p2.subset h6)
              rw [q1] at w1; injection w1 with w1; subst w1
              exact q2 w2
            simp only [beq_self_eq_true, if_true] at h4
            rw [h5] at h4
            omega
          exact hlog
        · have hzr : z ∈ r := by
            rcases List.mem_cons.mp hz with h | h
            · exact absurd h hzx
            · exact h
          refine a9 z hzr ?_ ?_
          · simp only [List.count_append, List.count_cons] at h1 ⊢
            have hb : (x == z) = false := by simpa using (Ne.symm hzx)
            simpa [hb] using h1
          · refine Nat.eq_zero_of_not_pos fun hp => ?_
            obtain ⟨y, m, q1, q2, q3⟩ := refs_some hp
            have hyl := (List.getElem?_eq_some_iff.mp q1).1
            have hy := List.getElem?_eq_getElem (show y < g.nodes.length by simp only [] at r3 hyl; omega)
            obtain ⟨c2, q4⟩ := r4 y _ hy
            rw [q1] at q4; injection q4 with q4; subst q4
            have h0 : g.nodes[y].count = 0 := by
              refine Classical.byContradiction fun hne => ?_
              have := refs_pos hy hne q3
              omega
            have h6 := (i.log y).mpr ⟨_, hy, h0⟩
            obtain ⟨m', w1, w2⟩ := (hi2.log y).mp (p2.subset h6)
            rw [q1] at w1; injection w1 with w1; subst w1
            exact q2 w2
    · -- kept
      obtain ⟨g', K, a1, a2, a3, a4, a5, a6, a7, a8, a9⟩ := ih g (kept ++ [x]) (by simpa using i)
      refine ⟨g', x :: K, ?_, by simpa using a2, a3, .cons₂ _ a4, a5, a6, a7, ?_, ?_⟩
      · simp only [collectLoop, hx, hc, if_false]; simpa using a1
      · intro hl
        obtain ⟨b1, b2, b3⟩ := a8 (by simpa using hl)
        refine ⟨b1, by rw [b2], fun z hz n hn => ?_⟩
        rcases List.mem_cons.mp hz with rfl | hz
        · rw [hx] at hn; injection hn with hn; subst hn; exact hc
        · exact b3 z hz n hn
      · intro z hz h1 h2
        by_cases hzx : z = x
        · subst hzx
          exfalso
          have h3 := i.count z _ hx
          simp only [List.count_nil] at h3
          omega
        · have hzr : z ∈ r := by
            rcases List.mem_cons.mp hz with h | h
            · exact absurd h hzx
            · exact h
          exact a9 z hzr (by simpa using h1) h2

/-! ### Histories -/

def whole (s : State) : G := ⟨s.nodes, s.user ++ s.pool, s.log⟩

theorem step_inv {s s' : State} {a : Op} (i : Inv (whole s) []) (h : step s a = some s') : Inv (whole s') [] := by
  cases a with
  | user a =>
    simp only [step] at h
    split at h
    · cases h
    · next g hg => cases h; exact cstep_inv i hg
  | add x =>
    simp only [step] at h
    split at h
    · next hx =>
      cases h
      have hm := List.contains_iff_mem.mp hx
      have := Token.Compose.step_inv (s := whole s) (a := .copy x) (s' := ⟨s.nodes.modify x (fun n => { n with count := n.count + 1 }), s.user ++ s.pool ++ [x], s.log⟩) i (by
        simp only [Token.Compose.step, whole]
        exact if_pos (List.contains_iff_mem.mpr (List.mem_append_left _ hm)))
      simpa [whole] using this
    · cases h
  | collect =>
    simp only [step] at h
    split at h
    · cases h
    · next g kept hg =>
      cases h
      obtain ⟨g', K, a1, a2, a3, _⟩ := loop_spec s.pool ⟨s.nodes, s.user, s.log⟩ [] (by simpa [whole] using i)
      rw [a1] at hg
      injection hg with hg
      injection hg with h1 h2
      subst h1 h2
      exact a2

theorem run_inv : ∀ {as : List Op} {s s' : State}, Inv (whole s) [] → run s as = some s' → Inv (whole s') [] := by
  intro as
  induction as with
  | nil => intro s s' i h; simp only [run] at h; cases h; exact i
  | cons a r ih =>
    intro s s' i h
    simp only [run] at h
    split at h
    · cases h
    · next s1 h1 => exact ih (step_inv i h1) h

theorem reach_inv {as : List Op} {s : State} (h : run State.init as = some s) : Inv (whole s) [] := run_inv (s := State.init) Token.Compose.inv_init h

/-! ### Properties -/

/-- What can be reached from a list of references: these, and what is held by something that can be reached. -/
inductive Spec.From (nodes : List Node) (roots : List Nat) : Nat → Prop where
  | root {x : Nat} : x ∈ roots → From nodes roots x
  | kid {x y : Nat} {n : Node} : From nodes roots y → nodes[y]? = some n → x ∈ n.kids → From nodes roots x

theorem from_reach {s : State} {x : Nat} : Spec.From s.nodes (s.user ++ s.pool) x ↔ Token.Compose.Spec.Reach (whole s) x := by
  constructor
  · intro h
    induction h with
    | root hx => exact .own hx
    | kid _ hn hk ih => exact .kid ih hn hk
  · intro h
    induction h with
    | own hx => exact .root hx
    | kid _ hn hk ih => exact .kid ih hn hk

/-- **C130.**  In every history of a program with a pool: exactly the objects that can be reached neither from the user's references nor from the pool are destroyed, none twice. -/
theorem destroyed_exactly {as : List Op} {s : State} (h : run State.init as = some s) :
    (∀ x, x < s.nodes.length → (x ∈ s.log ↔ ¬ Spec.From s.nodes (s.user ++ s.pool) x)) ∧ s.log.Nodup := by
  obtain ⟨h1, h2⟩ := Token.Compose.inv_destroyed (reach_inv h)
  exact ⟨fun x hx => (h1 x hx).trans (not_congr from_reach.symm), h2⟩

theorem from_mono {nodes nodes' : List Node} {roots roots' : List Nat} (hr : ∀ x ∈ roots, x ∈ roots') (hn : ∀ (x : Nat) (m : Node), nodes[x]? = some m → ∃ c, nodes'[x]? = some ⟨m.kids, c⟩)
    {x : Nat} (h : Spec.From nodes roots x) : Spec.From nodes' roots' x := by
  induction h with
  | root hx => exact .root (hr _ hx)
  | kid _ hy hk ih =>
    obtain ⟨c, hc⟩ := hn _ _ hy
    exact .kid ih hc hk

theorem collect_inv {s : State} (i : Inv (whole s) []) : ∃ s', step s .collect = some s' ∧ s'.user = s.user ∧ s'.pool.Sublist s.pool ∧ s'.nodes.length = s.nodes.length ∧
    (∀ (x : Nat) (m : Node), s.nodes[x]? = some m → ∃ c, s'.nodes[x]? = some ⟨m.kids, c⟩) ∧ s.log <+: s'.log ∧
    (s'.pool.length = s.pool.length → s' = s ∧ ∀ x ∈ s.pool, ∀ n, s.nodes[x]? = some n → n.count ≠ 1) ∧
    (∀ x ∈ s.pool, (s.user ++ s.pool).count x = 1 → refs s.nodes x = 0 → x ∈ s'.log) := by
  obtain ⟨g', K, a1, a2, a3, a4, a5, a6, a7, a8, a9⟩ := loop_spec s.pool ⟨s.nodes, s.user, s.log⟩ [] (by simpa [whole] using i)
  simp only [List.nil_append] at a1 a2
  refine ⟨⟨g'.nodes, g'.ext, K, g'.log⟩, by simp only [step, a1], a3, a4, a5, a6, a7, ?_, ?_⟩
  · intro hl
    obtain ⟨b1, b2, b3⟩ := a8 hl
    subst b1 b2
    exact ⟨rfl, b3⟩
  · intro x hx h1 h2
    exact a9 x hx (by simpa using h1) h2

/-- **C130.**  `CollectGarbage` always succeeds, leaves the user's references alone, adds nothing to the pool, destroys nothing the user can reach, and
destroys every object of the pool to which the pool has the only reference. -/
theorem collect_spec {as : List Op} {s : State} (h : run State.init as = some s) : ∃ s', step s .collect = some s' ∧ s'.user = s.user ∧ s'.pool.Sublist s.pool ∧
    (∀ x, Spec.From s.nodes s.user x → x ∉ s'.log) ∧
    (∀ x ∈ s.pool, s.pool.count x = 1 → x ∉ s.user → (∀ (y : Nat) (n : Node), s.nodes[y]? = some n → Spec.From s.nodes (s.user ++ s.pool) y → x ∉ n.kids) → x ∈ s'.log ∧ x ∉ s'.pool) := by
  have i := reach_inv h
  obtain ⟨s', a1, a2, a3, a4, a5, a6, a7, a8⟩ := collect_inv i
  have i' := step_inv i a1
  have hd := (Token.Compose.inv_destroyed i').1
  have alive : ∀ x, Spec.From s'.nodes (s'.user ++ s'.pool) x → x ∉ s'.log := by
    intro x hx hl
    have hlt : x < s'.nodes.length := by
      obtain ⟨n, hn, _⟩ := (i'.log x).mp hl
      exact (List.getElem?_eq_some_iff.mp hn).1
    exact (hd x hlt).mp hl (from_reach.mp hx)
  refine ⟨s', a1, a2, a3, ?_, ?_⟩
  · intro x hx
    exact alive x (from_mono (by rw [a2]; intro z hz; simp [hz]) a5 hx)
  · intro x hx h1 h2 h3
    have hl : x ∈ s'.log := by
      refine a8 x hx ?_ ?_
      · rw [List.count_append, List.count_eq_zero.mpr h2, h1]
      · refine Nat.eq_zero_of_not_pos fun hp => ?_
        obtain ⟨y, m, q1, q2, q3⟩ := refs_some hp
        refine h3 y m q1 ?_ q3
        refine Classical.byContradiction fun hne => ?_
        have hyl := (List.getElem?_eq_some_iff.mp q1).1
        have := ((Token.Compose.inv_destroyed i).1 y hyl).mpr (fun hr => hne (from_reach.mpr hr))
        obtain ⟨n, hn, h0⟩ := (i.log y).mp this
        rw [show (whole s).nodes = s.nodes from rfl, q1] at hn; injection hn with hn; subst hn
        exact q2 h0
    exact ⟨hl, fun hp => alive x (.root (by simp [hp])) hl⟩

theorem fixpoint_reach {s : State} (i : Inv (whole s) []) (hn : s.pool.Nodup) (hc : ∀ x ∈ s.pool, ∀ n, s.nodes[x]? = some n → n.count ≠ 1) :
    ∀ x, Spec.From s.nodes (s.user ++ s.pool) x → Spec.From s.nodes s.user x := by
  have key : ∀ k x, s.nodes.length - x ≤ k → x ∈ s.pool → Spec.From s.nodes s.user x := by
    intro k
    induction k with
    | zero =>
      intro x hx hp
      have hd := i.dom x (by simp only [whole]; omega)
      have := List.count_pos_iff.mpr (show x ∈ s.user ++ s.pool by simp [hp])
      simp only [whole] at hd
      omega
    | succ k ih =>
      intro x hx hp
      have hxl : x < s.nodes.length := by
        rcases Nat.lt_or_ge x s.nodes.length with hc | hc
        · exact hc
        · have hd := i.dom x hc
          have := List.count_pos_iff.mpr (show x ∈ s.user ++ s.pool by simp [hp])
          simp only [whole] at hd
          omega
      have he := List.getElem?_eq_getElem hxl
      have h1 := i.count x _ he
      have h2 := hc x hp _ he
      have h3 : s.pool.count x = 1 := by
        have ha := List.nodup_iff_count.mp hn x
        have hb := List.count_pos_iff.mpr hp
        omega
      simp only [whole, List.count_append, List.count_nil, h3] at h1
      by_cases hu : x ∈ s.user
      · exact .root hu
      · rw [List.count_eq_zero.mpr hu] at h1
        obtain ⟨y, m, q1, q2, q3⟩ := refs_some (z := x) (nodes := s.nodes) (by omega)
        have hyx := i.acyclic y m q1 x q3
        have hyl := (List.getElem?_eq_some_iff.mp q1).1
        have hy : Spec.From s.nodes (s.user ++ s.pool) y := by
          refine Classical.byContradiction fun hne => ?_
          have := ((Token.Compose.inv_destroyed i).1 y hyl).mpr (fun hr => hne (from_reach.mpr hr))
          obtain ⟨n, hn, h0⟩ := (i.log y).mp this
          rw [show (whole s).nodes = s.nodes from rfl, q1] at hn; injection hn with hn; subst hn
          exact q2 h0
        -- from y up to a root
        have up : ∀ y, Spec.From s.nodes (s.user ++ s.pool) y → Spec.From s.nodes s.user y ∨ ∃ z ∈ s.pool, y ≤ z ∧ Spec.From s.nodes [z] y := by
          intro y hy
          induction hy with
          | root hx =>
            rename_i x
            rcases List.mem_append.mp hx with h | h
            · exact Or.inl (.root h)
            · exact Or.inr ⟨x, h, Nat.le_refl _, .root (by simp)⟩
          | kid _ hn hk ih =>
            rename_i x' y' n'
            rcases ih with h | ⟨z, h1, h2, h3⟩
            · exact Or.inl (.kid h hn hk)
            · have := i.acyclic _ _ hn _ hk
              exact Or.inr ⟨z, h1, by omega, .kid h3 hn hk⟩
        have trans : ∀ z y, Spec.From s.nodes s.user z → Spec.From s.nodes [z] y → Spec.From s.nodes s.user y := by
          intro z y hz hy
          induction hy with
          | root hx => simp at hx; subst hx; exact hz
          | kid _ hn hk ih => exact .kid ih hn hk
        refine .kid ?_ q1 q3
        rcases up y hy with h | ⟨z, h1, h2, h3⟩
        · exact h
        · exact trans z y (ih z (by omega) h1) h3
  intro x hx
  induction hx with
  | root hx =>
    rcases List.mem_append.mp hx with h | h
    · exact .root h
    · exact key _ _ (Nat.le_refl _) h
  | kid _ hn hk ih => exact .kid ih hn hk

theorem collect_times : ∀ (k : Nat) {s : State}, Inv (whole s) [] → s.pool.Nodup → s.pool.length ≤ k → ∃ s', run s (List.replicate k .collect) = some s' ∧ s'.user = s.user ∧
    s'.nodes.length = s.nodes.length ∧ (∀ (x : Nat) (m : Node), s'.nodes[x]? = some m → ∃ c, s.nodes[x]? = some ⟨m.kids, c⟩) ∧ s'.pool.Nodup ∧
    (∀ x ∈ s'.pool, ∀ n, s'.nodes[x]? = some n → n.count ≠ 1) := by
  intro k
  induction k with
  | zero =>
    intro s i hn hl
    have : s.pool = [] := List.length_eq_zero_iff.mp (by omega)
    exact ⟨s, rfl, rfl, rfl, fun x m hm => ⟨m.count, hm⟩, hn, by rw [this]; intro x hx; cases hx⟩
  | succ k ih =>
    intro s i hn hl
    obtain ⟨s1, a1, a2, a3, a4, a5, a6, a7, a8⟩ := collect_inv i
    have i1 := step_inv i a1
    rcases Nat.lt_or_ge s1.pool.length s.pool.length with hlt | hge
    · obtain ⟨s2, b1, b2, b3, b4, b5⟩ := ih i1 (List.Nodup.sublist a3 hn) (by omega)
      refine ⟨s2, by simp only [List.replicate_succ, run, a1]; exact b1, by rw [b2, a2], by rw [b3, a4], ?_, b5⟩
      intro x m hm
      obtain ⟨c, h1⟩ := b4 x m hm
      have hxl := (List.getElem?_eq_some_iff.mp h1).1
      have he := List.getElem?_eq_getElem (show x < s.nodes.length by omega)
      obtain ⟨c2, h2⟩ := a5 x _ he
      rw [h1] at h2; injection h2 with h2
      injection h2 with h2 h3
      exact ⟨s.nodes[x].count, by rw [he, h2]⟩
    · have heq : s1.pool.length = s.pool.length := by have := a3.length_le; omega
      obtain ⟨b1, b2⟩ := a7 heq
      subst b1
      have stay : ∀ j, run s1 (List.replicate j .collect) = some s1 := by
        intro j
        induction j with
        | zero => rfl
        | succ j ihj => simp only [List.replicate_succ, run, a1]; exact ihj
      exact ⟨s1, stay _, rfl, rfl, fun x m hm => ⟨m.count, hm⟩, hn, b2⟩

/-- **C130 (for pools to which no object was added twice).**  Calling `CollectGarbage` as many times as the pool has objects destroys everything the user cannot reach;
what stays in the pool the user can reach. -/
theorem collect_eventually_partial {as : List Op} {s : State} (h : run State.init as = some s) (hn : s.pool.Nodup) {k : Nat} (hk : s.pool.length ≤ k) :
    ∃ s', run s (List.replicate k .collect) = some s' ∧ s'.user = s.user ∧ (∀ x, x < s.nodes.length → (x ∈ s'.log ↔ ¬ Spec.From s.nodes s.user x)) ∧
      ∀ x ∈ s'.pool, Spec.From s.nodes s.user x := by
  have i := reach_inv h
  obtain ⟨s', a1, a2, a3, a4, a5, a6⟩ := collect_times k i hn hk
  have i' := run_inv i a1
  have hf := fixpoint_reach i' a5 a6
  have back : ∀ x, Spec.From s'.nodes s'.user x → Spec.From s.nodes s.user x := fun x hx => from_mono (by rw [a2]; exact fun _ h => h) a4 hx
  have forth : ∀ x, Spec.From s.nodes s.user x → Spec.From s'.nodes (s'.user ++ s'.pool) x := by
    intro x hx
    refine from_mono (by rw [a2]; intro z hz; simp [hz]) ?_ hx
    intro y m hm
    have hyl := (List.getElem?_eq_some_iff.mp hm).1
    have he := List.getElem?_eq_getElem (show y < s'.nodes.length by omega)
    obtain ⟨c, h1⟩ := a4 y _ he
    rw [hm] at h1; injection h1 with h1; subst h1
    exact ⟨s'.nodes[y].count, he⟩
  refine ⟨s', a1, a2, ?_, fun x hx => back x (hf x (.root (by simp [hx])))⟩
  intro x hx
  refine ((Token.Compose.inv_destroyed i').1 x (by simp only [whole]; omega)).trans ((not_congr from_reach.symm).trans ?_)
  constructor
  · intro hne hr; exact hne (forth x hr)
  · intro hne hr; exact hne (back x (hf x hr))

/-- **C130, violated**: an object added twice is never collected, however often: each of the two holders finds the reference of the other. -/
theorem added_twice_violated : ∃ s, run State.init [.user (.make []), .add 0, .add 0, .user (.drop 0)] = some s ∧ s.user = [] ∧
    ∀ k, run s (List.replicate k .collect) = some s ∧ s.log = [] := by
  refine ⟨⟨[⟨[], 2⟩], [], [0, 0], []⟩, rfl, rfl, ?_⟩
  intro k
  refine ⟨?_, rfl⟩
  induction k with
  | zero => rfl
  | succ k ih => simp only [List.replicate_succ, run]; exact ih

/-- One call is not enough if what is held comes first: object 1 holds object 0. -/
example : ∃ s, run State.init [.user (.make []), .add 0, .user (.make [0]), .add 1, .user (.drop 1), .collect] = some s ∧ s.pool = [0] ∧ s.log = [1] := ⟨_, rfl, by decide, by decide⟩
example : ∃ s, run State.init [.user (.make []), .add 0, .user (.make [0]), .add 1, .user (.drop 1), .collect, .collect] = some s ∧ s.pool = [] ∧ s.log = [1, 0] := ⟨_, rfl, by decide, by decide⟩
/-- An object in use stays. -/
example : ∃ s, run State.init [.user (.make []), .add 0, .user (.make []), .add 1, .user (.drop 1), .collect] = some s ∧ s.pool = [0] ∧ s.log = [1] ∧ s.user = [0] := ⟨_, rfl, by decide, by decide, by decide⟩

end Verif.Holder.ObjectPool

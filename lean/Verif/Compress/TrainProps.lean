import Verif.Compress.TrainLemmas
/-
C160: the training of a PPM dictionary.
-/
namespace Verif.Compress.Train
open Verif.Compress

/-! ### Compactification of two neighbouring levels -/

theorem desc_dropLast {es : List (Nat × List Nat)} (h : Desc es) : Desc es.dropLast :=
  List.Pairwise.sublist (List.dropLast_sublist es) h

theorem remove_weight {b : Bld} {key : List Nat} {pre post : Ctxs} {c : List (Nat × Nat)} (e : b.ctxs = pre ++ (key, c) :: post) (e' : (b.remove key).ctxs = pre ++ post)
    (m : Nat) (suf : List Nat) (t : Nat) :
    Spec.weight m suf t (b.remove key).ctxs + (if Spec.lastOf m key = suf then Spec.count t c else 0) = Spec.weight m suf t b.ctxs := by
  rw [e, e', weight_append, weight_append]
  simp only [Spec.weight]; omega

theorem lastOf_length {m : Nat} {l : List Nat} (h : m ≤ l.length) : (Spec.lastOf m l).length = m := by
  unfold Spec.lastOf; rw [List.length_drop]; omega

theorem pop_spec {last : Bool} {c d : Cmp} (hc : COk false c) (hd : COk last d) (hsz : d.b.size < c.b.size) {e : Nat × List Nat} (he : c.entries.getLast? = some e) :
    ∃ c' d' cc, pop last c d e.2 = some (c', d') ∧ COk false c' ∧ COk last d' ∧ c'.b.size = c.b.size ∧ d'.b.size = d.b.size ∧
      c'.entries = c.entries.dropLast ∧ sum cc = e.1 ∧
      (∃ pre post, c.b.ctxs = pre ++ (e.2, cc) :: post ∧ c'.b.ctxs = pre ++ post) ∧
      (∀ m, m ≤ d.b.size → ∀ suf t, Spec.weight m suf t c'.b.ctxs + Spec.weight m suf t d'.b.ctxs = Spec.weight m suf t c.b.ctxs + Spec.weight m suf t d.b.ctxs) ∧
      d'.b.ctxs.length ≤ d.b.ctxs.length + 1 := by
  obtain ⟨es, hes⟩ := List.getLast?_eq_some_iff.mp he
  have hmem : e ∈ wanted c.b := (hc.perm rfl).mem_iff.mp (by rw [hes]; simp)
  obtain ⟨x, hx, hxe⟩ := List.mem_map.mp hmem
  have hkey : e.2 ∈ c.b.ctxs.map (·.1) := by rw [← hxe]; exact List.mem_map_of_mem hx
  obtain ⟨pre, cc, post, e1, e2, e3, e4, e5⟩ := remove_ok hc.b hkey
  have hsplit := sorted_split (e1 ▸ hc.b.sorted)
  have hsum : sum cc = e.1 := by
    have hx' := hx
    rw [e1, List.mem_append, List.mem_cons] at hx'
    have hx1 : x.1 = e.2 := by rw [← hxe]
    rcases hx' with h | h | h
    · exact absurd (hx1 ▸ List.mem_map_of_mem h) hsplit.1
    · rw [← hxe, h]
    · exact absurd (hx1 ▸ List.mem_map_of_mem h) hsplit.2.1
  have hlen : e.2.length = c.b.size := hc.b.keys (e.2, cc) (by rw [e1]; simp)
  have hcnt := (hc.b.counts (e.2, cc) (by rw [e1]; simp)).1
  have hk' : (e.2.drop (e.2.length - d.b.size)).length = d.b.size := lastOf_length (by omega)
  have hentries : ∀ x ∈ cc, x.1 < 256 ∧ 0 < x.2 := fun x hx => ⟨hcnt.bytes x hx, hcnt.pos x hx⟩
  obtain ⟨d', k1, k2, k3, _, k5, _⟩ := cmp_addAll 0 cc d hd hk' hentries
  refine ⟨⟨c.b.remove e.2, c.entries.dropLast⟩, d', cc, ?_, ?_, k2, e5, k3, rfl, hsum, ⟨pre, post, e1, e3⟩, ?_, k5⟩
  · unfold pop; rw [e2, k1]
  · refine ⟨e4, fun _ => ?_, fun _ => desc_dropLast (hc.desc rfl)⟩
    have h1 : (e :: es).Perm (wanted c.b) := ((List.perm_append_comm (l₁ := [e]) (l₂ := es)).trans (by rw [← hes])).trans (hc.perm rfl)
    have h2 : (wanted c.b).Perm (e :: wanted (c.b.remove e.2)) := by
      unfold wanted
      rw [e1, e3, List.map_append, List.map_cons, List.map_append, hsum]
      exact List.perm_middle
    show c.entries.dropLast.Perm _
    rw [hes, List.dropLast_concat]
    exact (List.perm_cons _).mp (h1.trans h2)
  · intro m hm suf t
    obtain ⟨d2, q1, _, _, q4, _, _⟩ := cmp_addAll m cc d hd hk' hentries
    have : d2 = d' := by rw [q1] at k1; exact Option.some.inj k1
    subst this
    rw [q4]
    have := remove_weight (b := c.b) e1 e3 m suf t
    rw [show Spec.lastOf m (e.2.drop (e.2.length - d.b.size)) = Spec.lastOf m e.2 from lastOf_lastOf e.2 hm]
    simp only [] at *
    omega

/-- The contexts counted at most `t` times go to the level of shorter contexts, the others stay. -/
theorem popLoop_spec (t : Nat) (last : Bool) : ∀ (n : Nat) (c d : Cmp), COk false c → COk last d → d.b.size < c.b.size → c.entries.length ≤ n →
    ∃ c' d', popLoop t last n c d = some (c', d') ∧ COk false c' ∧ COk last d' ∧ c'.b.size = c.b.size ∧ d'.b.size = d.b.size ∧
      c'.b.ctxs = c.b.ctxs.filter (fun x => decide (t < sum x.2)) ∧
      (∀ m, m ≤ d.b.size → ∀ suf s, Spec.weight m suf s c'.b.ctxs + Spec.weight m suf s d'.b.ctxs = Spec.weight m suf s c.b.ctxs + Spec.weight m suf s d.b.ctxs) ∧
      c'.b.ctxs.length + d'.b.ctxs.length ≤ c.b.ctxs.length + d.b.ctxs.length ∧ c'.b.ctxs.length ≤ c.b.ctxs.length ∧
      ((∃ e, c.entries.getLast? = some e ∧ e.1 ≤ t) → c'.b.ctxs.length < c.b.ctxs.length) ∧
      ((∀ e, c.entries.getLast? = some e → t < e.1) → c' = c ∧ d' = d) := by
  intro n
  induction n with
  | zero =>
    intro c d hc hd hsz hn
    have hnil : c.entries = [] := List.length_eq_zero_iff.mp (by omega)
    have hw : c.b.ctxs = [] := by
      have := (hc.perm rfl).length_eq
      rw [hnil] at this
      exact List.length_eq_zero_iff.mp (by simpa [wanted] using this.symm)
    exact ⟨c, d, rfl, hc, hd, rfl, rfl, by rw [hw]; rfl, fun _ _ _ _ => rfl, by omega, by omega, fun ⟨e, he, _⟩ => by simp [hnil] at he, fun _ => ⟨rfl, rfl⟩⟩
  | succ n ih =>
    intro c d hc hd hsz hn
    unfold popLoop
    have stay : (∀ e, c.entries.getLast? = some e → t < e.1) → c.b.ctxs = c.b.ctxs.filter (fun x => decide (t < sum x.2)) := by
      intro hall
      symm
      refine List.filter_eq_self.mpr fun x hx => decide_eq_true ?_
      have hm : (sum x.2, x.1) ∈ c.entries := (hc.perm rfl).mem_iff.mpr (List.mem_map.mpr ⟨x, hx, rfl⟩)
      cases hl : c.entries.getLast? with
      | none => rw [List.getLast?_eq_none_iff.mp hl] at hm; cases hm
      | some e =>
        have he := hall e hl
        obtain ⟨es, hes⟩ := List.getLast?_eq_some_iff.mp hl
        have hd := hc.desc rfl
        rw [hes] at hm hd
        rcases List.mem_append.mp hm with hm | hm
        · have := (List.pairwise_append.mp hd).2.2 _ hm e (by simp)
          simp only at this; omega
        · have := List.mem_singleton.mp hm
          rw [← this] at he; exact he
    cases hl : c.entries.getLast? with
    | none =>
      exact ⟨c, d, rfl, hc, hd, rfl, rfl, stay (by simp [hl]), fun _ _ _ _ => rfl, by omega, by omega, fun ⟨e, he, _⟩ => by simp at he, fun _ => ⟨rfl, rfl⟩⟩
    | some e =>
      simp only []
      by_cases hle : e.1 ≤ t
      · rw [if_pos hle]
        obtain ⟨c1, d1, cc, p1, p2, p3, p4, p5, p6, p7, ⟨pre, post, p8, p9⟩, p10, p11⟩ := pop_spec hc hd hsz hl
        have hlen : c1.b.ctxs.length + 1 = c.b.ctxs.length := by rw [p8, p9]; simp; omega
        obtain ⟨c2, d2, q1, q2, q3, q4, q5, q6, q7, q8, q9, _⟩ := ih c1 d1 p2 p3 (by omega) (by rw [p6, List.length_dropLast]; omega)
        rw [p1]
        refine ⟨c2, d2, q1, q2, q3, by omega, by omega, ?_, ?_, by omega, by omega, fun _ => by omega, ?_⟩
        · rw [q6, p8, p9, List.filter_append, List.filter_append, List.filter_cons, if_neg]
          simp only [decide_eq_true_eq]; omega
        · intro m hm suf s
          rw [q7 m (by omega), p10 m hm]
        · intro h; have := h e rfl; omega
      · rw [if_neg hle]
        refine ⟨c, d, rfl, hc, hd, rfl, rfl, stay ?_, fun _ _ _ _ => rfl, by omega, by omega, ?_, fun _ => ⟨rfl, rfl⟩⟩
        · intro e' he'; rw [hl] at he'; cases he'; omega
        · rintro ⟨e', he', h⟩; cases he'; omega

/-! ### Compactification of all levels -/

/-- the levels of a compactificator are as they should be -/
def Chain (c : Cmp) : List Cmp → Prop
  | [] => COk true c
  | d :: rest => COk false c ∧ d.b.size < c.b.size ∧ Chain d rest

/-- the size of the contexts of the last level -/
def lastSize (n : Nat) : List Nat → Nat
  | [] => n
  | m :: rest => lastSize m rest

theorem chain_head {c : Cmp} : ∀ {rest : List Cmp}, Chain c rest → COk rest.isEmpty c
  | [], h => h
  | _ :: _, h => h.1

theorem chain_replace {d d' : Cmp} : ∀ {rest : List Cmp}, Chain d rest → COk rest.isEmpty d' → d'.b.size = d.b.size → Chain d' rest
  | [], _, h', _ => h'
  | _ :: _, h, h', e => ⟨h', by rw [e]; exact h.2.1, h.2.2⟩

theorem chain_last : ∀ (rest : List Cmp) (c : Cmp), Chain c rest → lastSize c.b.size (rest.map (·.b.size)) ≤ c.b.size
  | [], c, _ => Nat.le_refl _
  | d :: rest, c, h => by
    have := chain_last rest d h.2.2
    have := h.2.1
    simp only [List.map_cons, lastSize]; omega

abbrev blds (c : Cmp) (rest : List Cmp) : List Bld := c.b :: rest.map Cmp.b

theorem rounds_pos : ∀ bs : List Bld, 1 ≤ rounds bs
  | [] => Nat.le_refl _
  | b :: rest => by have := rounds_pos rest; unfold rounds; omega

theorem compactify_spec (t : Nat) : ∀ (rest : List Cmp) (c : Cmp), Chain c rest →
    ∃ c' rest', compactify t c rest = some (c', rest') ∧ Chain c' rest' ∧ (blds c' rest').map Bld.size = (blds c rest).map Bld.size ∧
      (∀ m, m ≤ lastSize c.b.size (rest.map (·.b.size)) → ∀ suf s, Spec.weights m suf s (blds c' rest') = Spec.weights m suf s (blds c rest)) ∧
      rounds (blds c' rest') ≤ rounds (blds c rest) ∧ ((∃ k, minimal c rest = some k ∧ k ≤ t) → rounds (blds c' rest') < rounds (blds c rest)) ∧
      (rest ≠ [] → c'.b.ctxs = c.b.ctxs.filter (fun x => decide (t < sum x.2))) ∧
      (∀ b ∈ (blds c' rest').dropLast, ∀ x ∈ b.ctxs, t < sum x.2)
  | [], c, h => ⟨c, [], rfl, h, rfl, fun _ _ _ _ => rfl, Nat.le_refl _, fun ⟨k, hk, _⟩ => by simp [minimal] at hk, fun h => absurd rfl h, fun b hb => by simp [blds] at hb⟩
  | d :: rest, c, h => by
    obtain ⟨c1, d1, p1, p2, p3, p4, p5, p6, p7, p8, p9, p10, p11⟩ := popLoop_spec t rest.isEmpty c.entries.length c d h.1 (chain_head h.2.2) h.2.1 (Nat.le_refl _)
    have hch := chain_replace h.2.2 p3 p5
    obtain ⟨d2, rest', q1, q2, q3, q4, q5, q6, _, q8⟩ := compactify_spec t rest d1 hch
    have hl : rest'.length = rest.length := by
      have := congrArg List.length q3
      simpa [blds] using this
    have hlast := chain_last rest d h.2.2
    have hr : rounds (blds d1 rest) + c1.b.ctxs.length * 2 ^ rest.length ≤ rounds (blds d rest) + c.b.ctxs.length * 2 ^ rest.length := by
      have : (c1.b.ctxs.length + d1.b.ctxs.length) * 2 ^ rest.length ≤ (c.b.ctxs.length + d.b.ctxs.length) * 2 ^ rest.length := Nat.mul_le_mul_right _ p8
      simp only [Nat.add_mul] at this
      simp only [blds, rounds, List.length_map]
      omega
    have e1 : rounds (blds c1 (d2 :: rest')) = c1.b.ctxs.length * 2 ^ rest.length + c1.b.ctxs.length * 2 ^ rest.length + rounds (blds d2 rest') := by
      simp only [blds, rounds, List.map_cons, List.length_cons, List.length_map, hl, Nat.pow_succ, ← Nat.mul_assoc]; omega
    have e2 : rounds (blds c (d :: rest)) = c.b.ctxs.length * 2 ^ rest.length + c.b.ctxs.length * 2 ^ rest.length + rounds (blds d rest) := by
      simp only [blds, rounds, List.map_cons, List.length_cons, List.length_map, Nat.pow_succ, ← Nat.mul_assoc]; omega
    have hle : c1.b.ctxs.length * 2 ^ rest.length ≤ c.b.ctxs.length * 2 ^ rest.length := Nat.mul_le_mul_right _ p9
    refine ⟨c1, d2 :: rest', by unfold compactify; rw [p1]; simp only []; rw [q1], ⟨p2, ?_, q2⟩, ?_, ?_, by omega, ?_, fun _ => p6, ?_⟩
    · have := List.cons.inj q3
      have h2 : d2.b.size = d1.b.size := this.1
      have := h.2.1
      omega
    · simp only [blds, List.map_cons] at q3 ⊢
      rw [q3, p4, p5]
    · intro m hm suf s
      simp only [List.map_cons, lastSize] at hm
      have h1 := q4 m (by rw [p5]; exact hm) suf s
      have h2 := p7 m (by omega) suf s
      simp only [blds, List.map_cons, Spec.weights] at h1 ⊢
      omega
    · rintro ⟨k, hk, hkt⟩
      by_cases hpop : ∃ e, c.entries.getLast? = some e ∧ e.1 ≤ t
      · have h1 := p10 hpop
        have h2 : c1.b.ctxs.length * 2 ^ rest.length < c.b.ctxs.length * 2 ^ rest.length := Nat.mul_lt_mul_of_pos_right h1 (Nat.two_pow_pos _)
        omega
      · have hno : ∀ e, c.entries.getLast? = some e → t < e.1 := fun e he => by
          rcases Nat.lt_or_ge t e.1 with h | h
          · exact h
          · exact absurd ⟨e, he, h⟩ hpop
        obtain ⟨rfl, rfl⟩ := p11 hno
        have : ∃ k, minimal d1 rest = some k ∧ k ≤ t := by
          unfold minimal at hk
          cases hl : c1.entries.getLast? with
          | none => rw [hl] at hk; exact ⟨k, hk, hkt⟩
          | some e =>
            have := hno e hl
            rw [hl] at hk
            cases hm : minimal d1 rest with
            | none => rw [hm] at hk; simp only [Option.some.injEq] at hk; omega
            | some m => rw [hm] at hk; simp only [Option.some.injEq] at hk; exact ⟨m, rfl, by omega⟩
        have := q6 this
        omega
    · intro b hb x hx
      rcases List.mem_cons.mp (show b ∈ c1.b :: (blds d2 rest').dropLast from hb) with rfl | hb
      · rw [p6] at hx
        exact of_decide_eq_true (List.mem_filter.mp hx).2
      · exact q8 b hb x hx

/-! ### Shrinking -/

/-- the levels of a model builder are as they should be -/
def Levels (bs : List Bld) : Prop := (∀ b ∈ bs, BOk b) ∧ (bs.map Bld.size).Pairwise (· > ·)

theorem chain_levels : ∀ (rest : List Cmp) (c : Cmp), Chain c rest → Levels (blds c rest)
  | [], c, h => ⟨by simp [blds]; exact h.b, by simp [blds]⟩
  | d :: rest, c, h => by
    obtain ⟨h1, h2⟩ := chain_levels rest d h.2.2
    refine ⟨?_, ?_⟩
    · intro b hb
      rcases List.mem_cons.mp hb with rfl | hb
      · exact h.1.b
      · exact h1 b hb
    · have hs := h.2.1
      have h2' := List.pairwise_cons.mp (show (d.b.size :: (rest.map Cmp.b).map Bld.size).Pairwise (· > ·) from h2)
      refine List.pairwise_cons.mpr ⟨?_, h2⟩
      intro y hy
      rcases List.mem_cons.mp (show y ∈ d.b.size :: (rest.map Cmp.b).map Bld.size from hy) with rfl | hy
      · exact hs
      · exact Nat.lt_trans (h2'.1 y hy) hs

/-- `std::sort` with the comparison of the compactificator -/
def Spec.Sort (srt : List (Nat × List Nat) → List (Nat × List Nat)) : Prop := ∀ l, (srt l).Perm l ∧ (srt l).Pairwise fun x y => y.1 ≤ x.1

theorem prepare_ok {srt : List (Nat × List Nat) → List (Nat × List Nat)} (hs : Spec.Sort srt) (last : Bool) {b : Bld} (h : BOk b) : COk last (prepare srt b) :=
  ⟨h, fun _ => (hs _).1, fun _ => (hs _).2⟩

theorem prepare_chain {srt : List (Nat × List Nat) → List (Nat × List Nat)} (hs : Spec.Sort srt) : ∀ (rest : List Bld) (b : Bld), Levels (b :: rest) → Chain (prepare srt b) (rest.map (prepare srt))
  | [], b, h => prepare_ok hs _ (h.1 b (by simp))
  | d :: rest, b, h => by
    have h2 := List.pairwise_cons.mp h.2
    exact ⟨prepare_ok hs _ (h.1 b (by simp)), h2.1 _ (List.mem_cons_self ..), prepare_chain hs rest d ⟨fun x hx => h.1 x (List.mem_cons_of_mem _ hx), h2.2⟩⟩

/-- only the level of the shortest contexts has contexts -/
def Spec.Folded : List Bld → Prop
  | [] => True
  | [_] => True
  | b :: rest => b.ctxs = [] ∧ Spec.Folded rest

theorem minimal_none : ∀ (rest : List Cmp) (c : Cmp), Chain c rest → minimal c rest = none → Spec.Folded (blds c rest)
  | [], _, _, _ => trivial
  | d :: rest, c, h, hm => by
    unfold minimal at hm
    have hnone : c.entries.getLast? = none ∧ minimal d rest = none := by
      cases hl : c.entries.getLast? with
      | none => rw [hl] at hm; exact ⟨rfl, hm⟩
      | some e => rw [hl] at hm; cases hm' : minimal d rest <;> rw [hm'] at hm <;> simp at hm
    refine ⟨?_, minimal_none rest d h.2.2 hnone.2⟩
    have := (h.1.perm rfl).length_eq
    rw [List.getLast?_eq_none_iff.mp hnone.1] at this
    exact List.length_eq_zero_iff.mp (by simpa [wanted] using this.symm)

/-- what compactification keeps -/
structure Spec.Same (bs bs' : List Bld) (m : Nat) : Prop where
  sizes : bs'.map Bld.size = bs.map Bld.size
  weights : ∀ suf s, Spec.weights m suf s bs' = Spec.weights m suf s bs

theorem shrinkLoop_spec (cost : Nat → Nat × Nat) (limit : Nat) : ∀ (n : Nat) (c : Cmp) (cs : List Cmp), Chain c cs → rounds (blds c cs) ≤ n → ∀ m, m ≤ lastSize c.b.size (cs.map (·.b.size)) →
    (∃ bs, shrinkLoop cost limit n c cs = .ok bs ∧ Levels bs ∧ Spec.Same (blds c cs) bs m ∧ memory cost bs ≤ limit) ∨
    (shrinkLoop cost limit n c cs = .error .notInitialized ∧ ∃ bs, Levels bs ∧ Spec.Same (blds c cs) bs m ∧ Spec.Folded bs ∧ limit < memory cost bs)
  | 0, c, cs, _, hn, _, _ => by have := rounds_pos (blds c cs); omega
  | n + 1, c, cs, h, hn, m, hm => by
    unfold shrinkLoop
    by_cases hmem : memory cost (blds c cs) > limit
    · rw [if_pos hmem]
      cases hmin : minimal c cs with
      | none => exact .inr ⟨rfl, _, chain_levels cs c h, ⟨rfl, fun _ _ => rfl⟩, minimal_none cs c h hmin, hmem⟩
      | some t =>
        obtain ⟨c', cs', p1, p2, p3, p4, p5, p6, _, _⟩ := compactify_spec t cs c h
        have hlt := p6 ⟨t, hmin, Nat.le_refl _⟩
        simp only [p1]
        have hsz : (blds c' cs').map Bld.size = (blds c cs).map Bld.size := p3
        have hl : lastSize c'.b.size (cs'.map (·.b.size)) = lastSize c.b.size (cs.map (·.b.size)) := by
          simp only [blds, List.map_cons, List.map_map] at hsz
          have h1 := (List.cons.inj hsz).1
          have h2 := (List.cons.inj hsz).2
          rw [h1, show (cs'.map (·.b.size)) = cs.map (·.b.size) from h2]
        rcases shrinkLoop_spec cost limit n c' cs' p2 (by omega) m (by rw [hl]; exact hm) with ⟨bs, q1, q2, q3, q4⟩ | ⟨q1, bs, q2, q3, q4, q5⟩
        · exact .inl ⟨bs, q1, q2, ⟨q3.sizes.trans p3, fun suf s => (q3.weights suf s).trans (p4 m hm suf s)⟩, q4⟩
        · exact .inr ⟨q1, bs, q2, ⟨q3.sizes.trans p3, fun suf s => (q3.weights suf s).trans (p4 m hm suf s)⟩, q4, q5⟩
    · rw [if_neg hmem]
      exact .inl ⟨_, rfl, chain_levels cs c h, ⟨rfl, fun _ _ => rfl⟩, Nat.le_of_not_lt hmem⟩

theorem lastSize_ge {m : Nat} : ∀ (l : List Nat) (n : Nat), (∀ k ∈ n :: l, m ≤ k) → m ≤ lastSize n l
  | [], n, h => h n (by simp)
  | k :: l, n, h => lastSize_ge l k fun x hx => h x (List.mem_cons_of_mem _ hx)

theorem shrink_spec {srt : List (Nat × List Nat) → List (Nat × List Nat)} (hs : Spec.Sort srt) (cost : Nat → Nat × Nat) (limit : Nat) {bs : List Bld} (h : Levels bs)
    {m : Nat} (hm : ∀ k ∈ bs.map Bld.size, m ≤ k) :
    (∃ bs', shrink srt cost limit bs = .ok bs' ∧ Levels bs' ∧ Spec.Same bs bs' m ∧ memory cost bs' ≤ limit) ∨
    (shrink srt cost limit bs = .error .notInitialized ∧ ∃ bs', Levels bs' ∧ Spec.Same bs bs' m ∧ Spec.Folded bs' ∧ limit < memory cost bs') := by
  cases bs with
  | nil => exact .inl ⟨[], rfl, h, ⟨rfl, fun _ _ => rfl⟩, Nat.zero_le _⟩
  | cons b rest =>
    have e : blds (prepare srt b) (rest.map (prepare srt)) = b :: rest := by
      simp only [blds, List.map_map]
      rw [show (Cmp.b ∘ prepare srt) = id from rfl, List.map_id]; rfl
    have := shrinkLoop_spec cost limit (rounds (b :: rest)) _ _ (prepare_chain hs rest b h) (by rw [e]; exact Nat.le_refl _) m ?_
    · rw [e] at this; exact this
    · refine lastSize_ge _ _ ?_
      rw [List.map_map]
      exact hm

/-! ### Training -/

/-- how often a pattern (not empty) occurs in the data -/
def Spec.occurrences (pattern : List Nat) : List Nat → Nat
  | [] => 0
  | x :: l => (if pattern.isPrefixOf (x :: l) then 1 else 0) + Spec.occurrences pattern l

theorem lastOf_cons {m x : Nat} {l : List Nat} (h : m ≤ l.length) : Spec.lastOf m (x :: l) = Spec.lastOf m l := by
  unfold Spec.lastOf
  rw [List.length_cons, show l.length + 1 - m = (l.length - m) + 1 by omega, List.drop_succ_cons]

theorem lastOf_all {m : Nat} {l : List Nat} (h : l.length ≤ m) : Spec.lastOf m l = l := by
  unfold Spec.lastOf
  rw [show l.length - m = 0 by omega]; rfl

theorem occurrences_snoc (suf : List Nat) (t s : Nat) : ∀ data, Spec.occurrences (suf ++ [t]) (data ++ [s]) =
    Spec.occurrences (suf ++ [t]) data + if suf.length ≤ data.length ∧ Spec.lastOf suf.length data = suf ∧ s = t then 1 else 0
  | [] => by
    simp only [List.nil_append, Spec.occurrences, Nat.add_zero, Nat.zero_add]
    cases suf with
    | nil =>
      by_cases h : s = t
      · subst h; simp [Spec.lastOf, List.isPrefixOf]
      · have h' : ¬ t = s := fun e => h e.symm
        simp [Spec.lastOf, List.isPrefixOf, h, h']
    | cons x suf =>
      cases suf <;> simp [List.isPrefixOf]
  | x :: l => by
    rw [List.cons_append]
    simp only [Spec.occurrences, occurrences_snoc suf t s l]
    have hp : ((suf ++ [t]).isPrefixOf (x :: (l ++ [s])) = true) ↔ (suf ++ [t] = (x :: l) ++ [s] ∨ (suf ++ [t]).isPrefixOf (x :: l) = true) := by
      rw [List.isPrefixOf_iff_prefix, List.isPrefixOf_iff_prefix, ← List.cons_append, List.prefix_concat_iff]
    have hle : (suf ++ [t]).isPrefixOf (x :: l) = true → suf.length ≤ l.length := by
      intro h
      have := (List.isPrefixOf_iff_prefix.mp h).length_le
      simp at this; exact this
    have heq : suf ++ [t] = (x :: l) ++ [s] ↔ suf = x :: l ∧ s = t := by
      constructor
      · intro h
        have := List.append_inj' h rfl
        exact ⟨this.1, by simpa using this.2.symm⟩
      · rintro ⟨rfl, rfl⟩; rfl
    rcases Nat.lt_or_ge l.length suf.length with h1 | h1
    · have hnp : ¬ (suf ++ [t]).isPrefixOf (x :: l) = true := fun h => by have := hle h; omega
      rw [if_neg hnp, if_neg (show ¬ (suf.length ≤ l.length ∧ _) from fun h => by omega)]
      by_cases hc : suf = x :: l ∧ s = t
      · rw [if_pos (hp.mpr (.inl (heq.mpr hc))), if_pos]; · omega
        refine ⟨by rw [hc.1]; exact Nat.le_refl _, ?_, hc.2⟩
        rw [lastOf_all (by simp; omega)]; exact hc.1.symm
      · rw [if_neg (fun h => (hp.mp h).elim (fun h => hc (heq.mp h)) hnp), if_neg]
        · omega
        · rintro ⟨h2, h3, h4⟩
          rw [lastOf_all (by simp; omega)] at h3
          exact hc ⟨h3.symm, h4⟩
    · rw [lastOf_cons h1]
      have hne : ¬ (suf ++ [t] = (x :: l) ++ [s]) := fun h => by
        have := congrArg List.length (heq.mp h).1; simp at this; omega
      have hp' : ((suf ++ [t]).isPrefixOf (x :: (l ++ [s])) = true) ↔ ((suf ++ [t]).isPrefixOf (x :: l) = true) :=
        hp.trans ⟨fun h => h.resolve_left hne, .inr⟩
      have h2 : suf.length ≤ (x :: l).length := by simp; omega
      simp only [hp', h1, h2, true_and]
      omega

theorem trainAdd_sizes (context : List Nat) (s n : Nat) : ∀ bs, (trainAdd context s n bs).map Bld.size = bs.map Bld.size
  | [] => rfl
  | b :: rest => by
    unfold trainAdd
    split
    · rw [List.map_cons, trainAdd_sizes context s n rest]; rfl
    · rfl

theorem trainAdd_ok {context : List Nat} {s n : Nat} (hs : s < 256) (hn : 0 < n) : ∀ {bs : List Bld}, (∀ b ∈ bs, BOk b) → ∀ b ∈ trainAdd context s n bs, BOk b
  | [], h => h
  | b :: rest, h => by
    unfold trainAdd
    intro x hx
    split at hx
    · rcases List.mem_cons.mp hx with rfl | hx
      · exact h _ (by simp)
      · exact trainAdd_ok hs hn (fun b hb => h b (List.mem_cons_of_mem _ hb)) x hx
    · rename_i hl
      rcases List.mem_cons.mp hx with rfl | hx
      · exact add_ok (h b (by simp)) (lastOf_length (by omega)) hs hn
      · exact h x (List.mem_cons_of_mem _ hx)

theorem trainAdd_weights {context : List Nat} {s n m : Nat} (suf : List Nat) (t : Nat) : ∀ {bs : List Bld}, Levels bs → (∀ k ∈ bs.map Bld.size, m ≤ k) → m ∈ bs.map Bld.size →
    Spec.weights m suf t (trainAdd context s n bs) = Spec.weights m suf t bs + if m ≤ context.length ∧ Spec.lastOf m context = suf ∧ s = t then n else 0
  | [], _, _, h => by cases h
  | b :: rest, h, hm, hin => by
    have hmb : m ≤ b.size := hm b.size (by simp)
    unfold trainAdd
    by_cases hl : context.length < b.size
    · rw [if_pos hl]
      simp only [Spec.weights]
      cases rest with
      | nil =>
        have : m = b.size := by simpa using hin
        rw [if_neg (fun h => by omega)]; rfl
      | cons d rest =>
        have h2 := List.pairwise_cons.mp h.2
        have hne : m ∈ (d :: rest).map Bld.size := by
          rcases List.mem_cons.mp hin with e | hin
          · have := h2.1 d.size (List.mem_cons_self ..)
            have := hm d.size (by simp)
            omega
          · exact hin
        rw [trainAdd_weights suf t ⟨fun x hx => h.1 x (List.mem_cons_of_mem _ hx), h2.2⟩ (fun k hk => hm k (List.mem_cons_of_mem _ hk)) hne]
        omega
    · rw [if_neg hl]
      simp only [Spec.weights]
      rw [add_weight (h.1 b (by simp)).sorted]
      have e := lastOf_lastOf context hmb
      unfold Spec.lastOf at e ⊢
      rw [e]
      have : m ≤ context.length := by omega
      simp only [this, true_and]
      by_cases h1 : List.drop (context.length - m) context = suf
      · by_cases h2 : s = t <;> simp [h1, h2] <;> omega
      · simp [h1]

theorem pushCtx_lastOf (n : Nat) (data : List Nat) (s : Nat) : pushCtx n (Spec.lastOf n data) s = Spec.lastOf n (data ++ [s]) := by
  unfold pushCtx Spec.lastOf
  rw [List.length_append, List.length_drop, List.length_append]
  simp only [List.length_singleton]
  rcases Nat.lt_or_ge data.length n with h | h
  · rw [if_neg (by omega), show data.length - n = 0 by omega, show data.length + 1 - n = 0 by omega]; rfl
  · rw [if_pos (by omega), show data.length + 1 - n = (data.length - n) + 1 by omega, ← List.drop_append_of_le_length (by omega), List.drop_drop]

/-- what holds of a dictionary builder that has processed `data` -/
structure Inv (p : Par) (m : Nat) (st : St) (data : List Nat) : Prop where
  levels : Levels st.levels
  sizes : st.levels.map Bld.size = p.sizes
  context : st.context = Spec.lastOf (p.sizes.headD 0) data
  weights : ∀ suf s, suf.length = m → Spec.weights m suf s st.levels = Spec.occurrences (suf ++ [s]) data
  memory : memory p.build st.levels ≤ max p.low p.high

/-- A configuration: `m`, the size of the shortest contexts, is the last of the descending sizes. -/
structure Spec.Config (p : Par) (m : Nat) : Prop where
  sizes : p.sizes.Pairwise (· > ·)
  last : p.sizes.getLast? = some m
  sort : Spec.Sort p.srt

theorem config_min {p : Par} {m : Nat} (h : Spec.Config p m) : m ∈ p.sizes ∧ ∀ k ∈ p.sizes, m ≤ k := by
  obtain ⟨l, e⟩ := List.getLast?_eq_some_iff.mp h.last
  have hp := h.sizes
  rw [e] at hp ⊢
  refine ⟨by simp, fun k hk => ?_⟩
  rcases List.mem_append.mp hk with hk | hk
  · exact Nat.le_of_lt ((List.pairwise_append.mp hp).2.2 k hk m (by simp))
  · rw [List.mem_singleton.mp hk]; exact Nat.le_refl _

theorem init_inv {p : Par} {m : Nat} (h : Spec.Config p m) : Inv p m p.init [] := by
  have hs : p.init.levels.map Bld.size = p.sizes := by
    unfold Par.init
    rw [List.map_map]
    show p.sizes.map id = _
    exact List.map_id _
  have hm : ∀ l : List Nat, memory p.build (l.map fun n => (⟨n, [], 0, 0⟩ : Bld)) = 0 := by
    intro l
    induction l with
    | nil => rfl
    | cons a l ih => simp [memory, ih]
  refine ⟨⟨?_, by rw [hs]; exact h.sizes⟩, hs, ?_, ?_, ?_⟩
  · intro b hb
    obtain ⟨n, _, rfl⟩ := List.mem_map.mp hb
    exact ⟨fun _ hx => (nomatch hx), List.Pairwise.nil, fun _ hx => (nomatch hx), rfl, rfl⟩
  · simp [Par.init, Spec.lastOf]
  · intro suf s _
    unfold Par.init
    simp only [Spec.occurrences]
    generalize p.sizes = l
    induction l with
    | nil => rfl
    | cons a l ih => simp [Spec.weights, Spec.weight, ih]
  · rw [show p.init.levels = p.sizes.map fun n => (⟨n, [], 0, 0⟩ : Bld) from rfl, hm]; exact Nat.zero_le _

theorem addSymbol_inv {p : Par} {m : Nat} (hc : Spec.Config p m) {st : St} {data : List Nat} (h : Inv p m st data) {s : Nat} (hs : s < 256) :
    (∃ st', p.addSymbol st s = .ok st' ∧ Inv p m st' (data ++ [s])) ∨
    (p.addSymbol st s = .error .notInitialized ∧ ∃ bs, Levels bs ∧ bs.map Bld.size = p.sizes ∧ Spec.Folded bs ∧
      (∀ suf t, suf.length = m → Spec.weights m suf t bs = Spec.occurrences (suf ++ [t]) (data ++ [s])) ∧ p.low < memory p.build bs) := by
  obtain ⟨hmin, hmle⟩ := config_min hc
  have hl : Levels (trainAdd st.context s 1 st.levels) := ⟨trainAdd_ok hs Nat.one_pos h.levels.1, by rw [trainAdd_sizes]; exact h.levels.2⟩
  have hsz : (trainAdd st.context s 1 st.levels).map Bld.size = p.sizes := by rw [trainAdd_sizes, h.sizes]
  have hhead : m ≤ p.sizes.headD 0 := by
    cases hp : p.sizes with
    | nil => rw [hp] at hmin; cases hmin
    | cons a l => exact hmle a (by rw [hp]; simp)
  have hw : ∀ suf t, suf.length = m → Spec.weights m suf t (trainAdd st.context s 1 st.levels) = Spec.occurrences (suf ++ [t]) (data ++ [s]) := by
    intro suf t hsuf
    rw [trainAdd_weights suf t h.levels (by rw [h.sizes]; exact hmle) (by rw [h.sizes]; exact hmin), h.weights suf t hsuf, occurrences_snoc, h.context, lastOf_lastOf data hhead, hsuf]
    have : (m ≤ (Spec.lastOf (p.sizes.headD 0) data).length) ↔ m ≤ data.length := by
      unfold Spec.lastOf; rw [List.length_drop]; omega
    simp only [this]
  have hctx : pushCtx (p.sizes.headD 0) st.context s = Spec.lastOf (p.sizes.headD 0) (data ++ [s]) := by rw [h.context, pushCtx_lastOf]
  unfold Par.addSymbol
  by_cases hmem : memory p.build (trainAdd st.context s 1 st.levels) > p.high
  · rw [if_pos hmem]
    rcases shrink_spec hc.sort p.build p.low hl (by rw [hsz]; exact hmle) with ⟨bs, q1, q2, q3, q4⟩ | ⟨q1, bs, q2, q3, q4, q5⟩
    · refine .inl ⟨_, by rw [q1], ⟨q2, q3.sizes.trans hsz, hctx, fun suf t hsuf => (q3.weights suf t).trans (hw suf t hsuf), Nat.le_trans q4 (Nat.le_max_left ..)⟩⟩
    · exact .inr ⟨by rw [q1], bs, q2, q3.sizes.trans hsz, q4, fun suf t hsuf => (q3.weights suf t).trans (hw suf t hsuf), q5⟩
  · rw [if_neg hmem]
    exact .inl ⟨_, rfl, ⟨hl, hsz, hctx, hw, Nat.le_trans (Nat.le_of_not_lt hmem) (Nat.le_max_right ..)⟩⟩

theorem process_inv {p : Par} {m : Nat} (hc : Spec.Config p m) : ∀ (data : List Nat) {st : St} {before : List Nat}, Inv p m st before → (∀ s ∈ data, s < 256) →
    (∃ st', p.process st data = .ok st' ∧ Inv p m st' (before ++ data)) ∨
    (p.process st data = .error .notInitialized ∧ ∃ pre post bs, data = pre ++ post ∧ Levels bs ∧ bs.map Bld.size = p.sizes ∧ Spec.Folded bs ∧
      (∀ suf t, suf.length = m → Spec.weights m suf t bs = Spec.occurrences (suf ++ [t]) (before ++ pre)) ∧ p.low < memory p.build bs)
  | [], st, before, h, _ => .inl ⟨st, rfl, by rw [List.append_nil]; exact h⟩
  | s :: data, st, before, h, hb => by
    unfold Par.process
    rcases addSymbol_inv hc h (hb s (by simp)) with ⟨st', e, h'⟩ | ⟨e, bs, g1, g2, g3, g4, g5⟩
    · rw [e]
      rcases process_inv hc data h' (fun x hx => hb x (List.mem_cons_of_mem _ hx)) with ⟨st2, e2, h2⟩ | ⟨e2, pre, post, bs, g0, g1, g2, g3, g4, g5⟩
      · exact .inl ⟨st2, e2, by rw [List.append_assoc] at h2; exact h2⟩
      · refine .inr ⟨e2, s :: pre, post, bs, by rw [g0]; rfl, g1, g2, g3, ?_, g5⟩
        rw [List.append_assoc] at g4; exact g4
    · rw [e]
      exact .inr ⟨rfl, [s], data, bs, rfl, g1, g2, g3, g4, g5⟩

/-! ### The order of equal counts does not matter -/

theorem count_zero {t : Nat} : ∀ {c : List (Nat × Nat)}, (∀ x ∈ c, x.1 ≠ t) → Spec.count t c = 0
  | [], _ => rfl
  | (a, k) :: c, h => by
    simp only [Spec.count]
    rw [if_neg (h (a, k) (by simp)), count_zero fun x hx => h x (List.mem_cons_of_mem _ hx)]

theorem counts_tail {x : Nat × Nat} {c : List (Nat × Nat)} (h : Spec.Counts (x :: c)) : Spec.Counts c ∧ ∀ y ∈ c, x.1 < y.1 := by
  have hp := List.pairwise_cons.mp h.sorted
  exact ⟨⟨hp.2, fun y hy => h.bytes y (List.mem_cons_of_mem _ hy), fun y hy => h.pos y (List.mem_cons_of_mem _ hy)⟩, fun y hy => hp.1 _ (List.mem_map_of_mem hy)⟩

theorem counts_ext : ∀ {c d : List (Nat × Nat)}, Spec.Counts c → Spec.Counts d → (∀ t, Spec.count t c = Spec.count t d) → c = d
  | [], [], _, _, _ => rfl
  | [], (a, k) :: d, _, hd, h => by
    have := h a
    have hk := hd.pos (a, k) (by simp)
    simp only [Spec.count, if_true] at this hk; omega
  | (a, k) :: c, [], hc, _, h => by
    have := h a
    have hk := hc.pos (a, k) (by simp)
    simp only [Spec.count, if_true] at this hk; omega
  | (a, k) :: c, (b, n) :: d, hc, hd, h => by
    obtain ⟨c1, c2⟩ := counts_tail hc
    obtain ⟨d1, d2⟩ := counts_tail hd
    have hk := hc.pos (a, k) (by simp)
    have hn := hd.pos (b, n) (by simp)
    simp only at hk hn c2 d2
    have hca : Spec.count a c = 0 := count_zero fun x hx => by have := c2 x hx; omega
    have hdb : Spec.count b d = 0 := count_zero fun x hx => by have := d2 x hx; omega
    have hab : a = b := by
      rcases Nat.lt_trichotomy a b with hlt | he | hlt
      · have := h a
        simp only [Spec.count, if_true] at this
        rw [if_neg (by omega), count_zero (t := a) (c := d) fun x hx => by have := d2 x hx; omega] at this
        omega
      · exact he
      · have := h b
        simp only [Spec.count, if_true] at this
        rw [if_neg (by omega), count_zero (t := b) (c := c) fun x hx => by have := c2 x hx; omega] at this
        omega
    subst hab
    have hkn : k = n := by
      have := h a
      simp only [Spec.count, if_true, hca, hdb] at this; omega
    subst hkn
    rw [counts_ext c1 d1 fun t => by have := h t; simp only [Spec.count] at this; omega]

theorem weight_zero {m : Nat} {suf : List Nat} {t : Nat} : ∀ {l : Ctxs}, (∀ x ∈ l, Spec.lastOf m x.1 ≠ suf) → Spec.weight m suf t l = 0
  | [], _ => rfl
  | (k, c) :: l, h => by
    simp only [Spec.weight]
    rw [if_neg (h (k, c) (by simp)), weight_zero fun x hx => h x (List.mem_cons_of_mem _ hx)]

theorem count_pos {c : List (Nat × Nat)} (h : Spec.Counts c) (hne : c ≠ []) : ∃ t, 0 < Spec.count t c := by
  cases c with
  | nil => exact absurd rfl hne
  | cons x c =>
    have := h.pos x (by simp)
    exact ⟨x.1, by obtain ⟨a, k⟩ := x; simp only [Spec.count, if_true] at *; omega⟩

theorem ctxs_ext {m : Nat} : ∀ {l l' : Ctxs}, Sorted l → Sorted l' → (∀ x ∈ l, x.1.length = m) → (∀ x ∈ l', x.1.length = m) →
    (∀ x ∈ l, Spec.Counts x.2 ∧ x.2 ≠ []) → (∀ x ∈ l', Spec.Counts x.2 ∧ x.2 ≠ []) → (∀ suf t, Spec.weight m suf t l = Spec.weight m suf t l') → l = l'
  | [], [], _, _, _, _, _, _, _ => rfl
  | [], (k, c) :: l', _, _, _, k2, _, c2, h => by
    obtain ⟨t, ht⟩ := count_pos (c2 (k, c) (by simp)).1 (c2 (k, c) (by simp)).2
    have := h k t
    have hk := k2 (k, c) (by simp)
    simp only [Spec.weight] at this ht hk
    rw [lastOf_all (by omega), if_pos rfl] at this; omega
  | (k, c) :: l, [], _, _, k1, _, c1, _, h => by
    obtain ⟨t, ht⟩ := count_pos (c1 (k, c) (by simp)).1 (c1 (k, c) (by simp)).2
    have := h k t
    have hk := k1 (k, c) (by simp)
    simp only [Spec.weight] at this ht hk
    rw [lastOf_all (by omega), if_pos rfl] at this; omega
  | (k, c) :: l, (k', c') :: l', s1, s2, k1, k2, c1, c2, h => by
    have p1 := List.pairwise_cons.mp (show (((k, c) :: l).map (·.1)).Pairwise Spec.Before from s1)
    have p2 := List.pairwise_cons.mp (show (((k', c') :: l').map (·.1)).Pairwise Spec.Before from s2)
    have hk : k.length = m := k1 (k, c) (by simp)
    have hk' : k'.length = m := k2 (k', c') (by simp)
    have l1 : ∀ x ∈ l, x.1.length = m := fun x hx => k1 x (List.mem_cons_of_mem _ hx)
    have l2 : ∀ x ∈ l', x.1.length = m := fun x hx => k2 x (List.mem_cons_of_mem _ hx)
    have b1 : ∀ x ∈ l, Spec.Before k x.1 := fun x hx => p1.1 _ (List.mem_map_of_mem hx)
    have b2 : ∀ x ∈ l', Spec.Before k' x.1 := fun x hx => p2.1 _ (List.mem_map_of_mem hx)
    have z1 : ∀ suf, suf = k ∨ Spec.Before suf k → ∀ t, Spec.weight m suf t l = 0 := by
      intro suf hs t
      refine weight_zero fun x hx => ?_
      rw [lastOf_all (by rw [l1 x hx]; exact Nat.le_refl _)]
      rintro rfl
      rcases hs with e | hs
      · have := b1 x hx; rw [e] at this; exact before_irrefl _ this
      · exact before_irrefl _ (before_trans hs (b1 x hx))
    have z2 : ∀ suf, suf = k' ∨ Spec.Before suf k' → ∀ t, Spec.weight m suf t l' = 0 := by
      intro suf hs t
      refine weight_zero fun x hx => ?_
      rw [lastOf_all (by rw [l2 x hx]; exact Nat.le_refl _)]
      rintro rfl
      rcases hs with e | hs
      · have := b2 x hx; rw [e] at this; exact before_irrefl _ this
      · exact before_irrefl _ (before_trans hs (b2 x hx))
    have hw : ∀ suf t, (if k = suf then Spec.count t c else 0) + Spec.weight m suf t l = (if k' = suf then Spec.count t c' else 0) + Spec.weight m suf t l' := by
      intro suf t
      have := h suf t
      simp only [Spec.weight] at this
      rw [lastOf_all (by omega), lastOf_all (by omega)] at this
      exact this
    have hkk : k = k' := by
      cases hlt : lexLess k k' with
      | true =>
        have hb := (lexLess_iff _ _).mp hlt
        obtain ⟨t, ht⟩ := count_pos (c1 (k, c) (by simp)).1 (c1 (k, c) (by simp)).2
        have := hw k t
        have hne : ¬ k' = k := fun e => before_irrefl k (by rw [e] at hb; exact hb)
        rw [if_pos rfl, if_neg hne, z2 k (.inr hb)] at this
        simp only at ht; omega
      | false =>
        cases hgt : lexLess k' k with
        | false => exact lexLess_total hlt hgt
        | true =>
          have hb := (lexLess_iff _ _).mp hgt
          obtain ⟨t, ht⟩ := count_pos (c2 (k', c') (by simp)).1 (c2 (k', c') (by simp)).2
          have := hw k' t
          have hne : ¬ k = k' := fun e => before_irrefl k' (by rw [e] at hb; exact hb)
          rw [if_pos rfl, if_neg hne, z1 k' (.inr hb)] at this
          simp only at ht; omega
    subst hkk
    have hcc : c = c' := by
      refine counts_ext (c1 (k, c) (by simp)).1 (c2 (k, c') (by simp)).1 fun t => ?_
      have := hw k t
      rw [if_pos rfl, if_pos rfl, z1 k (.inl rfl), z2 k (.inl rfl)] at this
      omega
    subst hcc
    rw [ctxs_ext p1.2 p2.2 l1 l2 (fun x hx => c1 x (List.mem_cons_of_mem _ hx)) (fun x hx => c2 x (List.mem_cons_of_mem _ hx)) fun suf t => by have := hw suf t; omega]

theorem bld_ext {b b' : Bld} (h : BOk b) (h' : BOk b') (hs : b.size = b'.size) (hw : ∀ suf t, Spec.weight b.size suf t b.ctxs = Spec.weight b.size suf t b'.ctxs) : b = b' := by
  have e := ctxs_ext h.sorted h'.sorted h.keys (by rw [hs]; exact h'.keys) h.counts h'.counts hw
  have e1 := h.contexts
  have e2 := h'.contexts
  have e3 := h.entries
  have e4 := h'.entries
  rw [e] at e1 e3
  obtain ⟨s1, x1, n1, m1⟩ := b
  obtain ⟨s2, x2, n2, m2⟩ := b'
  simp only at e e1 e2 e3 e4 hs
  subst hs e e1 e2 e3 e4
  rfl

theorem perm_last {es es' : List (Nat × List Nat)} (h : Desc es) (h' : Desc es') (hp : es.Perm es') : es.getLast?.map (·.1) = es'.getLast?.map (·.1) := by
  cases hl : es.getLast? with
  | none =>
    have e := List.getLast?_eq_none_iff.mp hl
    subst e
    rw [List.nil_perm.mp hp]; rfl
  | some e =>
    cases hl' : es'.getLast? with
    | none =>
      have e' := List.getLast?_eq_none_iff.mp hl'
      subst e'
      rw [List.perm_nil.mp hp] at hl; cases hl
    | some e' =>
      have le : ∀ {a b : List (Nat × List Nat)} {x y : Nat × List Nat}, Desc b → a.Perm b → a.getLast? = some x → b.getLast? = some y → y.1 ≤ x.1 := by
        intro a b x y hb hab hx hy
        obtain ⟨ys, rfl⟩ := List.getLast?_eq_some_iff.mp hy
        obtain ⟨xs, rfl⟩ := List.getLast?_eq_some_iff.mp hx
        have hm : x ∈ ys ++ [y] := hab.mem_iff.mp (by simp)
        rcases List.mem_append.mp hm with hm | hm
        · exact (List.pairwise_append.mp hb).2.2 x hm y (by simp)
        · rw [List.mem_singleton.mp hm]; exact Nat.le_refl _
      have h1 := le h' hp hl hl'
      have h2 := le h hp.symm hl' hl
      simp only [Option.map_some, Option.some.injEq]
      omega

theorem minimal_same : ∀ (rest rest' : List Cmp) (c c' : Cmp), Chain c rest → Chain c' rest' → blds c rest = blds c' rest' → minimal c rest = minimal c' rest'
  | [], [], _, _, _, _, _ => rfl
  | [], _ :: _, _, _, _, _, e => by simp [blds] at e
  | _ :: _, [], _, _, _, _, e => by simp [blds] at e
  | d :: rest, d' :: rest', c, c', h, h', e => by
    have e1 : c.b = c'.b := (List.cons.inj e).1
    have e2 : blds d rest = blds d' rest' := (List.cons.inj e).2
    have ih := minimal_same rest rest' d d' h.2.2 h'.2.2 e2
    have hp : c.entries.Perm c'.entries := (h.1.perm rfl).trans (by rw [e1]; exact (h'.1.perm rfl).symm)
    have hl := perm_last (h.1.desc rfl) (h'.1.desc rfl) hp
    unfold minimal
    rw [ih]
    cases h1 : c.entries.getLast? <;> cases h2 : c'.entries.getLast? <;> rw [h1, h2] at hl <;> simp only [Option.map_some, Option.map_none, Option.some.injEq, reduceCtorEq] at hl
    cases minimal d' rest' <;> simp only [hl]

theorem compactify_same (t : Nat) : ∀ (rest rest' : List Cmp) (c c' : Cmp), Chain c rest → Chain c' rest' → blds c rest = blds c' rest' →
    ∃ a as a' as', compactify t c rest = some (a, as) ∧ compactify t c' rest' = some (a', as') ∧ blds a as = blds a' as'
  | [], [], c, c', _, _, e => ⟨c, [], c', [], rfl, rfl, e⟩
  | [], _ :: _, _, _, _, _, e => by simp [blds] at e
  | _ :: _, [], _, _, _, _, e => by simp [blds] at e
  | d :: rest, d' :: rest', c, c', h, h', e => by
    have e1 : c.b = c'.b := (List.cons.inj e).1
    have e2 : blds d rest = blds d' rest' := (List.cons.inj e).2
    have e3 : d.b = d'.b := (List.cons.inj e2).1
    obtain ⟨c1, d1, p1, p2, p3, p4, p5, p6, p7, _⟩ := popLoop_spec t rest.isEmpty c.entries.length c d h.1 (chain_head h.2.2) h.2.1 (Nat.le_refl _)
    obtain ⟨c2, d2, q1, q2, q3, q4, q5, q6, q7, _⟩ := popLoop_spec t rest'.isEmpty c'.entries.length c' d' h'.1 (chain_head h'.2.2) h'.2.1 (Nat.le_refl _)
    have hcb : c1.b = c2.b := by
      refine bld_ext p2.b q2.b (by rw [p4, q4, e1]) fun suf s => ?_
      rw [p6, q6, e1]
    have hdb : d1.b = d2.b := by
      refine bld_ext p3.b q3.b (by rw [p5, q5, e3]) fun suf s => ?_
      have h1 := p7 d1.b.size (by rw [p5]; exact Nat.le_refl _) suf s
      have h2 := q7 d1.b.size (by rw [p5, e3]; exact Nat.le_refl _) suf s
      rw [hcb, e1, e3] at h1
      omega
    have hb : blds d1 rest = blds d2 rest' := by
      have := (List.cons.inj e2).2
      simp only [blds, hdb, this]
    obtain ⟨a, as, a', as', r1, r2, r3⟩ := compactify_same t rest rest' d1 d2 (chain_replace h.2.2 p3 p5) (chain_replace h'.2.2 q3 q5) hb
    refine ⟨c1, a :: as, c2, a' :: as', ?_, ?_, ?_⟩
    · unfold compactify; rw [p1]; simp only []; rw [r1]
    · unfold compactify; rw [q1]; simp only []; rw [r2]
    · simp only [blds, List.map_cons] at r3 ⊢
      rw [hcb, r3]

theorem shrinkLoop_same (cost : Nat → Nat × Nat) (limit : Nat) : ∀ (n : Nat) (cs cs' : List Cmp) (c c' : Cmp), Chain c cs → Chain c' cs' → blds c cs = blds c' cs' →
    shrinkLoop cost limit n c cs = shrinkLoop cost limit n c' cs'
  | 0, _, _, _, _, _, _, _ => rfl
  | n + 1, cs, cs', c, c', h, h', e => by
    unfold shrinkLoop
    rw [show c.b :: cs.map Cmp.b = c'.b :: cs'.map Cmp.b from e, minimal_same cs cs' c c' h h' e]
    by_cases hm : memory cost (c'.b :: cs'.map Cmp.b) > limit
    · rw [if_pos hm, if_pos hm]
      cases minimal c' cs' with
      | none => rfl
      | some t =>
        obtain ⟨a, as, a', as', r1, r2, r3⟩ := compactify_same t cs cs' c c' h h' e
        obtain ⟨x, xs, y1, y2, _⟩ := compactify_spec t cs c h
        obtain ⟨x', xs', y1', y2', _⟩ := compactify_spec t cs' c' h'
        rw [r1] at y1; cases y1
        rw [r2] at y1'; cases y1'
        simp only [r1, r2]
        exact shrinkLoop_same cost limit n as as' a a' y2 y2' r3
    · rw [if_neg hm, if_neg hm]

theorem blds_prepare (srt : List (Nat × List Nat) → List (Nat × List Nat)) (b : Bld) (rest : List Bld) : blds (prepare srt b) (rest.map (prepare srt)) = b :: rest := by
  simp only [blds, List.map_map]
  rw [show (Cmp.b ∘ prepare srt) = id from rfl, List.map_id]; rfl

theorem shrink_same {srt srt' : List (Nat × List Nat) → List (Nat × List Nat)} (hs : Spec.Sort srt) (hs' : Spec.Sort srt') (cost : Nat → Nat × Nat) (limit : Nat) {bs : List Bld} (h : Levels bs) :
    shrink srt cost limit bs = shrink srt' cost limit bs := by
  cases bs with
  | nil => rfl
  | cons b rest =>
    exact shrinkLoop_same cost limit _ _ _ _ _ (prepare_chain hs rest b h) (prepare_chain hs' rest b h) (by rw [blds_prepare, blds_prepare])

theorem process_same {p q : Par} {m : Nat} (hp : Spec.Config p m) (hq : Spec.Sort q.srt) (e : q = { p with srt := q.srt }) : ∀ (data : List Nat) {st : St} {before : List Nat}, Inv p m st before → (∀ s ∈ data, s < 256) →
    p.process st data = q.process st data
  | [], _, _, _, _ => rfl
  | s :: data, st, before, h, hb => by
    have hs := hb s (by simp)
    have hl : Levels (trainAdd st.context s 1 st.levels) := ⟨trainAdd_ok hs Nat.one_pos h.levels.1, by rw [trainAdd_sizes]; exact h.levels.2⟩
    have hadd : p.addSymbol st s = q.addSymbol st s := by
      rw [e]
      unfold Par.addSymbol
      simp only []
      rw [shrink_same hp.sort hq p.build p.low hl]
    unfold Par.process
    rw [← hadd]
    rcases addSymbol_inv hp h hs with ⟨st', e', h'⟩ | ⟨e', _⟩
    · rw [e']
      exact process_same hp hq e data h' fun x hx => hb x (List.mem_cons_of_mem _ hx)
    · rw [e']

/-! ### C160 -/

/-- the memory of levels, by the contexts they hold and the entries of these -/
def Spec.memory (cost : Nat → Nat × Nat) (bs : List Bld) : Nat :=
  (bs.map fun b => b.ctxs.length * (cost b.size).1 + (b.ctxs.map (·.2.length)).sum * (cost b.size).2).sum

theorem memory_spec (cost : Nat → Nat × Nat) : ∀ {bs : List Bld}, (∀ b ∈ bs, BOk b) → memory cost bs = Spec.memory cost bs
  | [], _ => rfl
  | b :: bs, h => by
    have hb := h b (by simp)
    have ih := memory_spec cost (bs := bs) fun x hx => h x (List.mem_cons_of_mem _ hx)
    unfold memory
    rw [ih, hb.contexts, hb.entries]
    simp [Spec.memory]

/-- **C160** Whatever the data: if training does not throw, every sequence of the shortest context size and every symbol are counted as often as the symbol follows the sequence in the data
(added up over all contexts that end in it), whatever has been folded; the counters of contexts and entries are exact, the contexts in order, and the memory is within the limits. -/
theorem train_counts {p : Par} {m : Nat} (hc : Spec.Config p m) {data : List Nat} (hb : ∀ s ∈ data, s < 256) {st : St} (h : p.process p.init data = .ok st) :
    (∀ suf s, suf.length = m → Spec.weights m suf s st.levels = Spec.occurrences (suf ++ [s]) data) ∧
    st.levels.map Bld.size = p.sizes ∧
    Spec.memory p.build st.levels ≤ max p.low p.high ∧
    ∀ b ∈ st.levels, b.contexts = b.ctxs.length ∧ b.entries = (b.ctxs.map (·.2.length)).sum ∧
      (b.ctxs.map (·.1)).Pairwise Spec.Before ∧ ∀ x ∈ b.ctxs, x.1.length = b.size ∧ Spec.Counts x.2 ∧ x.2 ≠ [] := by
  rcases process_inv hc data (init_inv hc) hb with ⟨st', e, i⟩ | ⟨e, _⟩
  · rw [e] at h; cases h
    exact ⟨i.weights, i.sizes, by rw [← memory_spec _ i.levels.1]; exact i.memory, fun b hb => have o := i.levels.1 b hb; ⟨o.contexts, o.entries, o.sorted, fun x hx => ⟨o.keys x hx, o.counts x hx⟩⟩⟩
  · rw [e] at h; cases h

/-- **C160** The same of the dictionary that is made in the end, whose memory is within the final limit. -/
theorem finish_counts {p : Par} {m : Nat} (hc : Spec.Config p m) {data : List Nat} (hb : ∀ s ∈ data, s < 256) {st : St} (h : p.process p.init data = .ok st) {bs : List Bld} (hf : p.finish st = .ok bs) :
    (∀ suf s, suf.length = m → Spec.weights m suf s bs = Spec.occurrences (suf ++ [s]) data) ∧
    bs.map Bld.size = p.sizes ∧
    Spec.memory p.made bs ≤ p.final ∧
    ∀ b ∈ bs, b.contexts = b.ctxs.length ∧ b.entries = (b.ctxs.map (·.2.length)).sum ∧
      (b.ctxs.map (·.1)).Pairwise Spec.Before ∧ ∀ x ∈ b.ctxs, x.1.length = b.size ∧ Spec.Counts x.2 ∧ x.2 ≠ [] := by
  rcases process_inv hc data (init_inv hc) hb with ⟨st', e, i⟩ | ⟨e, _⟩
  · rw [e] at h; cases h
    rcases shrink_spec hc.sort p.made p.final i.levels (by rw [i.sizes]; exact (config_min hc).2) with ⟨bs', q1, q2, q3, q4⟩ | ⟨q1, _⟩
    · rw [show p.finish st = shrink p.srt p.made p.final st.levels from rfl, q1] at hf
      cases hf
      exact ⟨fun suf s hs => (q3.weights suf s).trans (i.weights suf s hs), q3.sizes.trans i.sizes, by rw [← memory_spec _ q2.1]; exact q4,
        fun b hb => have o := q2.1 b hb; ⟨o.contexts, o.entries, o.sorted, fun x hx => ⟨o.keys x hx, o.counts x hx⟩⟩⟩
    · rw [show p.finish st = shrink p.srt p.made p.final st.levels from rfl, q1] at hf; cases hf
  · rw [e] at h; cases h

/-- **C160** Training always ends; it throws only NotInitializedException, and only when not even the counts of the shortest contexts of what has been processed, everything else folded, keep the limit. -/
theorem train_fails {p : Par} {m : Nat} (hc : Spec.Config p m) {data : List Nat} (hb : ∀ s ∈ data, s < 256) {e : Fail} (h : p.process p.init data = .error e) :
    e = .notInitialized ∧ ∃ pre post bs, data = pre ++ post ∧ bs.map Bld.size = p.sizes ∧ Spec.Folded bs ∧
      (∀ suf s, suf.length = m → Spec.weights m suf s bs = Spec.occurrences (suf ++ [s]) pre) ∧ p.low < Spec.memory p.build bs := by
  rcases process_inv hc data (init_inv hc) hb with ⟨st', e', i⟩ | ⟨e', pre, post, bs, g0, g1, g2, g3, g4, g5⟩
  · rw [e'] at h; cases h
  · rw [e'] at h; cases h
    exact ⟨rfl, pre, post, bs, g0, g2, g3, g4, by rw [← memory_spec _ g1.1]; exact g5⟩

/-- **C160** The same of `Finish`. -/
theorem finish_fails {p : Par} {m : Nat} (hc : Spec.Config p m) {data : List Nat} (hb : ∀ s ∈ data, s < 256) {st : St} (h : p.process p.init data = .ok st) {e : Fail} (hf : p.finish st = .error e) :
    e = .notInitialized ∧ ∃ bs, bs.map Bld.size = p.sizes ∧ Spec.Folded bs ∧
      (∀ suf s, suf.length = m → Spec.weights m suf s bs = Spec.occurrences (suf ++ [s]) data) ∧ p.final < Spec.memory p.made bs := by
  rcases process_inv hc data (init_inv hc) hb with ⟨st', e', i⟩ | ⟨e', _⟩
  · rw [e'] at h; cases h
    rcases shrink_spec hc.sort p.made p.final i.levels (by rw [i.sizes]; exact (config_min hc).2) with ⟨bs', q1, q2, q3, q4⟩ | ⟨q1, bs, q2, q3, q4, q5⟩
    · rw [show p.finish st = shrink p.srt p.made p.final st.levels from rfl, q1] at hf; cases hf
    · rw [show p.finish st = shrink p.srt p.made p.final st.levels from rfl, q1] at hf; cases hf
      exact ⟨rfl, bs, q3.sizes.trans i.sizes, q4, fun suf s hs => (q3.weights suf s).trans (i.weights suf s hs), by rw [← memory_spec _ q2.1]; exact q5⟩
  · rw [e'] at h; cases h

/-- a symbol after this data is counted in the first level whose contexts are not longer than the data, after the last symbols -/
inductive Spec.Recorded (data : List Nat) (s : Nat) : List Bld → List Bld → Prop
  | nowhere : Spec.Recorded data s [] []
  | skip {b rest rest'} : data.length < b.size → Spec.Recorded data s rest rest' → Spec.Recorded data s (b :: rest) (b :: rest')
  | here {b b' rest} : b.size ≤ data.length → b'.size = b.size →
      (∀ suf t, suf.length = b.size → Spec.weight b.size suf t b'.ctxs = Spec.weight b.size suf t b.ctxs + if suf = Spec.lastOf b.size data ∧ t = s then 1 else 0) →
      Spec.Recorded data s (b :: rest) (b' :: rest)

theorem trainAdd_recorded {n : Nat} {data : List Nat} {s : Nat} : ∀ {bs : List Bld}, (∀ b ∈ bs, BOk b) → (∀ b ∈ bs, b.size ≤ n) → Spec.Recorded data s bs (trainAdd (Spec.lastOf n data) s 1 bs)
  | [], _, _ => .nowhere
  | b :: rest, h, hn => by
    have hb := hn b (by simp)
    have hl : (Spec.lastOf n data).length < b.size ↔ data.length < b.size := by unfold Spec.lastOf; rw [List.length_drop]; omega
    unfold trainAdd
    by_cases hlt : (Spec.lastOf n data).length < b.size
    · rw [if_pos hlt]
      exact .skip (hl.mp hlt) (trainAdd_recorded (fun x hx => h x (List.mem_cons_of_mem _ hx)) fun x hx => hn x (List.mem_cons_of_mem _ hx))
    · rw [if_neg hlt]
      refine .here (Nat.le_of_not_lt fun h => hlt (hl.mpr h)) rfl fun suf t hs => ?_
      rw [add_weight (h b (by simp)).sorted]
      have e := lastOf_lastOf data hb
      have e2 := lastOf_lastOf (Spec.lastOf n data) (Nat.le_refl b.size)
      rw [show List.drop ((Spec.lastOf n data).length - b.size) (Spec.lastOf n data) = Spec.lastOf b.size (Spec.lastOf n data) from rfl, e2, e]
      by_cases h1 : Spec.lastOf b.size data = suf
      · by_cases h2 : s = t
        · rw [if_pos h1, if_pos h2, if_pos ⟨h1.symm, h2.symm⟩]
        · rw [if_pos h1, if_neg h2, if_neg (fun h => h2 h.2.symm)]
      · rw [if_neg h1, if_neg (fun h => h1 h.1.symm)]

/-- **C160** Each symbol is counted once, in the first level whose contexts are not longer than the data before it; nothing else changes unless the memory exceeds the upper limit, and then it is brought down to the lower one. -/
theorem symbol_recorded {p : Par} {m : Nat} (hc : Spec.Config p m) {data : List Nat} (hb : ∀ s ∈ data, s < 256) {st : St} (h : p.process p.init data = .ok st) {s : Nat} (hs : s < 256) :
    ∃ levels, Spec.Recorded data s st.levels levels ∧ (Spec.memory p.build levels ≤ p.high → p.addSymbol st s = .ok ⟨levels, Spec.lastOf (p.sizes.headD 0) (data ++ [s])⟩) ∧
      (p.high < Spec.memory p.build levels → ∀ st', p.addSymbol st s = .ok st' → Spec.memory p.build st'.levels ≤ p.low) := by
  rcases process_inv hc data (init_inv hc) hb with ⟨st', e, i⟩ | ⟨e, _⟩
  · rw [e] at h; cases h
    have hl : Levels (trainAdd st.context s 1 st.levels) := ⟨trainAdd_ok hs Nat.one_pos i.levels.1, by rw [trainAdd_sizes]; exact i.levels.2⟩
    have hsz : (trainAdd st.context s 1 st.levels).map Bld.size = p.sizes := by rw [trainAdd_sizes, i.sizes]
    refine ⟨trainAdd st.context s 1 st.levels, ?_, fun hm => ?_, fun hm st' he => ?_⟩
    · rw [i.context]
      refine trainAdd_recorded i.levels.1 fun b hb' => ?_
      have hin : b.size ∈ p.sizes := by rw [← i.sizes]; exact List.mem_map_of_mem hb'
      have hp := hc.sizes
      cases hs : p.sizes with
      | nil => rw [hs] at hin; cases hin
      | cons a l =>
        rw [hs] at hin hp
        rcases List.mem_cons.mp hin with e | hin
        · rw [e]; exact Nat.le_refl _
        · exact Nat.le_of_lt ((List.pairwise_cons.mp hp).1 _ hin)
    · rw [← memory_spec _ hl.1] at hm
      unfold Par.addSymbol
      rw [if_neg (by omega), i.context, List.nil_append, pushCtx_lastOf]
    · rw [← memory_spec _ hl.1] at hm
      unfold Par.addSymbol at he
      rw [if_pos hm] at he
      rcases shrink_spec hc.sort p.build p.low hl (by rw [hsz]; exact (config_min hc).2) with ⟨bs, q1, q2, q3, q4⟩ | ⟨q1, _⟩
      · rw [q1] at he; cases he
        rw [← memory_spec _ q2.1]; exact q4
      · rw [q1] at he; cases he
  · rw [e] at h; cases h

/-- **C160** `Compactify(t)` of levels that training can have: the contexts of the longest level counted more than `t` times stay as they are, the others leave it; in every level but the last only contexts counted
more than `t` times remain; and no count is lost. -/
theorem compactify_exact {p : Par} {m : Nat} (hc : Spec.Config p m) {data : List Nat} (hb : ∀ s ∈ data, s < 256) {b : Bld} {rest : List Bld} {context : List Nat}
    (h : p.process p.init data = .ok ⟨b :: rest, context⟩) (t : Nat) :
    ∃ c' rest', compactify t (prepare p.srt b) (rest.map (prepare p.srt)) = some (c', rest') ∧
      (rest ≠ [] → c'.b.ctxs = b.ctxs.filter fun x => decide (t < sum x.2)) ∧
      (∀ d ∈ (c'.b :: rest'.map Cmp.b).dropLast, ∀ x ∈ d.ctxs, t < sum x.2) ∧
      (∀ suf s, suf.length = m → Spec.weights m suf s (c'.b :: rest'.map Cmp.b) = Spec.occurrences (suf ++ [s]) data) := by
  rcases process_inv hc data (init_inv hc) hb with ⟨st', e, i⟩ | ⟨e, _⟩
  · rw [e] at h; cases h
    obtain ⟨c', rest', q1, q2, q3, q4, q5, q6, q7, q8⟩ := compactify_spec t _ _ (prepare_chain hc.sort rest b i.levels)
    refine ⟨c', rest', q1, fun hne => q7 (by simpa using hne), q8, fun suf s hs => ?_⟩
    have hle := (config_min hc).2
    rw [← i.sizes] at hle
    rw [show c'.b :: rest'.map Cmp.b = blds c' rest' from rfl, q4 m (lastSize_ge _ _ (by rw [List.map_map]; exact hle)), blds_prepare]
    exact i.weights suf s hs
  · rw [e] at h; cases h

/-- **C160** The dictionary does not depend on how `std::sort` orders contexts counted equally often. -/
theorem sort_irrelevant {p q : Par} {m : Nat} (hp : Spec.Config p m) (hq : Spec.Sort q.srt) (e : q = { p with srt := q.srt }) {data : List Nat} (hb : ∀ s ∈ data, s < 256) :
    p.process p.init data = q.process q.init data ∧ ∀ st, p.process p.init data = .ok st → p.finish st = q.finish st := by
  have h1 := process_same hp hq e data (init_inv hp) hb
  have hinit : q.init = p.init := by rw [e]; rfl
  refine ⟨by rw [hinit]; exact h1, fun st h => ?_⟩
  rcases process_inv hp data (init_inv hp) hb with ⟨st', e', i⟩ | ⟨e', _⟩
  · rw [e'] at h; cases h
    rw [e]
    exact shrink_same hp.sort hq p.made p.final i.levels
  · rw [e'] at h; cases h

/-- **C160** In the finished model a context of the dictionary is found after every data that ends in it, unless all its probabilities have been rounded away. -/
theorem trained_lookup {p : Par} {m : Nat} (hc : Spec.Config p m) {data : List Nat} (hb : ∀ s ∈ data, s < 256) {st : St} (h : p.process p.init data = .ok st) {bs : List Bld} (hf : p.finish st = .ok bs)
    (modulus : Nat → Nat) {b : Bld} (hin : b ∈ bs) {key : List Nat} {counts : List (Nat × Nat)} (hx : (key, counts) ∈ b.ctxs) (hne : (makeCtx b.size (modulus b.size) key counts).syms ≠ [])
    (before : List Nat) :
    makeLevel b.size (modulus b.size) b.ctxs ∈ model modulus bs ∧
    (makeLevel b.size (modulus b.size) b.ctxs).lookup (before ++ key) = some (makeCtx b.size (modulus b.size) key counts) := by
  obtain ⟨_, _, _, h4⟩ := finish_counts hc hb h hf
  obtain ⟨_, _, h5, h6⟩ := h4 b hin
  refine ⟨List.mem_map.mpr ⟨b, hin, rfl⟩, ?_⟩
  have hk : ∀ (s mo : Nat) (k : List Nat) (c : List (Nat × Nat)), (makeCtx s mo k c).key = k := by
    intro s mo k c; unfold makeCtx; simp only []
  refine lookup_found ?_ (List.mem_filter.mpr ⟨List.mem_map.mpr ⟨(key, counts), hx, rfl⟩, decide_eq_true hne⟩) ?_
  · refine List.Pairwise.sublist (List.Sublist.map _ (List.filter_sublist ..)) ?_
    rw [List.map_map]
    have : (Ctx.key ∘ fun x : List Nat × List (Nat × Nat) => makeCtx b.size (modulus b.size) x.1 x.2) = (·.1) := by
      funext x; exact hk ..
    rw [this]; exact h5
  · rw [hk]
    have hl : key.length = b.size := (h6 _ hx).1
    show key = (before ++ key).drop ((before ++ key).length - b.size)
    rw [List.length_append, hl, Nat.add_sub_cancel, List.drop_left]

/-- a sort -/
def Spec.isort (l : List (Nat × List Nat)) : List (Nat × List Nat) := l.foldr insertEntry []

theorem isort_sort : Spec.Sort Spec.isort := by
  intro l
  induction l with
  | nil => exact ⟨List.Perm.refl _, List.Pairwise.nil⟩
  | cons e l ih =>
    obtain ⟨h1, h2⟩ := insertEntry_spec e (Spec.isort l) ih.2
    exact ⟨h2.trans (ih.1.cons e), h1⟩

/-- three levels; a context costs 10 + its size, an entry 2 -/
def Spec.par (low high final : Nat) : Par := ⟨[2, 1, 0], low, high, final, fun n => (10 + n, 2), fun n => (5 + n, 1), Spec.isort⟩

theorem par_config (low high final : Nat) : Spec.Config (Spec.par low high final) 0 :=
  ⟨by show [2, 1, 0].Pairwise (· > ·); decide, rfl, isort_sort⟩

/-- the memory of a finished model, counted by its contexts and symbols -/
def Spec.modelMemory (cost : Nat → Nat × Nat) (ls : List Level) : Nat :=
  (ls.map fun l => l.ctxs.length * (cost l.size).1 + (l.ctxs.map (·.syms.length)).sum * (cost l.size).2).sum

/-- **C160** The final limit is kept by what the builder counts, not by the model: the level without context always has all 256 symbols. -/
theorem final_memory_violated : ∃ (p : Par) (st : St) (bs : List Bld), Spec.Config p 0 ∧ p.process p.init [65] = .ok st ∧ p.finish st = .ok bs ∧
    Spec.memory p.made bs ≤ p.final ∧ p.final < Spec.modelMemory p.made (model (fun _ => 256) bs) :=
  ⟨Spec.par 100 100 20, ⟨[⟨2, [], 0, 0⟩, ⟨1, [], 0, 0⟩, ⟨0, [([], [(65, 1)])], 1, 1⟩], [65]⟩, [⟨2, [], 0, 0⟩, ⟨1, [], 0, 0⟩, ⟨0, [([], [(65, 1)])], 1, 1⟩],
    par_config .., rfl, rfl, by decide, by decide +kernel⟩

/-- **C160** Limits that are too small for the counts of the shortest contexts make `Process` and `Finish` throw. -/
theorem train_throws_violated : ∃ (p q : Par) (data : List Nat) (st : St), Spec.Config p 0 ∧ Spec.Config q 0 ∧
    p.process p.init data = .error .notInitialized ∧ q.process q.init data = .ok st ∧ q.finish st = .error .notInitialized :=
  ⟨Spec.par 11 11 100, Spec.par 100 100 6, [65, 66], ⟨[⟨2, [], 0, 0⟩, ⟨1, [([65], [(66, 1)])], 1, 1⟩, ⟨0, [([], [(65, 1)])], 1, 1⟩], [65, 66]⟩, par_config .., par_config .., rfl, rfl, rfl⟩

-- contexts counted once are folded, then a limit forces everything into the level without context
example : (Spec.par 30 50 12).process (Spec.par 30 50 12).init [1, 2, 1, 2, 1, 2] =
    .ok ⟨[⟨2, [], 0, 0⟩, ⟨1, [([1], [(2, 3)])], 1, 1⟩, ⟨0, [([], [(1, 3)])], 1, 1⟩], [1, 2]⟩ := rfl
example : (Spec.par 30 50 12).finish ⟨[⟨2, [], 0, 0⟩, ⟨1, [([1], [(2, 3)])], 1, 1⟩, ⟨0, [([], [(1, 3)])], 1, 1⟩], [1, 2]⟩ =
    .ok [⟨2, [], 0, 0⟩, ⟨1, [], 0, 0⟩, ⟨0, [([], [(1, 3), (2, 3)])], 1, 2⟩] := rfl
example : Spec.occurrences [1, 2] [1, 2, 1, 2, 1, 2] = 3 := by decide
example : (makeCtx 1 256 [1] [(2, 3)]).syms ≠ [] := by decide
example : (compactify 1 (prepare Spec.isort ⟨1, [([1], [(2, 3)]), ([2], [(5, 1)])], 2, 2⟩) [prepare Spec.isort ⟨0, [([], [(1, 3)])], 1, 1⟩]) =
    some (⟨⟨1, [([1], [(2, 3)])], 1, 1⟩, [(3, [1])]⟩, [⟨⟨0, [([], [(1, 3), (5, 1)])], 1, 2⟩, [(3, [])]⟩]) := rfl

end Verif.Compress.Train

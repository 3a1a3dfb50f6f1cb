import Verif.TwoQueue.Spec
import Verif.Cache.Lemmas
set_option linter.unusedSectionVars false
namespace Verif.TwoQueue
open Verif.Cache Verif.Cache.Spec

section
variable {K V : Type} [DecidableEq K]

theorem mem_iff_find (k : K) (v : V) (c : List (K × V)) (hn : (c.map (·.1)).Nodup) :
    (k, v) ∈ c ↔ find k c = some v := ⟨find_of_mem k v c hn, find_mem k v c⟩

/-- Spilling distinct keys not held by `out` appends them to `out`'s queue; a prefix falls out. -/
theorem spill_spec (sm : V → Nat) (L : List (K × V)) :
    ∀ (out : Cache.State K V) (es : Entries K V), Rep sm out es → ((plain es ++ L).map (·.1)).Nodup →
    ∃ out' es' ev, spill sm out L = some (out', ev) ∧ Rep sm out' es' ∧ out'.capacity = out.capacity ∧
      plain es ++ L = ev ++ plain es' := by
  induction L with
  | nil => intro out es h _; exact ⟨out, es, [], rfl, h, rfl, by simp⟩
  | cons x L ih =>
    obtain ⟨k, v⟩ := x
    intro out es h hn
    obtain ⟨s', pre, post, h1, h2, h3, h4, _⟩ := set_spec sm out es h k v
    have hk : find k es = none := by
      rw [find_none]
      intro hc
      rw [List.map_append, List.nodup_append] at hn
      exact hn.2.2 k (by rw [keys_plain]; exact hc) k (by simp) rfl
    rw [erase_of_find_none k es hk] at h2
    have h2' : plain es ++ [(k, v)] = plain pre ++ plain post := by
      have := congrArg plain h2; simpa [plain] using this
    have hn' : ((plain post ++ L).map (·.1)).Nodup := by
      refine hn.sublist (List.Sublist.map _ ?_)
      rw [show plain es ++ (k, v) :: L = (plain es ++ [(k, v)]) ++ L by simp, h2', List.append_assoc]
      exact List.sublist_append_right _ _
    obtain ⟨out', es', ev, i1, i2, i3, i4⟩ := ih s' post h3 hn'
    refine ⟨out', es', plain pre ++ ev, ?_, i2, i3.trans h4, ?_⟩
    · simp [spill, h1, i1]
    · rw [show plain es ++ (k, v) :: L = (plain es ++ [(k, v)]) ++ L by simp, h2', List.append_assoc, i4, List.append_assoc]

/-- The three parts represent `eo`, `ei`, `eh`, with all keys distinct. -/
structure Rep3 (sm : V → Nat) (s : State K V) (eo ei eh : Entries K V) : Prop where
  out : Rep sm s.outQueue eo
  inn : Rep sm s.inQueue ei
  hot : Rep sm s.hot eh
  keys : ((plain eo ++ plain ei ++ plain eh).map (·.1)).Nodup

def contents (eo ei eh : Entries K V) : List (K × V) := plain eo ++ plain ei ++ plain eh

theorem without_append (k : K) (a b : List (K × V)) : without k (a ++ b) = without k a ++ without k b := by
  simp [without]

theorem without_of_find_none (k : K) (c : List (K × V)) (h : find k c = none) : without k c = c :=
  erase_of_find_none k c h

theorem nodup_perm {a b : List (K × V)} (h : a.Perm b) (hn : (b.map (·.1)).Nodup) : (a.map (·.1)).Nodup :=
  ((h.map _).nodup_iff).2 hn

/-- Effect of an operation on the contents. -/
def Good3 (c : List (K × V)) (e : Event K V) (c' : List (K × V)) : Prop :=
  match e.op with
  | .set k v => (e.evicted ++ c').Perm (without k c ++ [(k, v)])
  | .get k => (e.evicted ++ c').Perm c ∧ e.result = find k c ∧ e.flag = (find k c).isSome
  | .remove k => e.evicted = [] ∧ c' = without k c ∧ e.flag = (find k c).isSome
  | .clear => e.evicted = [] ∧ c' = []

theorem perm_move {k : K} {v : V} {c : List (K × V)} (hn : (c.map (·.1)).Nodup) (hm : (k, v) ∈ c) :
    (without k c ++ [(k, v)]).Perm c := by
  induction c with
  | nil => simp at hm
  | cons x c ih =>
    obtain ⟨k1, v1⟩ := x
    simp only [List.map_cons, List.nodup_cons] at hn
    by_cases h : k1 = k
    · subst h
      have hv : v1 = v := by
        rcases List.mem_cons.1 hm with h | h
        · simpa using h.symm
        · exact absurd (List.mem_map.2 ⟨_, h, rfl⟩) hn.1
      subst hv
      have hw : without k1 c = c := without_of_find_none k1 c ((find_none _ _).2 hn.1)
      have : without k1 ((k1, v1) :: c) = without k1 c := by simp [without]
      rw [this, hw]
      exact List.perm_append_comm
    · have hm' : (k, v) ∈ c := by
        rcases List.mem_cons.1 hm with h' | h'
        · simp only [Prod.mk.injEq] at h'; exact absurd h'.1.symm h
        · exact h'
      have : without k ((k1, v1) :: c) = (k1, v1) :: without k c := by simp [without, h]
      rw [this, List.cons_append]
      exact (ih hn.2 hm').cons _

structure Caps (s s' : State K V) : Prop where
  out : s'.outQueue.capacity = s.outQueue.capacity
  inn : s'.inQueue.capacity = s.inQueue.capacity
  hot : s'.hot.capacity = s.hot.capacity

theorem disjoint (eo ei eh : Entries K V) (hk : ((plain eo ++ plain ei ++ plain eh).map (·.1)).Nodup) (k : K) :
    ((find k eh).isSome → find k eo = none ∧ find k ei = none) ∧ ((find k ei).isSome → find k eo = none) := by
  rw [List.map_append, List.nodup_append, List.map_append, List.nodup_append] at hk
  have key : ∀ es : Entries K V, (find k es).isSome → k ∈ (plain es).map (·.1) := by
    intro es hs
    obtain ⟨r, hr⟩ := Option.isSome_iff_exists.1 hs
    rw [keys_plain]; exact List.mem_map.2 ⟨_, find_mem _ _ _ hr, rfl⟩
  have key' : ∀ es : Entries K V, (k ∈ (plain es).map (·.1) → False) → find k es = none := by
    intro es hs; rw [find_none, ← keys_plain]; exact hs
  refine ⟨fun hs => ⟨key' _ fun hc => ?_, key' _ fun hc => ?_⟩, fun hs => key' _ fun hc => ?_⟩
  · exact hk.2.2 k (List.mem_append.2 (Or.inl hc)) k (key _ hs) rfl
  · exact hk.2.2 k (List.mem_append.2 (Or.inr hc)) k (key _ hs) rfl
  · exact hk.1.2.2 k hc k (key _ hs) rfl

theorem set3_spec (sm : V → Nat) (s : State K V) (eo ei eh : Entries K V) (h : Rep3 sm s eo ei eh) (k : K) (v : V) :
    ∃ s' eo' ei' eh' ev, set sm s k v = some (s', ev) ∧ Rep3 sm s' eo' ei' eh' ∧ Caps s s' ∧
      (ev ++ contents eo' ei' eh').Perm (without k (contents eo ei eh) ++ [(k, v)]) := by
  have hk := h.keys
  obtain ⟨hot', a1, a2, a3⟩ := remove_spec sm s.hot eh h.hot k
  -- `_outQueue.Remove` is skipped only when the key is not in `_outQueue`
  have hout : ∃ out', (if (find k eh).isSome then some s.outQueue else (Cache.remove sm s.outQueue k).map (·.1)) = some out' ∧
      Rep sm out' (erase k eo) ∧ out'.capacity = s.outQueue.capacity := by
    by_cases hf : (find k eh).isSome
    · refine ⟨s.outQueue, by rw [if_pos hf], ?_, rfl⟩
      have : find k eo = none := ((disjoint eo ei eh hk k).1 hf).1
      rw [erase_of_find_none k eo this]; exact h.out
    · obtain ⟨out', b1, b2, b3⟩ := remove_spec sm s.outQueue eo h.out k
      exact ⟨out', by rw [if_neg hf, b1]; rfl, b2, b3⟩
  obtain ⟨out', b1, b2, b3⟩ := hout
  obtain ⟨in', pre, post, c1, c2, c3, c4, _⟩ := set_spec sm s.inQueue ei h.inn k v
  have c2' : without k (plain ei) ++ [(k, v)] = plain pre ++ plain post := by
    have := congrArg plain c2
    rw [← plain_erase]; simpa [plain] using this
  -- keys of everything after removing `k` and adding it back once
  have hall : ((without k (plain eo) ++ (without k (plain ei) ++ [(k, v)]) ++ without k (plain eh)).map (·.1)).Nodup := by
    have := nodup_without k v _ hk
    refine nodup_perm ?_ this
    rw [without_append, without_append]
    simp only [List.append_assoc]
    refine List.Perm.append_left _ (List.Perm.append_left _ ?_)
    exact List.perm_append_comm
  have hn : ((plain (erase k eo) ++ plain pre).map (·.1)).Nodup := by
    rw [c2'] at hall
    refine hall.sublist (List.Sublist.map _ ?_)
    rw [plain_erase]
    refine (List.Sublist.append_left ?_ _).trans (List.sublist_append_left _ _)
    exact List.sublist_append_left _ _
  obtain ⟨out'', eo', ev, d1, d2, d3, d4⟩ := spill_spec sm (plain pre) out' (erase k eo) b2 hn
  rw [plain_erase] at d4
  have hperm : (ev ++ contents eo' post (erase k eh)).Perm (without k (contents eo ei eh) ++ [(k, v)]) := by
    unfold contents
    rw [plain_erase, without_append, without_append, ← List.append_assoc, ← List.append_assoc, ← d4]
    have : (without k (plain eo) ++ plain pre ++ plain post ++ without k (plain eh)) =
        without k (plain eo) ++ (without k (plain ei) ++ [(k, v)]) ++ without k (plain eh) := by
      rw [c2']; simp [List.append_assoc]
    rw [this]
    simp only [List.append_assoc]
    refine List.Perm.append_left _ (List.Perm.append_left _ ?_)
    exact List.perm_append_comm
  refine ⟨⟨in', out'', hot'⟩, eo', post, erase k eh, ev, ?_, ⟨d2, c3, a2, ?_⟩, ⟨d3.trans b3, c4, a3⟩, hperm⟩
  · unfold set; simp only [a1, b1, c1, d1]
  · have h1 := nodup_perm hperm (nodup_without k v _ hk)
    exact h1.sublist (List.Sublist.map _ (List.sublist_append_right _ _))

theorem find_contents (k : K) (eo ei eh : Entries K V) :
    find k (contents eo ei eh) = ((find k eo).map (·.1)).or (((find k ei).map (·.1)).or ((find k eh).map (·.1))) := by
  unfold contents
  rw [find_append, find_append, find_plain, find_plain, find_plain, Option.or_assoc]

theorem get3_spec (sm : V → Nat) (s : State K V) (eo ei eh : Entries K V) (h : Rep3 sm s eo ei eh) (k : K) :
    ∃ s' eo' ei' eh' ev, tryGet sm s k = some (s', find k (contents eo ei eh), ev) ∧ Rep3 sm s' eo' ei' eh' ∧ Caps s s' ∧
      (ev ++ contents eo' ei' eh').Perm (contents eo ei eh) := by
  have hk := h.keys
  obtain ⟨dh, di⟩ := disjoint eo ei eh hk k
  obtain ⟨hot', eh', a1, a2, a3, a4⟩ := get_spec .lru sm s.hot eh h.hot k
  cases hfh : find k eh with
  | some r =>
    rw [hfh] at a1 a4 dh
    obtain ⟨d1, d2⟩ := dh rfl
    have hp : (contents eo ei eh').Perm (contents eo ei eh) := by
      unfold contents
      refine List.Perm.append_left _ ?_
      rw [a4]; simp only [↓reduceIte]
      refine perm_move (by rw [keys_plain]; exact h.hot.keys) ?_
      refine find_mem _ _ _ ?_
      rw [find_plain, hfh]; rfl
    refine ⟨{ s with hot := hot' }, eo, ei, eh', [], ?_, ⟨h.out, h.inn, a2, ?_⟩, ⟨rfl, rfl, a3⟩, by simpa using hp⟩
    · unfold tryGet; rw [a1, find_contents, d1, d2, hfh]; rfl
    · exact nodup_perm hp hk
  | none =>
    rw [hfh] at a1 a4
    simp only at a4
    obtain ⟨in', ei', b1, b2, b3, b4⟩ := get_spec .fifo sm s.inQueue ei h.inn k
    have b4' : plain ei' = plain ei := by rw [b4]; cases find k ei <;> rfl
    cases hfi : find k ei with
    | some r =>
      rw [hfi] at b1 di
      have d1 := di rfl
      have hp : contents eo ei' eh' = contents eo ei eh := by unfold contents; rw [a4, b4']
      refine ⟨{ s with hot := hot', inQueue := in' }, eo, ei', eh', [], ?_, ⟨h.out, b2, a2, ?_⟩, ⟨rfl, b3, a3⟩, by rw [hp]; simp⟩
      · unfold tryGet; rw [a1, b1, find_contents, d1, hfi]; rfl
      · show ((contents eo ei' eh').map (·.1)).Nodup
        rw [hp]; exact hk
    | none =>
      rw [hfi] at b1
      obtain ⟨out', eo', c1, c2, c3, c4⟩ := get_spec .fifo sm s.outQueue eo h.out k
      have c4' : plain eo' = plain eo := by rw [c4]; cases find k eo <;> rfl
      cases hfo : find k eo with
      | none =>
        rw [hfo] at c1
        have hp : contents eo' ei' eh' = contents eo ei eh := by unfold contents; rw [a4, b4', c4']
        refine ⟨{ s with hot := hot', inQueue := in', outQueue := out' }, eo', ei', eh', [], ?_, ⟨c2, b2, a2, ?_⟩, ⟨c3, b3, a3⟩, by rw [hp]; simp⟩
        · unfold tryGet; rw [a1, b1, c1, find_contents, hfo, hfi, hfh]; rfl
        · show ((contents eo' ei' eh').map (·.1)).Nodup
          rw [hp]; exact hk
      | some r =>
        rw [hfo] at c1
        obtain ⟨out'', d1, d2, d3⟩ := remove_spec sm out' eo' c2 k
        obtain ⟨hot'', pre, post, e1, e2, e3, e4, _⟩ := set_spec sm hot' eh' a2 k r.1
        have hfh' : find k eh' = none := by
          rw [← Option.map_eq_none_iff (f := (·.1)), ← find_plain, a4, find_plain, hfh]; rfl
        rw [erase_of_find_none k eh' hfh'] at e2
        have e2' : plain eh ++ [(k, r.1)] = plain pre ++ plain post := by
          have := congrArg plain e2
          rw [← a4]; simpa [plain] using this
        have hp : (plain pre ++ contents (erase k eo') ei' post).Perm (contents eo ei eh) := by
          unfold contents
          rw [plain_erase, c4', b4']
          have hmv : (without k (plain eo) ++ [(k, r.1)]).Perm (plain eo) := by
            refine perm_move (by rw [keys_plain]; exact h.out.keys) (find_mem _ _ _ ?_)
            rw [find_plain, hfo]; rfl
          refine List.Perm.trans ?_ ((hmv.append_right (plain ei)).append_right (plain eh))
          -- move `pre` to `post`, then use `e2'`
          refine List.Perm.trans (l₂ := (without k (plain eo) ++ plain ei) ++ (plain pre ++ plain post)) ?_ ?_
          · rw [← List.append_assoc, ← List.append_assoc _ (plain pre)]
            refine List.Perm.append_right _ ?_
            exact List.perm_append_comm
          · rw [← e2']
            simp only [List.append_assoc]
            refine List.Perm.append_left _ ?_
            rw [← List.append_assoc, ← List.append_assoc]
            exact List.perm_append_comm
        refine ⟨{ s with hot := hot'', inQueue := in', outQueue := out'' }, erase k eo', ei', post, plain pre, ?_,
          ⟨d2, b2, e3, ?_⟩, ⟨d3.trans c3, b3, e4.trans a3⟩, hp⟩
        · unfold tryGet; rw [a1, b1, c1, find_contents, hfo]; simp only [Option.map_some, Option.map_none]
          rw [d1]; simp only; rw [e1]; rfl
        · exact (nodup_perm hp hk).sublist (List.Sublist.map _ (List.sublist_append_right _ _))

theorem remove3_spec (sm : V → Nat) (s : State K V) (eo ei eh : Entries K V) (h : Rep3 sm s eo ei eh) (k : K) :
    ∃ s' eo' ei' eh', remove sm s k = some (s', (find k (contents eo ei eh)).isSome) ∧ Rep3 sm s' eo' ei' eh' ∧ Caps s s' ∧
      contents eo' ei' eh' = without k (contents eo ei eh) := by
  have hk := h.keys
  obtain ⟨dh, di⟩ := disjoint eo ei eh hk k
  have nod : ∀ a b c : Entries K V, contents a b c = without k (contents eo ei eh) →
      ((plain a ++ plain b ++ plain c).map (·.1)).Nodup := by
    intro a b c habc
    show ((contents a b c).map (·.1)).Nodup
    rw [habc]; exact hk.sublist (List.Sublist.map _ List.filter_sublist)
  obtain ⟨hot', a1, a2, a3⟩ := remove_spec sm s.hot eh h.hot k
  obtain ⟨out', b1, b2, b3⟩ := remove_spec sm s.outQueue eo h.out k
  obtain ⟨in', c1, c2, c3⟩ := remove_spec sm s.inQueue ei h.inn k
  have hcon : contents (erase k eo) (erase k ei) (erase k eh) = without k (contents eo ei eh) := by
    unfold contents; rw [plain_erase, plain_erase, plain_erase, without_append, without_append]
  cases hfh : find k eh with
  | some r =>
    rw [hfh] at a1 dh
    obtain ⟨d1, d2⟩ := dh rfl
    rw [erase_of_find_none k eo d1, erase_of_find_none k ei d2] at hcon
    refine ⟨{ s with hot := hot' }, eo, ei, erase k eh, ?_, ⟨h.out, h.inn, a2, nod _ _ _ hcon⟩, ⟨rfl, rfl, a3⟩, hcon⟩
    unfold remove; rw [a1, find_contents, d1, d2, hfh]; rfl
  | none =>
    rw [hfh] at a1
    cases hfo : find k eo with
    | some r =>
      rw [hfo] at b1 di
      have d2 : find k ei = none := by
        cases hfi : find k ei with
        | none => rfl
        | some x => rw [hfi] at di; simpa using di rfl
      rw [erase_of_find_none k ei d2] at hcon
      refine ⟨{ s with hot := hot', outQueue := out' }, erase k eo, ei, erase k eh, ?_, ⟨b2, h.inn, a2, nod _ _ _ hcon⟩, ⟨b3, rfl, a3⟩, hcon⟩
      unfold remove; rw [a1]; simp only [Option.isSome_none]; rw [b1, find_contents, hfo]; rfl
    | none =>
      rw [hfo] at b1
      refine ⟨{ s with hot := hot', outQueue := out', inQueue := in' }, erase k eo, erase k ei, erase k eh, ?_, ⟨b2, c2, a2, nod _ _ _ hcon⟩, ⟨b3, c3, a3⟩, hcon⟩
      unfold remove; rw [a1]; simp only [Option.isSome_none]; rw [b1]; simp only [Option.isSome_none]; rw [c1, find_contents, hfo, hfh]
      cases find k ei <;> rfl

theorem step3_spec (sm : V → Nat) (s : State K V) (eo ei eh : Entries K V) (h : Rep3 sm s eo ei eh) (op : Op K V) :
    ∃ s' eo' ei' eh' e, step sm s op = some (s', e) ∧ e.op = op ∧ e.sizeAfter = getSize s' ∧ Rep3 sm s' eo' ei' eh' ∧ Caps s s' ∧
      Good3 (contents eo ei eh) e (contents eo' ei' eh') := by
  cases op with
  | set k v =>
    obtain ⟨s', eo', ei', eh', ev, h1, h2, h3, h4⟩ := set3_spec sm s eo ei eh h k v
    exact ⟨s', eo', ei', eh', ⟨.set k v, none, true, ev, getSize s'⟩, by simp only [step, h1, Option.map_some], rfl, rfl, h2, h3, h4⟩
  | get k =>
    obtain ⟨s', eo', ei', eh', ev, h1, h2, h3, h4⟩ := get3_spec sm s eo ei eh h k
    exact ⟨s', eo', ei', eh', ⟨.get k, _, (find k (contents eo ei eh)).isSome, ev, getSize s'⟩, by simp only [step, h1, Option.map_some], rfl, rfl, h2, h3, h4, rfl, rfl⟩
  | remove k =>
    obtain ⟨s', eo', ei', eh', h1, h2, h3, h4⟩ := remove3_spec sm s eo ei eh h k
    exact ⟨s', eo', ei', eh', ⟨.remove k, none, (find k (contents eo ei eh)).isSome, [], getSize s'⟩, by simp only [step, h1, Option.map_some], rfl, rfl, h2, h3, rfl, h4, rfl⟩
  | clear =>
    refine ⟨clear s, [], [], [], _, rfl, rfl, rfl, ⟨clear_spec sm _, clear_spec sm _, clear_spec sm _, by simp [plain]⟩, ⟨rfl, rfl, rfl⟩, rfl, rfl⟩

theorem expected_snoc (k : K) (t : List (Event K V)) (e : Event K V) :
    Spec.expected k (t ++ [e]) = Spec.after k (Spec.expected k t) e := by
  simp [Spec.expected, List.foldl_append]

theorem find_perm {a b : List (K × V)} (h : a.Perm b) (hn : (b.map (·.1)).Nodup) (k : K) : find k a = find k b := by
  have ha := nodup_perm h hn
  cases hf : find k b with
  | none =>
    rw [find_none] at hf ⊢
    intro hc; exact hf ((h.map (·.1)).mem_iff.1 hc)
  | some v => exact find_of_mem _ _ _ ha (h.mem_iff.2 (find_mem _ _ _ hf))

/-- After evictions, a key is found in the rest exactly if it was there and is not among the evicted. -/
theorem find_rest (ev c' c : List (K × V)) (h : (ev ++ c').Perm c) (hn : (c.map (·.1)).Nodup) (k : K) :
    find k c' = if ev.any (fun x => x.1 = k) then none else find k c := by
  have hn' := nodup_perm h hn
  rw [← find_perm h hn k, find_append]
  rw [List.map_append, List.nodup_append] at hn'
  by_cases hin : k ∈ ev.map (·.1)
  · have : ev.any (fun x => x.1 = k) = true := by
      rw [List.any_eq_true]; obtain ⟨x, hx, hxk⟩ := List.mem_map.1 hin; exact ⟨x, hx, by simpa using hxk⟩
    rw [if_pos this, find_none]
    intro hc; exact hn'.2.2 _ hin _ hc rfl
  · have : ¬ ev.any (fun x => x.1 = k) = true := by
      rw [List.any_eq_true]; rintro ⟨x, hx, hxk⟩; exact hin (List.mem_map.2 ⟨x, hx, by simpa using hxk⟩)
    rw [if_neg this, (find_none k ev).2 hin]; rfl

theorem good3_after (c c' : List (K × V)) (e : Event K V) (hn : (c.map (·.1)).Nodup) (h : Good3 c e c') (k : K) :
    find k c' = Spec.after k (find k c) e := by
  obtain ⟨op, res, flag, ev, n⟩ := e
  cases op with
  | set k' v =>
    have h : (ev ++ c').Perm (without k' c ++ [(k', v)]) := h
    rw [find_rest ev c' _ h (nodup_without k' v c hn), find_set]; rfl
  | get k' =>
    have h : (ev ++ c').Perm c ∧ _ := h
    rw [find_rest ev c' _ h.1 hn]; rfl
  | remove k' =>
    obtain ⟨rfl, h, _⟩ := h
    rw [h, find_without]; simp [Spec.after]
  | clear =>
    obtain ⟨rfl, h⟩ := h
    rw [h]; simp [Spec.after]

theorem runFrom3_append (sm : V → Nat) (ops ops' : List (Op K V)) (s : State K V) :
    runFrom sm s (ops ++ ops') =
      match runFrom sm s ops with
      | none => none
      | some (s', evs) =>
        match runFrom sm s' ops' with
        | none => none
        | some (s'', evs') => some (s'', evs ++ evs') := by
  induction ops generalizing s with
  | nil => simp only [List.nil_append, runFrom]; cases runFrom sm s ops' <;> rfl
  | cons op ops ih =>
    simp only [List.cons_append, runFrom]
    cases step sm s op with
    | none => rfl
    | some r =>
      obtain ⟨s', out⟩ := r
      simp only [ih]
      cases runFrom sm s' ops with
      | none => rfl
      | some r =>
        obtain ⟨s1, e1⟩ := r
        simp only
        cases runFrom sm s1 ops' with
        | none => rfl
        | some r => rfl

theorem run3_spec (sm : V → Nat) (ci co ch : Nat) (ops : List (Op K V)) :
    ∃ s t eo ei eh, runFrom sm (init ci co ch : State K V) ops = some (s, t) ∧ Rep3 sm s eo ei eh ∧
      Caps (init ci co ch : State K V) s ∧ ∀ k, Spec.expected k t = find k (contents eo ei eh) := by
  induction ops using snoc_induction with
  | nil => exact ⟨_, [], [], [], [], rfl, ⟨init_rep sm _, init_rep sm _, init_rep sm _, by simp [plain]⟩, ⟨rfl, rfl, rfl⟩, fun _ => rfl⟩
  | snoc ops op ih =>
    obtain ⟨s, t, eo, ei, eh, h1, h2, h3, h4⟩ := ih
    obtain ⟨s', eo', ei', eh', e, g1, g2, g3, g4, g5, g6⟩ := step3_spec sm s eo ei eh h2 op
    refine ⟨s', t ++ [e], eo', ei', eh', ?_, g4, ⟨g5.out.trans h3.out, g5.inn.trans h3.inn, g5.hot.trans h3.hot⟩, ?_⟩
    · rw [runFrom3_append, h1]; simp [runFrom, g1]
    · intro k; rw [expected_snoc, h4]; exact (good3_after _ _ e h2.keys g6 k).symm

end
end Verif.TwoQueue

import Verif.TwoQueue.Lemmas
/- Property theorems for `TwoQueueCache`. -/
set_option linter.unusedSectionVars false
namespace Verif.TwoQueue
open Verif.Cache (Op)

section
variable {K V : Type} [DecidableEq K]

/-- C06, reads. After any history no internal check has failed and `TryGet(k)` returns exactly the value of the latest `Set(k, ·)`
unless `k` was since removed, cleared or reported evicted (`Spec.expected`). -/
theorem two_queue_read_latest (sm : V → Nat) (ci co ch : Nat) (ops : List (Op K V)) (k : K) :
    ∃ t e, run sm ci co ch ops = some t ∧ run sm ci co ch (ops ++ [.get k]) = some (t ++ [e]) ∧
      e.op = .get k ∧ e.result = Spec.expected k t ∧ e.flag = (Spec.expected k t).isSome := by
  obtain ⟨s, t, eo, ei, eh, h1, h2, h3, h4⟩ := run3_spec sm ci co ch ops
  obtain ⟨s', eo', ei', eh', e, g1, g2, g3, g4, g5, g6⟩ := step3_spec sm s eo ei eh h2 (.get k)
  refine ⟨t, e, by simp [run, h1], ?_, g2, ?_, ?_⟩
  · simp only [run]; rw [runFrom3_append, h1]; simp [runFrom, g1]
  · unfold Good3 at g6; rw [g2] at g6; rw [h4]; exact g6.2.1
  · unfold Good3 at g6; rw [g2] at g6; rw [h4]; exact g6.2.2

/-- C06, accounting. After every call `GetSize()` is the sum of the sizes of exactly the retrievable entries, each key counted
once (so no key is held twice), and it is bounded by the three capacities together. -/
theorem two_queue_accounting (sm : V → Nat) (ci co ch : Nat) (ops : List (Op K V)) (op : Op K V) :
    ∃ t e entries, run sm ci co ch (ops ++ [op]) = some (t ++ [e]) ∧ e.op = op ∧
      (entries.map (·.1)).Nodup ∧ (∀ k v, (k, v) ∈ entries ↔ Spec.expected k (t ++ [e]) = some v) ∧
      e.sizeAfter = ((Cache.Spec.total sm entries : Nat) : Int) ∧ e.sizeAfter ≤ ((ci + co + ch : Nat) : Int) := by
  obtain ⟨s, t, eo, ei, eh, h1, h2, h3, h4⟩ := run3_spec sm ci co ch ops
  obtain ⟨s', eo', ei', eh', e, g1, g2, g3, g4, g5, g6⟩ := step3_spec sm s eo ei eh h2 op
  have hsz : getSize s' = ((Cache.Spec.total sm (contents eo' ei' eh') : Nat) : Int) := by
    simp only [getSize, Cache.getSize]
    rw [g4.hot.size, g4.inn.size, g4.out.size]
    simp only [← Cache.total_plain, contents, Cache.Spec.total, List.map_append, List.sum_append_nat]
    omega
  refine ⟨t, e, contents eo' ei' eh', ?_, g2, g4.keys, ?_, by rw [g3, hsz], ?_⟩
  · simp only [run]; rw [runFrom3_append, h1]; simp [runFrom, g1]
  · intro k v
    rw [mem_iff_find k v (contents eo' ei' eh') g4.keys, expected_snoc, h4, good3_after (contents eo ei eh) _ e h2.keys g6]
  · rw [g3]; simp only [getSize, Cache.getSize]
    rw [g4.hot.size, g4.inn.size, g4.out.size]
    have a := g4.hot.fits; have b := g4.inn.fits; have c := g4.out.fits
    rw [g5.hot, h3.hot] at a; rw [g5.inn, h3.inn] at b; rw [g5.out, h3.out] at c
    simp only [init, Cache.init] at a b c
    omega

/-- C06, no silent loss. A call reports through `OnEvicted` exactly the entries that stop being retrievable because of it, each
once and with the value a lookup would have returned (for `Set`: after the new value is in place); `Remove` and `Clear` report nothing. -/
theorem two_queue_no_silent_loss (sm : V → Nat) (ci co ch : Nat) (ops : List (Op K V)) (op : Op K V) :
    ∃ t e, run sm ci co ch ops = some t ∧ run sm ci co ch (ops ++ [op]) = some (t ++ [e]) ∧
      (e.evicted.map (·.1)).Nodup ∧
      (∀ k v, (k, v) ∈ e.evicted ↔
        (match op with
          | .set k' v' => if k = k' then v = v' else Spec.expected k t = some v
          | .get _ => Spec.expected k t = some v
          | .remove _ => False
          | .clear => False) ∧ Spec.expected k (t ++ [e]) = none) := by
  obtain ⟨s, t, eo, ei, eh, h1, h2, h3, h4⟩ := run3_spec sm ci co ch ops
  obtain ⟨s', eo', ei', eh', e, g1, g2, g3, g4, g5, g6⟩ := step3_spec sm s eo ei eh h2 op
  have hrun : run sm ci co ch (ops ++ [op]) = some (t ++ [e]) := by
    simp only [run]; rw [runFrom3_append, h1]; simp [runFrom, g1]
  refine ⟨t, e, by simp [run, h1], hrun, ?_⟩
  -- the contents a lookup would see if nothing were evicted
  have main : ∀ c0 : List (K × V), (c0.map (·.1)).Nodup → (e.evicted ++ contents eo' ei' eh').Perm c0 →
      (e.evicted.map (·.1)).Nodup ∧ ∀ k v, (k, v) ∈ e.evicted ↔ Cache.find k c0 = some v ∧ Spec.expected k (t ++ [e]) = none := by
    intro c0 hn hp
    have hn' := nodup_perm hp hn
    have hn'' := hn'
    rw [List.map_append, List.nodup_append] at hn''
    refine ⟨hn''.1, fun k v => ?_⟩
    rw [expected_snoc, h4, ← good3_after (contents eo ei eh) _ e h2.keys g6, ← find_perm hp hn k]
    constructor
    · intro hm
      refine ⟨Cache.find_of_mem _ _ _ hn' (by simp [hm]), ?_⟩
      rw [Cache.find_none]; intro hc
      exact hn''.2.2 _ (List.mem_map.2 ⟨_, hm, rfl⟩) _ hc rfl
    · rintro ⟨hf, hnone⟩
      rw [Cache.find_append, hnone, Option.or_none] at hf
      exact Cache.find_mem _ _ _ hf
  unfold Good3 at g6
  cases op with
  | set k' v' =>
    rw [g2] at g6
    obtain ⟨m1, m2⟩ := main _ (Cache.nodup_without k' v' (contents eo ei eh) h2.keys) g6
    refine ⟨m1, fun k v => ?_⟩
    rw [m2, Cache.find_set]
    refine and_congr_left fun _ => ?_
    by_cases hk : k = k'
    · simp [hk, eq_comm]
    · simp only [hk, Ne.symm hk, if_false]; rw [h4]
  | get k' =>
    rw [g2] at g6
    obtain ⟨m1, m2⟩ := main _ h2.keys g6.1
    refine ⟨m1, fun k v => ?_⟩
    rw [m2]; simp only; rw [h4]; exact Iff.rfl
  | remove k' => rw [g2] at g6; rw [g6.1]; simp
  | clear => rw [g2] at g6; rw [g6.1]; simp

end

/-! Non-vacuity: `in` capacity 1, `out` capacity 1, `hot` capacity 1. Key 1 moves in → out → hot; key 2 then falls out of `out`. -/
def demo : List (Op Nat Nat) := [.set 1 10, .set 2 20, .get 1, .set 3 30, .set 4 40]

example : (run (fun _ => 1) 1 1 1 demo).map (·.map fun e => (e.result, e.evicted, e.sizeAfter)) =
    some [(none, [], 1), (none, [], 2), (some 10, [], 2), (none, [], 3), (none, [(2, 20)], 3)] := by decide +kernel
example : (run (fun _ => 1) 1 1 1 demo).map (fun t => (Spec.expected 1 t, Spec.expected 2 t)) = some (some 10, none) := by
  decide +kernel

end Verif.TwoQueue

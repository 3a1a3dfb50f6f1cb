import Verif.Cache.Lemmas
/-
Property theorems for `FifoCache` / `LruCache` (QueueCache.h). All statements are about observable traces of calls on a
fresh cache (`run`), for every key/value type, size mapper, capacity and history.
-/
set_option linter.unusedSectionVars false
namespace Verif.Cache
open Spec

section
variable {K V : Type} [DecidableEq K]

/-- C01. No internal check ever fails; after every call `GetSize()` is the sum of the sizes of exactly the entries that a
following `TryGet` would find, each key counted once, and it does not exceed the capacity. -/
theorem cache_size_accounting (p : Policy) (sm : V → Nat) (cap : Nat) (ops : List (Op K V)) (op : Op K V) :
    ∃ t e entries, run p sm cap ops = some t ∧ run p sm cap (ops ++ [op]) = some (t ++ [e]) ∧ e.op = op ∧
      (entries.map (·.1)).Nodup ∧
      (∀ k v, (k, v) ∈ entries ↔ ∃ n, run p sm cap (ops ++ [op] ++ [.get k]) = some (t ++ [e] ++ [⟨.get k, .get (some v), n⟩])) ∧
      e.sizeAfter = ((total sm entries : Nat) : Int) ∧ e.sizeAfter ≤ (cap : Int) := by
  obtain ⟨t, out, s, es', h1, h2, h3, h4, h5, h6, _, _, h8, _⟩ := run_step_spec p sm cap ops op
  have hn : ((plain es').map (·.1)).Nodup := by rw [keys_plain]; exact h4.keys
  refine ⟨t, _, plain es', h1, h3, rfl, hn, ?_, ?_, ?_⟩
  · intro k v
    obtain ⟨t', out', s', es'', i1, i2, i3, i4, i5, i6, i7, i8, i9, i10⟩ := run_step_spec p sm cap (ops ++ [op]) (.get k)
    rw [h3] at i1
    simp only [Option.some.injEq] at i1
    subst i1
    obtain ⟨rfl, _⟩ := i10
    rw [i3, h6]
    constructor
    · intro hm
      refine ⟨getSize s', ?_⟩
      rw [find_of_mem k v _ (by rw [← h6]; exact hn) hm]
    · rintro ⟨n, hn'⟩
      simp only [Option.some.injEq, List.append_cancel_left_eq, List.cons.injEq, Event.mk.injEq, Out.get.injEq, and_true, true_and] at hn'
      exact find_mem _ _ _ hn'.1
  · simp only [getSize]; rw [h4.size, total_plain]
  · simp only [getSize]; rw [h4.size, ← h5]; exact_mod_cast h4.fits

/-- C02. After any history, `TryGet(k)` returns the value of the last `Set(k, ·)` unless `k` has since been removed, cleared
or reported evicted (`Spec.expected`), and fails otherwise. -/
theorem cache_read_latest (p : Policy) (sm : V → Nat) (cap : Nat) (ops : List (Op K V)) (k : K) :
    ∃ t n, run p sm cap ops = some t ∧
      run p sm cap (ops ++ [.get k]) = some (t ++ [⟨.get k, .get (expected k t none), n⟩]) := by
  obtain ⟨t, out, s, es', h1, h2, h3, h4, h5, h6, h7, h8, h9, rfl, _⟩ := run_step_spec p sm cap ops (.get k)
  exact ⟨t, _, h1, by rw [h8]; exact h3⟩

/-- The common form of C03–C05: what a `Set` evicts, for either policy. -/
theorem cache_eviction (p : Policy) (sm : V → Nat) (cap : Nat) (ops : List (Op K V)) (k : K) (v : V) :
    ∃ t e evicted rest, run p sm cap ops = some t ∧ run p sm cap (ops ++ [.set k v]) = some (t ++ [e]) ∧
      e.op = .set k v ∧ e.out = .set evicted ∧
      without k (aged p t []) ++ [(k, v)] = evicted ++ rest ∧ rest = aged p (t ++ [e]) [] ∧
      (∀ a ∈ evicted, ∀ b ∈ rest, lastUse p a.1 (t ++ [e]) 0 0 < lastUse p b.1 (t ++ [e]) 0 0) ∧
      evicted.Pairwise (fun a b => lastUse p a.1 (t ++ [e]) 0 0 < lastUse p b.1 (t ++ [e]) 0 0) ∧
      total sm rest ≤ cap ∧ (∀ a b, evicted = a ++ b → b ≠ [] → cap < total sm (b ++ rest)) := by
  obtain ⟨t, out, s, es', h1, h2, h3, h4, h5, h6, h7, h8, h9, ev, rfl, h10, h11⟩ := run_step_spec p sm cap ops (.set k v)
  have hs : (ev ++ plain es').Pairwise (fun a b => lastUse p a.1 (t ++ [⟨.set k v, .set ev, getSize s⟩]) 0 0 < lastUse p b.1 (t ++ [⟨.set k v, .set ev, getSize s⟩]) 0 0) := by
    rw [← h10, List.pairwise_append]
    have ha := aged_sorted p t
    refine ⟨?_, by simp, ?_⟩
    · refine (ha.sublist (List.filter_sublist (p := fun e => decide (e.1 ≠ k)))).imp_of_mem ?_
      intro a b ha hb hab
      have h1 := (List.mem_filter.1 ha).2; have h2 := (List.mem_filter.1 hb).2
      simp only [decide_eq_true_eq] at h1 h2
      rw [lastUse_snoc, lastUse_snoc]
      simp only [uses, decide_eq_true_eq, Ne.symm h1, Ne.symm h2, if_false]; exact hab
    · intro a ha b hb
      simp only [List.mem_singleton] at hb; subst hb
      have h1 := (List.mem_filter.1 ha).2; simp only [decide_eq_true_eq] at h1
      rw [lastUse_snoc, lastUse_snoc]
      simp only [uses, decide_eq_true_eq, Ne.symm h1, if_false, if_true]
      have := lastUse_le p a.1 t 0 0 (Nat.le_refl _)
      omega
  rw [List.pairwise_append] at hs
  refine ⟨t, _, ev, plain es', h1, h3, rfl, rfl, h10, h6, hs.2.2, hs.1, ?_, h11⟩
  rw [total_plain, ← h5]; exact h4.fits

/-- C03. FIFO: the entries evicted by a `Set` were all last *set* before every entry that stays, and they are reported in
that order; together with the entries that stay they are exactly the entries held. Lookups do not count (`Spec.uses`). -/
theorem fifo_eviction_order (sm : V → Nat) (cap : Nat) (ops : List (Op K V)) (k : K) (v : V) :
    ∃ t e evicted rest, run .fifo sm cap ops = some t ∧ run .fifo sm cap (ops ++ [.set k v]) = some (t ++ [e]) ∧
      e.op = .set k v ∧ e.out = .set evicted ∧
      without k (aged .fifo t []) ++ [(k, v)] = evicted ++ rest ∧ rest = aged .fifo (t ++ [e]) [] ∧
      (∀ a ∈ evicted, ∀ b ∈ rest, lastUse .fifo a.1 (t ++ [e]) 0 0 < lastUse .fifo b.1 (t ++ [e]) 0 0) ∧
      evicted.Pairwise (fun a b => lastUse .fifo a.1 (t ++ [e]) 0 0 < lastUse .fifo b.1 (t ++ [e]) 0 0) := by
  obtain ⟨t, e, ev, rest, h1, h2, h3, h4, h5, h6, h7, h8, _⟩ := cache_eviction .fifo sm cap ops k v
  exact ⟨t, e, ev, rest, h1, h2, h3, h4, h5, h6, h7, h8⟩

/-- C04. LRU: the entries evicted by a `Set` were all last *used* (set or successfully looked up) before every entry that
stays, and they are reported in that order. -/
theorem lru_eviction_order (sm : V → Nat) (cap : Nat) (ops : List (Op K V)) (k : K) (v : V) :
    ∃ t e evicted rest, run .lru sm cap ops = some t ∧ run .lru sm cap (ops ++ [.set k v]) = some (t ++ [e]) ∧
      e.op = .set k v ∧ e.out = .set evicted ∧
      without k (aged .lru t []) ++ [(k, v)] = evicted ++ rest ∧ rest = aged .lru (t ++ [e]) [] ∧
      (∀ a ∈ evicted, ∀ b ∈ rest, lastUse .lru a.1 (t ++ [e]) 0 0 < lastUse .lru b.1 (t ++ [e]) 0 0) ∧
      evicted.Pairwise (fun a b => lastUse .lru a.1 (t ++ [e]) 0 0 < lastUse .lru b.1 (t ++ [e]) 0 0) := by
  obtain ⟨t, e, ev, rest, h1, h2, h3, h4, h5, h6, h7, h8, _⟩ := cache_eviction .lru sm cap ops k v
  exact ⟨t, e, ev, rest, h1, h2, h3, h4, h5, h6, h7, h8⟩

/-- C05. A `Set` reports each entry that stops being retrievable exactly once with its value (a key is reported iff a lookup
before would have found it, or it is the key just set, and a lookup after does not), the reported keys are distinct, and
evicting one entry fewer would leave the cache over capacity. -/
theorem eviction_exact_and_minimal (p : Policy) (sm : V → Nat) (cap : Nat) (ops : List (Op K V)) (k : K) (v : V) :
    ∃ t e evicted, run p sm cap ops = some t ∧ run p sm cap (ops ++ [.set k v]) = some (t ++ [e]) ∧ e.out = .set evicted ∧
      (evicted.map (·.1)).Nodup ∧
      (∀ k' v', (k', v') ∈ evicted ↔
        (if k' = k then v' = v else expected k' t none = some v') ∧ expected k' (t ++ [e]) none = none) ∧
      (∀ a x, evicted = a ++ [x] → cap < sm x.2 + total sm (aged p (t ++ [e]) [])) := by
  obtain ⟨t, out, s, es', h1, h2, h3, h4, h5, h6, h7, h8, h9, ev, rfl, h10, h11⟩ := run_step_spec p sm cap ops (.set k v)
  have hn := nodup_without k v _ h7
  rw [h10] at hn
  have hn' := hn
  rw [List.map_append, List.nodup_append] at hn'
  refine ⟨t, _, ev, h1, h3, rfl, hn'.1, ?_, ?_⟩
  · intro k' v'
    have hfind : find k' (ev ++ plain es') = if k = k' then some v else find k' (aged p t []) := by
      rw [← h10]; exact find_set k k' v _
    rw [h9, ← h6, h8]
    constructor
    · intro hm
      have hf : find k' (ev ++ plain es') = some v' := find_of_mem _ _ _ hn (by simp [hm])
      refine ⟨?_, ?_⟩
      · rw [hf] at hfind
        by_cases hk : k' = k
        · rw [if_pos hk.symm] at hfind; rw [if_pos hk]; exact Option.some.inj hfind
        · simp only [hk, if_false]; rw [if_neg (Ne.symm hk)] at hfind; exact hfind.symm
      · rw [find_none]; intro hc
        exact hn'.2.2 _ (List.mem_map.2 ⟨_, hm, rfl⟩) _ hc rfl
    · rintro ⟨hb, ha⟩
      have hf : find k' (ev ++ plain es') = some v' := by
        rw [hfind]
        by_cases hk : k' = k
        · rw [if_pos hk] at hb; rw [if_pos hk.symm, hb]
        · rw [if_neg (Ne.symm hk)]; simpa [hk] using hb
      rw [find_append, ha, Option.or_none] at hf
      exact find_mem _ _ _ hf
  · intro a x hx
    have := h11 a [x] hx (by simp)
    rw [← h6]
    simpa [total] using this

end

/-! Non-vacuity: a history on a cache of capacity 2 (unit sizes) in which FIFO and LRU evict different keys. -/

def demo : List (Op Nat Nat) := [.set 1 10, .set 2 20, .get 1, .set 3 30]

example : (run .fifo (fun _ => 1) 2 demo).map (·.getLast?) = some (some ⟨.set 3 30, .set [(1, 10)], 2⟩) := by decide +kernel
example : (run .lru (fun _ => 1) 2 demo).map (·.getLast?) = some (some ⟨.set 3 30, .set [(2, 20)], 2⟩) := by decide +kernel
/-- an entry larger than the capacity evicts everything including itself -/
example : (run .lru (fun v => v) 3 ([.set 1 1, .set 2 4] : List (Op Nat Nat))).map (·.getLast?)
    = some (some ⟨.set 2 4, .set [(1, 1), (2, 4)], 0⟩) := by decide +kernel
example : (run .lru (fun _ => 1) 2 demo).map (fun t => (expected 2 t none, expected 1 t none)) = some (none, some 10) := by
  decide +kernel

end Verif.Cache

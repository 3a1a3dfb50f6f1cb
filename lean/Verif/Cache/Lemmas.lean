import Verif.Cache.Spec
import Verif.Common
set_option linter.unusedSectionVars false
namespace Verif.Cache
open Spec

section
variable {K V : Type} [DecidableEq K]

@[simp] theorem find_nil {α : Type} (k : K) : find k ([] : List (K × α)) = none := rfl
@[simp] theorem find_cons {α : Type} (k k' : K) (a : α) (d : List (K × α)) :
    find k ((k', a) :: d) = if k' = k then some a else find k d := rfl

theorem find_append {α : Type} (k : K) (d d' : List (K × α)) :
    find k (d ++ d') = (find k d).or (find k d') := by
  induction d with
  | nil => simp
  | cons e d ih => obtain ⟨k', a⟩ := e; simp only [List.cons_append, find_cons]; split <;> simp [ih]

theorem find_erase {α : Type} (k k' : K) (d : List (K × α)) :
    find k (erase k' d) = if k' = k then none else find k d := by
  induction d with
  | nil => simp [erase]
  | cons e d ih =>
    obtain ⟨k1, a⟩ := e
    unfold erase at ih ⊢
    by_cases h : k1 = k'
    · subst h; simp only [List.filter_cons, ne_eq, not_true, decide_false, Bool.false_eq_true, ↓reduceIte, find_cons]
      rw [ih]; split <;> simp_all
    · simp only [List.filter_cons, ne_eq, h, not_false_iff, decide_true, ↓reduceIte, find_cons]
      rw [ih]
      by_cases h1 : k' = k
      · subst h1; simp [h]
      · simp [h1]

theorem find_assign {α : Type} (k k' : K) (a : α) (d : List (K × α)) :
    find k (assign k' a d) = if k' = k then (find k d).map (fun _ => a) else find k d := by
  induction d with
  | nil => simp [assign]
  | cons e d ih =>
    obtain ⟨k1, b⟩ := e
    simp only [assign, List.map_cons] at ih ⊢
    by_cases h : k1 = k'
    · subst h; simp only [↓reduceIte, find_cons]; split <;> simp_all
    · simp only [h, ↓reduceIte, find_cons, ih]
      split <;> split <;> simp_all

theorem find_none {α : Type} (k : K) (d : List (K × α)) : find k d = none ↔ k ∉ d.map (·.1) := by
  induction d with
  | nil => simp
  | cons e d ih => obtain ⟨k1, b⟩ := e; simp only [find_cons, List.map_cons, List.mem_cons]; split <;> simp_all [eq_comm]

theorem find_mem {α : Type} (k : K) (a : α) (d : List (K × α)) (h : find k d = some a) : (k, a) ∈ d := by
  induction d with
  | nil => simp at h
  | cons e d ih =>
    obtain ⟨k1, b⟩ := e; simp only [find_cons] at h
    split at h
    · simp_all
    · exact List.mem_cons_of_mem _ (ih h)

theorem find_of_mem {α : Type} (k : K) (a : α) (d : List (K × α)) (hn : (d.map (·.1)).Nodup) (h : (k, a) ∈ d) :
    find k d = some a := by
  induction d with
  | nil => simp at h
  | cons e d ih =>
    obtain ⟨k1, b⟩ := e
    simp only [List.map_cons, List.nodup_cons] at hn
    simp only [find_cons]
    rcases List.mem_cons.1 h with h | h
    · simp_all
    · have : k1 ≠ k := by
        rintro rfl; exact hn.1 (List.mem_map.2 ⟨_, h, rfl⟩)
      simp [this, ih hn.2 h]

/-- Entries as stored, oldest first. -/
abbrev Entries (K V : Type) := List (K × (V × Nat))

def sizeOf' (sm : V → Nat) (es : Entries K V) : Nat := (es.map fun e => sm e.2.1).sum

/-- Forget the stamps. -/
def plain (es : Entries K V) : List (K × V) := es.map fun e => (e.1, e.2.1)

def queueOf (es : Entries K V) : List (Nat × K) := es.map fun e => (e.2.2, e.1)

theorem total_plain (sm : V → Nat) (es : Entries K V) : total sm (plain es) = sizeOf' sm es := by
  simp [total, plain, sizeOf', Function.comp_def]

theorem sizeOf'_append (sm : V → Nat) (a b : Entries K V) : sizeOf' sm (a ++ b) = sizeOf' sm a + sizeOf' sm b := by
  simp [sizeOf']

/-- The eviction loop removes the shortest prefix after which the rest fits. -/
theorem evictLoop_spec (sm : V → Nat) (cap : Nat) (es : Entries K V) :
    ∀ (dict : Entries K V), (es.map (·.1)).Nodup → (∀ k, find k dict = find k es) →
    ∃ pre post dict', es = pre ++ post ∧
      evictLoop sm cap (queueOf es) (sizeOf' sm es) dict =
        some (queueOf post, (sizeOf' sm post : Int), dict', plain pre) ∧
      (∀ k, find k dict' = find k post) ∧ sizeOf' sm post ≤ cap ∧
      (∀ a b, pre = a ++ b → b ≠ [] → cap < sizeOf' sm (b ++ post)) := by
  induction es with
  | nil =>
    intro dict _ hd
    refine ⟨[], [], dict, rfl, ?_, hd, by simp [sizeOf'], ?_⟩
    · simp [sizeOf', queueOf, evictLoop, plain]
    · intro a b h hb; simp at h; exact absurd h.2 hb
  | cons e es ih =>
    intro dict hn hd
    obtain ⟨k, v, st⟩ := e
    by_cases hfit : sizeOf' sm ((k, (v, st)) :: es) ≤ cap
    · refine ⟨[], (k, (v, st)) :: es, dict, rfl, ?_, hd, hfit, ?_⟩
      · unfold evictLoop; rw [if_pos (by exact_mod_cast hfit)]; rfl
      · intro a b h hb; simp at h; exact absurd h.2 hb
    · simp only [List.map_cons, List.nodup_cons] at hn
      have hk : find k dict = some (v, st) := by rw [hd]; simp
      have hd' : ∀ k', find k' (erase k dict) = find k' es := by
        intro k'; rw [find_erase, hd]
        by_cases h : k = k'
        · subst h; simp; exact ((find_none _ _).2 hn.1).symm
        · simp [h]
      obtain ⟨pre, post, dict', h1, h2, h3, h4, h5⟩ := ih (erase k dict) hn.2 hd'
      refine ⟨(k, (v, st)) :: pre, post, dict', by simp [h1], ?_, h3, h4, ?_⟩
      · have hs : ((sizeOf' sm ((k, (v, st)) :: es) : Nat) : Int) - sm v = (sizeOf' sm es : Nat) := by
          simp [sizeOf']; omega
        unfold evictLoop
        rw [if_neg (by exact_mod_cast hfit)]
        simp only [queueOf, List.map_cons, hk] at h2 ⊢
        rw [hs, h2]; simp [plain]
      · intro a b h hb
        cases a with
        | nil => simp only [List.nil_append] at h; subst h; rw [List.cons_append, ← h1]; omega
        | cons x a => simp only [List.cons_append, List.cons.injEq] at h; exact h5 a b h.2 hb

/-- The state represents the aged entry list `es`. -/
structure Rep (sm : V → Nat) (s : State K V) (es : Entries K V) : Prop where
  queue : s.queue = queueOf es
  keys : (es.map (·.1)).Nodup
  stamps : (es.map (·.2.2)).Pairwise (· < ·)
  bound : ∀ e ∈ es, e.2.2 < s.monotonic
  dict : ∀ k, find k s.dictionary = find k es
  size : s.size = (sizeOf' sm es : Nat)
  fits : sizeOf' sm es ≤ s.capacity

theorem enqueue_last (st : Nat) (k : K) (q : List (Nat × K)) (h : ∀ e ∈ q, e.1 < st) :
    enqueue st k q = q ++ [(st, k)] := by
  induction q with
  | nil => rfl
  | cons e q ih =>
    obtain ⟨st', k'⟩ := e
    have h0 := h (st', k') (by simp)
    simp only at h0
    simp only [enqueue]
    rw [if_neg (by omega), if_neg (by omega), ih (fun e he => h e (by simp [he]))]; rfl

theorem filter_stamp (es : Entries K V) (hk : (es.map (·.1)).Nodup) (hs : (es.map (·.2.2)).Pairwise (· < ·))
    (k : K) (v : V) (st : Nat) (hm : (k, (v, st)) ∈ es) :
    (queueOf es).filter (fun e => e.1 ≠ st) = queueOf (erase k es) := by
  induction es with
  | nil => simp at hm
  | cons e es ih =>
    obtain ⟨k1, v1, st1⟩ := e
    simp only [List.map_cons, List.nodup_cons, List.pairwise_cons] at hk hs
    rcases List.mem_cons.1 hm with h | h
    · simp only [Prod.mk.injEq] at h
      obtain ⟨rfl, rfl, rfl⟩ := h
      have e1 : ∀ x ∈ es, x.2.2 ≠ st := fun x hx => by
        have := hs.1 x.2.2 (List.mem_map.2 ⟨x, hx, rfl⟩); omega
      have e2 : ∀ x ∈ es, x.1 ≠ k := fun x hx hxk => hk.1 (List.mem_map.2 ⟨x, hx, hxk⟩)
      simp only [queueOf, erase, List.map_cons, List.filter_cons, ne_eq, not_true, decide_false, Bool.false_eq_true, ↓reduceIte]
      have f1 : es.filter (fun e => decide (¬ e.1 = k)) = es := List.filter_eq_self.2 (fun x hx => by simpa using e2 x hx)
      rw [f1, List.filter_eq_self.2]
      intro a ha; obtain ⟨x, hx, rfl⟩ := List.mem_map.1 ha; simpa using e1 x hx
    · have n1 : st1 ≠ st := by
        have := hs.1 st (List.mem_map.2 ⟨_, h, rfl⟩); omega
      have n2 : k1 ≠ k := by
        rintro rfl; exact hk.1 (List.mem_map.2 ⟨_, h, rfl⟩)
      have := ih hk.2 hs.2 h
      simp only [queueOf, erase, List.map_cons, List.filter_cons, ne_eq, n1, n2, not_false_iff, decide_true, ↓reduceIte] at this ⊢
      rw [this]

theorem sizeOf'_erase (sm : V → Nat) (es : Entries K V) (hk : (es.map (·.1)).Nodup)
    (k : K) (v : V) (st : Nat) (hm : (k, (v, st)) ∈ es) :
    sizeOf' sm es = sm v + sizeOf' sm (erase k es) := by
  induction es with
  | nil => simp at hm
  | cons e es ih =>
    obtain ⟨k1, v1, st1⟩ := e
    simp only [List.map_cons, List.nodup_cons] at hk
    rcases List.mem_cons.1 hm with h | h
    · simp only [Prod.mk.injEq] at h
      obtain ⟨rfl, rfl, rfl⟩ := h
      have e2 : ∀ x ∈ es, x.1 ≠ k := fun x hx hxk => hk.1 (List.mem_map.2 ⟨x, hx, hxk⟩)
      simp only [sizeOf', erase, List.map_cons, List.filter_cons, ne_eq, not_true, decide_false, Bool.false_eq_true, ↓reduceIte]
      rw [List.filter_eq_self.2 (by simpa using e2)]; simp
    · have n2 : k1 ≠ k := by
        rintro rfl; exact hk.1 (List.mem_map.2 ⟨_, h, rfl⟩)
      have := ih hk.2 h
      simp only [sizeOf', erase, List.map_cons, List.filter_cons, ne_eq, n2, not_false_iff, decide_true, ↓reduceIte, List.sum_cons] at this ⊢
      omega

theorem plain_erase (k : K) (es : Entries K V) : plain (erase k es) = without k (plain es) := by
  induction es with
  | nil => rfl
  | cons e es ih =>
    obtain ⟨k1, v1, st1⟩ := e
    simp only [plain, erase, without, List.map_cons, List.filter_cons] at ih ⊢
    split <;> simp only [List.map_cons, ih]

theorem erase_of_find_none {α : Type} (k : K) (es : List (K × α)) (h : find k es = none) : erase k es = es := by
  rw [find_none] at h
  unfold erase; rw [List.filter_eq_self]
  intro a ha; simp; rintro rfl; exact h (List.mem_map.2 ⟨_, ha, rfl⟩)

theorem keys_erase (k : K) (es : Entries K V) (h : (es.map (·.1)).Nodup) : ((erase k es).map (·.1)).Nodup :=
  h.sublist ((List.filter_sublist).map _)

theorem stamps_erase (k : K) (es : Entries K V) (h : (es.map (·.2.2)).Pairwise (· < ·)) :
    ((erase k es).map (·.2.2)).Pairwise (· < ·) :=
  h.sublist ((List.filter_sublist).map _)

/-- Moving `k` to the young end with a new stamp. -/
theorem restamp_ok (es : Entries K V) (k : K) (v : V) (m : Nat) (hk : (es.map (·.1)).Nodup)
    (hs : (es.map (·.2.2)).Pairwise (· < ·)) (hb : ∀ e ∈ es, e.2.2 < m) :
    (((erase k es ++ [(k, (v, m))]).map (·.1)).Nodup) ∧
    (((erase k es ++ [(k, (v, m))]).map (·.2.2)).Pairwise (· < ·)) ∧
    (∀ e ∈ erase k es ++ [(k, (v, m))], e.2.2 < m + 1) := by
  refine ⟨?_, ?_, ?_⟩
  · simp only [List.map_append, List.map_cons, List.map_nil, List.nodup_append]
    refine ⟨keys_erase k es hk, by simp, ?_⟩
    intro a ha b hb' hab
    simp only [List.mem_singleton] at hb'
    obtain ⟨x, hx, rfl⟩ := List.mem_map.1 ha
    have := (List.mem_filter.1 hx).2
    simp at this; exact this (hab.trans hb')
  · simp only [List.map_append, List.map_cons, List.map_nil, List.pairwise_append]
    refine ⟨stamps_erase k es hs, by simp, ?_⟩
    intro a ha b hb'
    simp only [List.mem_singleton] at hb'
    obtain ⟨x, hx, rfl⟩ := List.mem_map.1 ha
    have := hb x (List.mem_filter.1 hx).1
    omega
  · intro e he
    rcases List.mem_append.1 he with h | h
    · have := hb e (List.mem_filter.1 h).1; omega
    · simp at h; subst h; simp

theorem find_restamp (es : Entries K V) (k k' : K) (v : V) (m : Nat) :
    find k' (erase k es ++ [(k, (v, m))]) = if k = k' then some (v, m) else find k' es := by
  rw [find_append, find_erase]; split <;> simp_all

theorem init_rep (sm : V → Nat) (cap : Nat) : Rep sm (init cap : State K V) [] where
  queue := rfl
  keys := by simp
  stamps := by simp
  bound := by simp
  dict := by simp [init]
  size := by simp [init, sizeOf']
  fits := by simp [sizeOf']

/-- `Set` on a represented state. -/
theorem set_spec (sm : V → Nat) (s : State K V) (es : Entries K V) (h : Rep sm s es) (k : K) (v : V) :
    ∃ s' pre post, set sm s k v = some (s', plain pre) ∧ erase k es ++ [(k, (v, s.monotonic))] = pre ++ post ∧
      Rep sm s' post ∧ s'.capacity = s.capacity ∧
      (∀ a b, pre = a ++ b → b ≠ [] → s.capacity < sizeOf' sm (b ++ post)) := by
  let es' := erase k es ++ [(k, (v, s.monotonic))]
  obtain ⟨r1, r2, r3⟩ := restamp_ok es k v s.monotonic h.keys h.stamps h.bound
  -- the state just before `EvictExpired`
  have key : ∃ dict', (∀ k', find k' dict' = find k' es') ∧
      set sm s k v = evictExpired sm { s with monotonic := s.monotonic + 1, queue := queueOf es', size := (sizeOf' sm es' : Nat), dictionary := dict' } := by
    cases hf : find k s.dictionary with
    | none =>
      have hfe : find k es = none := by rw [← h.dict, hf]
      have he : erase k es = es := erase_of_find_none k es hfe
      refine ⟨s.dictionary ++ [(k, (v, s.monotonic))], ?_, ?_⟩
      · intro k'; rw [find_append, h.dict]
        simp only [es', he]; rw [find_append]
      · unfold set; simp only [hf]
        have hq : enqueue s.monotonic k s.queue = queueOf es' := by
          rw [enqueue_last]
          · rw [h.queue]; simp [es', he, queueOf]
          · rw [h.queue]; intro e hx'; obtain ⟨x, hx, rfl⟩ := List.mem_map.1 hx'; exact h.bound x hx
        have hz : s.size + (sm v : Int) = (sizeOf' sm es' : Nat) := by
          rw [h.size]; simp [es', he, sizeOf'_append]; simp [sizeOf']
        rw [hq, hz]
    | some p =>
      obtain ⟨old, st⟩ := p
      have hfe : find k es = some (old, st) := by rw [← h.dict, hf]
      have hm := find_mem k _ es hfe
      refine ⟨assign k (v, s.monotonic) s.dictionary, ?_, ?_⟩
      · intro k'; rw [find_assign, h.dict, find_restamp]
        by_cases hkk : k = k'
        · subst hkk; simp [hfe]
        · simp [hkk]
      · unfold set; simp only [hf]
        have hq : enqueue s.monotonic k (s.queue.filter (fun e => e.1 ≠ st)) = queueOf es' := by
          rw [h.queue, filter_stamp es h.keys h.stamps k old st hm, enqueue_last]
          · simp [es', queueOf]
          · intro e hx'; obtain ⟨x, hx, rfl⟩ := List.mem_map.1 hx'; exact h.bound x (List.mem_filter.1 hx).1
        have hz : s.size - (sm old : Int) + (sm v : Int) = (sizeOf' sm es' : Nat) := by
          rw [h.size]; simp [es', sizeOf'_append]
          have := sizeOf'_erase sm es h.keys k old st hm
          simp [sizeOf'] at this ⊢; omega
        rw [hq, hz]
  obtain ⟨dict', hd, hset⟩ := key
  obtain ⟨pre, post, dict'', e1, e2, e3, e4, e5⟩ := evictLoop_spec sm s.capacity es' dict' r1 hd
  refine ⟨?_, pre, post, ?_, e1, ?_, ?_, e5⟩
  rotate_left
  · rw [hset]; unfold evictExpired; simp only [e2]; rfl
  · have hsub : post.Sublist es' := by rw [e1]; exact List.sublist_append_right _ _
    exact ⟨rfl, r1.sublist (hsub.map _), r2.sublist (hsub.map _), fun e he => r3 e (hsub.subset he), e3, rfl, e4⟩
  · rfl

theorem get_spec (p : Policy) (sm : V → Nat) (s : State K V) (es : Entries K V) (h : Rep sm s es) (k : K) :
    ∃ s' es', tryGet p s k = (s', (find k es).map (·.1)) ∧ Rep sm s' es' ∧ s'.capacity = s.capacity ∧
      plain es' = (match find k es with
        | some r => if p = .lru then without k (plain es) ++ [(k, r.1)] else plain es
        | none => plain es) := by
  cases hf : find k es with
  | none =>
    refine ⟨s, es, ?_, h, rfl, rfl⟩
    unfold tryGet; rw [h.dict, hf]; rfl
  | some r =>
    obtain ⟨v, st⟩ := r
    cases p with
    | fifo => exact ⟨s, es, by unfold tryGet; rw [h.dict, hf]; rfl, h, rfl, by simp⟩
    | lru =>
      obtain ⟨r1, r2, r3⟩ := restamp_ok es k v s.monotonic h.keys h.stamps h.bound
      have hm := find_mem k _ es hf
      refine ⟨?_, erase k es ++ [(k, (v, s.monotonic))], ?_, ?_, ?_, ?_⟩
      rotate_left
      · unfold tryGet; rw [h.dict, hf]; rfl
      · refine ⟨?_, r1, r2, r3, ?_, ?_, ?_⟩
        · simp only
          rw [h.queue, filter_stamp es h.keys h.stamps k v st hm, enqueue_last]
          · simp [queueOf]
          · intro e hx'; obtain ⟨x, hx, rfl⟩ := List.mem_map.1 hx'; exact h.bound x (List.mem_filter.1 hx).1
        · intro k'; simp only; rw [find_assign, h.dict, find_restamp]
          by_cases hkk : k = k'
          · subst hkk; simp [hf]
          · simp [hkk]
        · simp only
          rw [h.size, sizeOf'_append]
          have := sizeOf'_erase sm es h.keys k v st hm
          simp [sizeOf'] at this ⊢; omega
        · have := sizeOf'_erase sm es h.keys k v st hm
          have h0 := h.fits
          rw [sizeOf'_append]; simp [sizeOf'] at this h0 ⊢; omega
      · rfl
      · simp only [↓reduceIte]; rw [← plain_erase]; simp [plain]

theorem remove_spec (sm : V → Nat) (s : State K V) (es : Entries K V) (h : Rep sm s es) (k : K) :
    ∃ s', remove sm s k = some (s', (find k es).isSome) ∧ Rep sm s' (erase k es) ∧ s'.capacity = s.capacity := by
  unfold remove
  cases hf : find k es with
  | none =>
    rw [h.dict, hf]
    refine ⟨s, rfl, ?_, rfl⟩
    rw [erase_of_find_none k es hf]; exact h
  | some r =>
    obtain ⟨v, st⟩ := r
    have hm := find_mem k _ es hf
    rw [h.dict, hf]; simp only
    have hany : s.queue.any (fun e => e.1 = st) = true := by
      rw [h.queue, List.any_eq_true]
      exact ⟨(st, k), List.mem_map.2 ⟨_, hm, rfl⟩, by simp⟩
    rw [if_pos hany]
    refine ⟨_, rfl, ?_, rfl⟩
    have hsz := sizeOf'_erase sm es h.keys k v st hm
    refine ⟨?_, keys_erase k es h.keys, stamps_erase k es h.stamps, ?_, ?_, ?_, ?_⟩
    · simp only; rw [h.queue, filter_stamp es h.keys h.stamps k v st hm]
    · intro e he; exact h.bound e (List.mem_filter.1 he).1
    · intro k'; simp only; rw [find_erase, h.dict, find_erase]
    · simp only; rw [h.size]; omega
    · have := h.fits; simp only; omega

theorem clear_spec (sm : V → Nat) (s : State K V) : Rep sm (clear s) [] where
  queue := rfl
  keys := by simp
  stamps := by simp
  bound := by simp
  dict := by simp [clear]
  size := by simp [clear, sizeOf']
  fits := by simp [sizeOf']

theorem find_plain (k : K) (es : Entries K V) : find k (plain es) = (find k es).map (·.1) := by
  induction es with
  | nil => rfl
  | cons e es ih =>
    obtain ⟨k1, v1, st1⟩ := e
    simp only [plain, List.map_cons, find_cons] at ih ⊢; split <;> simp [ih]

/-- What one call does to the aged list of plain entries, with its outcome. -/
def Good (p : Policy) (sm : V → Nat) (cap : Nat) (es : List (K × V)) (op : Op K V) (out : Out K V) (es' : List (K × V)) : Prop :=
  match op with
  | .set k v => ∃ ev, out = .set ev ∧ without k es ++ [(k, v)] = ev ++ es' ∧
      (∀ a b, ev = a ++ b → b ≠ [] → cap < total sm (b ++ es'))
  | .get k => out = .get (find k es) ∧
      es' = (match find k es with | some v => if p = .lru then without k es ++ [(k, v)] else es | none => es)
  | .remove k => out = .remove (find k es).isSome ∧ es' = without k es
  | .clear => out = .clear ∧ es' = []

theorem step_spec (p : Policy) (sm : V → Nat) (s : State K V) (es : Entries K V) (h : Rep sm s es) (op : Op K V) :
    ∃ s' out es', step p sm s op = some (s', out) ∧ Rep sm s' es' ∧ s'.capacity = s.capacity ∧
      Good p sm s.capacity (plain es) op out (plain es') := by
  cases op with
  | set k v =>
    obtain ⟨s', pre, post, h1, h2, h3, h4, h5⟩ := set_spec sm s es h k v
    refine ⟨s', .set (plain pre), post, by simp [step, h1], h3, h4, plain pre, rfl, ?_, ?_⟩
    · have : plain (erase k es ++ [(k, (v, s.monotonic))]) = plain (pre ++ post) := by rw [h2]
      rw [← plain_erase]
      simpa [plain] using this
    · intro a b hab hb
      have hab' : ∃ a' b', pre = a' ++ b' ∧ plain a' = a ∧ plain b' = b := by
        unfold plain at hab
        obtain ⟨a', b', e1, e2, e3⟩ := List.map_eq_append_iff.1 hab
        exact ⟨a', b', e1, e2, e3⟩
      obtain ⟨a', b', e1, rfl, rfl⟩ := hab'
      have := h5 a' b' e1 (by rintro rfl; exact hb rfl)
      rw [← total_plain] at this
      simpa [plain] using this
  | get k =>
    obtain ⟨s', es', h1, h2, h3, h4⟩ := get_spec p sm s es h k
    refine ⟨s', .get (find k (plain es)), es', ?_, h2, h3, rfl, ?_⟩
    · simp [step, h1, find_plain]
    · rw [h4, find_plain]; cases find k es <;> rfl
  | remove k =>
    obtain ⟨s', h1, h2, h3⟩ := remove_spec sm s es h k
    refine ⟨s', _, _, by simp [step, h1]; rfl, h2, h3, ?_, ?_⟩
    · rw [find_plain]; cases find k es <;> rfl
    · rw [plain_erase]
  | clear => exact ⟨_, _, _, rfl, clear_spec sm s, rfl, rfl, rfl⟩

/-- Decomposition of a successful history at its last call. -/
theorem runFrom_append (p : Policy) (sm : V → Nat) (ops ops' : List (Op K V)) (s : State K V) :
    runFrom p sm s (ops ++ ops') =
      match runFrom p sm s ops with
      | none => none
      | some (s', evs) =>
        match runFrom p sm s' ops' with
        | none => none
        | some (s'', evs') => some (s'', evs ++ evs') := by
  induction ops generalizing s with
  | nil => simp only [List.nil_append, runFrom]; cases runFrom p sm s ops' <;> rfl
  | cons op ops ih =>
    simp only [List.cons_append, runFrom]
    cases step p sm s op with
    | none => rfl
    | some r =>
      obtain ⟨s', out⟩ := r
      simp only [ih]
      cases runFrom p sm s' ops with
      | none => rfl
      | some r =>
        obtain ⟨s1, e1⟩ := r
        simp only
        cases runFrom p sm s1 ops' with
        | none => rfl
        | some r => rfl

theorem aged_append (p : Policy) (t t' : List (Event K V)) (es : List (K × V)) :
    aged p (t ++ t') es = aged p t' (aged p t es) := by
  induction t generalizing es with
  | nil => rfl
  | cons e t ih => simp only [List.cons_append, aged, ih]

theorem expected_append (k : K) (t t' : List (Event K V)) (c : Option V) :
    expected k (t ++ t') c = expected k t' (expected k t c) := by
  induction t generalizing c with
  | nil => rfl
  | cons e t ih => simp only [List.cons_append, expected, ih]

theorem keys_plain (es : Entries K V) : (plain es).map (·.1) = es.map (·.1) := by
  simp [plain, Function.comp_def]

theorem filter_evicted (pre post : List (K × V)) (h : ((pre ++ post).map (·.1)).Nodup) :
    (pre ++ post).filter (fun x => ¬ pre.any (fun y => y.1 = x.1)) = post := by
  rw [List.filter_append]
  have h1 : pre.filter (fun x => ¬ pre.any (fun y => y.1 = x.1)) = [] := by
    rw [List.filter_eq_nil_iff]; intro a ha; simp
    exact ⟨_, ha⟩
  have h2 : post.filter (fun x => ¬ pre.any (fun y => y.1 = x.1)) = post := by
    rw [List.filter_eq_self]; intro a ha; simp
    intro k v hkv hk
    rw [List.map_append, List.nodup_append] at h
    exact h.2.2 _ (List.mem_map.2 ⟨_, hkv, rfl⟩) _ (List.mem_map.2 ⟨_, ha, rfl⟩) hk
  rw [h1, h2, List.nil_append]

theorem nodup_without (k : K) (v : V) (es : List (K × V)) (h : (es.map (·.1)).Nodup) :
    ((without k es ++ [(k, v)]).map (·.1)).Nodup := by
  simp only [List.map_append, List.map_cons, List.map_nil, List.nodup_append]
  refine ⟨h.sublist ((List.filter_sublist).map _), by simp, ?_⟩
  intro a ha b hb' hab
  simp only [List.mem_singleton] at hb'
  obtain ⟨x, hx, rfl⟩ := List.mem_map.1 ha
  have := (List.mem_filter.1 hx).2
  simp at this; exact this (hab.trans hb')

theorem find_without (k k' : K) (es : List (K × V)) :
    find k' (without k es) = if k = k' then none else find k' es := find_erase k' k es

theorem find_set (k k' : K) (v : V) (es : List (K × V)) :
    find k' (without k es ++ [(k, v)]) = if k = k' then some v else find k' es := by
  rw [find_append, find_without]
  by_cases h : k = k'
  · simp [h]
  · simp [h]

/-- Observable invariant after a history: the aged list computed from the trace is the represented one, and the expected
value of each key is its value in that list. -/
theorem run_spec (p : Policy) (sm : V → Nat) (cap : Nat) (ops : List (Op K V)) :
    ∃ s t es, runFrom p sm (init cap : State K V) ops = some (s, t) ∧ Rep sm s es ∧ s.capacity = cap ∧
      plain es = aged p t [] ∧ (∀ k, expected k t none = find k (plain es)) := by
  induction ops using snoc_induction with
  | nil => exact ⟨_, [], [], rfl, init_rep sm cap, rfl, rfl, fun k => rfl⟩
  | snoc ops op ih =>
    obtain ⟨s, t, es, h1, h2, h3, h4, h5⟩ := ih
    obtain ⟨s', out, es', g1, g2, g3, g4⟩ := step_spec p sm s es h2 op
    refine ⟨s', t ++ [⟨op, out, getSize s'⟩], es', ?_, g2, g3.trans h3, ?_, ?_⟩
    · rw [runFrom_append, h1]; simp [runFrom, g1]
    · rw [aged_append, ← h4]
      cases op with
      | set k v =>
        obtain ⟨ev, rfl, hev, _⟩ := g4
        have hn : ((ev ++ plain es').map (·.1)).Nodup := by
          rw [← hev]; exact nodup_without k v _ (by rw [keys_plain]; exact h2.keys)
        simp only [aged]; rw [hev, filter_evicted _ _ hn]
      | get k =>
        obtain ⟨rfl, g⟩ := g4
        rw [g]; simp only [aged]
        cases find k (plain es) <;> rfl
      | remove k => obtain ⟨rfl, g⟩ := g4; rw [g]; simp only [aged]
      | clear => obtain ⟨rfl, g⟩ := g4; rw [g]; simp only [aged]
    · intro k'
      rw [expected_append, h5]
      cases op with
      | set k v =>
        obtain ⟨ev, rfl, hev, _⟩ := g4
        have hn : ((ev ++ plain es').map (·.1)).Nodup := by
          rw [← hev]; exact nodup_without k v _ (by rw [keys_plain]; exact h2.keys)
        have hfind : find k' (ev ++ plain es') = if k = k' then some v else find k' (plain es) := by
          rw [← hev]; exact find_set k k' v _
        simp only [expected]
        rw [← hfind, find_append]
        by_cases hin : k' ∈ ev.map (·.1)
        · have : ev.any (fun x => x.1 = k') = true := by
            rw [List.any_eq_true]; obtain ⟨x, hx, hxk⟩ := List.mem_map.1 hin; exact ⟨x, hx, by simpa using hxk⟩
          rw [if_pos this]
          symm; rw [find_none]
          rw [List.map_append, List.nodup_append] at hn
          intro hc; exact hn.2.2 _ hin _ hc rfl
        · have : ¬ ev.any (fun x => x.1 = k') = true := by
            rw [List.any_eq_true]; rintro ⟨x, hx, hxk⟩; exact hin (List.mem_map.2 ⟨x, hx, by simpa using hxk⟩)
          rw [if_neg this, (find_none k' ev).2 hin]; rfl
      | get k =>
        obtain ⟨rfl, g⟩ := g4
        rw [g]; simp only [expected]
        cases hf : find k (plain es) with
        | none => rfl
        | some v =>
          simp only
          split
          · rw [find_append, find_without]
            by_cases hk : k = k'
            · subst hk; simp [hf]
            · simp [hk]
          · rfl
      | remove k =>
        obtain ⟨rfl, g⟩ := g4; rw [g]; simp only [expected]; rw [find_without]
      | clear => obtain ⟨rfl, g⟩ := g4; rw [g]; simp only [expected]; rfl

theorem lastUse_snoc (p : Policy) (k : K) (t : List (Event K V)) (e : Event K V) (now last : Nat) :
    lastUse p k (t ++ [e]) now last = if uses p k e then now + t.length + 1 else lastUse p k t now last := by
  induction t generalizing now last with
  | nil => simp [lastUse]
  | cons x t ih => simp only [List.cons_append, lastUse, ih, List.length_cons]; split <;> first | omega | rfl

theorem lastUse_le (p : Policy) (k : K) (t : List (Event K V)) (now last : Nat) (h : last ≤ now) :
    lastUse p k t now last ≤ now + t.length := by
  induction t generalizing now last with
  | nil => simpa [lastUse]
  | cons x t ih =>
    simp only [lastUse, List.length_cons]
    have := ih (now + 1) (if uses p k x then now + 1 else last) (by split <;> omega)
    omega

/-- The aged list is sorted by the time of the last use. -/
theorem aged_sorted (p : Policy) (t : List (Event K V)) :
    (aged p t []).Pairwise (fun a b => lastUse p a.1 t 0 0 < lastUse p b.1 t 0 0) := by
  induction t using snoc_induction with
  | nil => simp [aged]
  | snoc t e ih =>
    rw [aged_append]
    -- keys not used by `e` keep their time; a used key gets the greatest time
    have keep : ∀ (es : List (K × V)), es.Sublist (aged p t []) → (∀ x ∈ es, uses p x.1 e = false) →
        es.Pairwise (fun a b => lastUse p a.1 (t ++ [e]) 0 0 < lastUse p b.1 (t ++ [e]) 0 0) := by
      intro es hs hu
      have := ih.sublist hs
      refine this.imp_of_mem ?_
      intro a b ha hb hab
      rw [lastUse_snoc, lastUse_snoc, hu a ha, hu b hb]; simpa using hab
    have move : ∀ (k : K) (v : V), (∀ k', uses p k' e = decide (k = k')) →
        (without k (aged p t []) ++ [(k, v)]).Pairwise (fun a b => lastUse p a.1 (t ++ [e]) 0 0 < lastUse p b.1 (t ++ [e]) 0 0) := by
      intro k v hu
      rw [List.pairwise_append]
      refine ⟨keep _ List.filter_sublist ?_, by simp, ?_⟩
      · intro x hx; rw [hu]; have := (List.mem_filter.1 hx).2; simp at this; simpa using fun h => this h.symm
      · intro a ha b hb
        simp only [List.mem_singleton] at hb; subst hb
        have h1 := (List.mem_filter.1 ha).2; simp at h1
        rw [lastUse_snoc, lastUse_snoc, hu, hu]
        have h2 : decide (k = a.1) = false := by simpa using fun h => h1 h.symm
        simp only [h2, decide_true, ↓reduceIte, Bool.false_eq_true]
        have := lastUse_le p a.1 t 0 0 (Nat.le_refl _)
        omega
    have hnone : (∀ k, uses p k e = false) → ∀ es : List (K × V), es.Sublist (aged p t []) →
        es.Pairwise (fun a b => lastUse p a.1 (t ++ [e]) 0 0 < lastUse p b.1 (t ++ [e]) 0 0) :=
      fun h es hs => keep es hs (fun x _ => h x.1)
    obtain ⟨op, out, n⟩ := e
    simp only [aged]
    cases op with
    | set k v =>
      cases out with
      | set ev => exact (move k v (fun _ => rfl)).sublist List.filter_sublist
      | get r => exact hnone (fun _ => rfl) _ (List.Sublist.refl _)
      | remove b => exact hnone (fun _ => rfl) _ (List.Sublist.refl _)
      | clear => exact hnone (fun _ => rfl) _ (List.Sublist.refl _)
    | get k =>
      cases out with
      | get r =>
        cases r with
        | none => exact hnone (fun _ => rfl) _ (List.Sublist.refl _)
        | some v =>
          cases p with
          | fifo => simp only [reduceCtorEq, ↓reduceIte]; exact hnone (fun _ => by simp [uses]) _ (List.Sublist.refl _)
          | lru => simp only [↓reduceIte]; exact move k v (fun _ => by simp [uses])
      | set ev => exact hnone (fun _ => rfl) _ (List.Sublist.refl _)
      | remove b => exact hnone (fun _ => rfl) _ (List.Sublist.refl _)
      | clear => exact hnone (fun _ => rfl) _ (List.Sublist.refl _)
    | remove k => exact hnone (fun _ => rfl) _ List.filter_sublist
    | clear => exact List.Pairwise.nil

/-- The aged list after one more event. -/
theorem run_step_spec (p : Policy) (sm : V → Nat) (cap : Nat) (ops : List (Op K V)) (op : Op K V) :
    ∃ t out s es', run p sm cap ops = some t ∧
      runFrom p sm (init cap : State K V) (ops ++ [op]) = some (s, t ++ [⟨op, out, getSize s⟩]) ∧
      run p sm cap (ops ++ [op]) = some (t ++ [⟨op, out, getSize s⟩]) ∧ Rep sm s es' ∧ s.capacity = cap ∧
      plain es' = aged p (t ++ [⟨op, out, getSize s⟩]) [] ∧
      ((aged p t []).map (·.1)).Nodup ∧ (∀ k, expected k t none = find k (aged p t [])) ∧
      (∀ k, expected k (t ++ [⟨op, out, getSize s⟩]) none = find k (aged p (t ++ [⟨op, out, getSize s⟩]) [])) ∧
      Good p sm cap (aged p t []) op out (plain es') := by
  obtain ⟨s, t, es, h1, h2, h3, h4, h5⟩ := run_spec p sm cap ops
  obtain ⟨s1, t1, es1, i1, i2, i3, i4, i5⟩ := run_spec p sm cap (ops ++ [op])
  obtain ⟨s', out, es', g1, g2, g3, g4⟩ := step_spec p sm s es h2 op
  have hrun : runFrom p sm (init cap : State K V) (ops ++ [op]) = some (s', t ++ [⟨op, out, getSize s'⟩]) := by
    rw [runFrom_append, h1]; simp [runFrom, g1]
  rw [hrun] at i1
  simp only [Option.some.injEq, Prod.mk.injEq] at i1
  obtain ⟨rfl, rfl⟩ := i1
  have hq : queueOf es1 = queueOf es' := by rw [← i2.queue, g2.queue]
  have hkeys : es1.map (·.1) = es'.map (·.1) := by
    have := congrArg (List.map (·.2)) hq
    simpa [queueOf, Function.comp_def] using this
  have hpl : plain es1 = plain es' := by
    have e1 : ∀ es : Entries K V, (es.map (·.1)).Nodup → plain es = (es.map (·.1)).filterMap (fun k => (find k es).map (fun r => (k, r.1))) := by
      intro es hn
      rw [List.filterMap_map]
      unfold plain
      rw [← List.filterMap_eq_map]
      apply filterMap_congr'
      intro x hx
      simp only [Function.comp]
      rw [find_of_mem x.1 x.2 es hn hx]; rfl
    rw [e1 es1 i2.keys, e1 es' g2.keys, hkeys]
    apply filterMap_congr'
    intro k _
    rw [← i2.dict, g2.dict]
  refine ⟨t, out, s', es', by simp [run, h1], hrun, by simp [run, hrun], g2, g3.trans h3, by rw [← hpl, i4], ?_, ?_, ?_, ?_⟩
  · rw [← h4, keys_plain]; exact h2.keys
  · intro k; rw [h5, h4]
  · intro k; rw [i5, i4]
  · rw [← h4, ← h3]; exact g4

end
end Verif.Cache

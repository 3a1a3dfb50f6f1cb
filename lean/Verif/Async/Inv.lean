import Verif.Async.Lemmas

/-! The invariant of AsyncByteStream. -/

namespace Verif.Async

open Verif.Ring Verif.Ring.Ring

variable {α : Type}

/-- The operation in progress -/
def busyOps : Th → List Op
  | .busy op => [op]
  | _ => []

/-- The operations not yet finished, in the order in which they will be -/
def ops (s : State α) : List Op := busyOps s.thread ++ s.queue

/-- Numbers of synchronizations ascend -/
def SyncLt (a b : Op) : Prop := ∀ i j, a = .sync i → b = .sync j → i < j

structure Inv (s : State α) (r : Ref α) : Prop where
  rings : ∀ b ∈ s.buffers, b.2.Inv
  gens : (s.buffers.map (·.1)).Nodup
  fresh : ∀ b ∈ s.buffers, b.1 < s.nextGen
  lay : Layout (ops s) s.buffers 0
  content : fileOf s.mem s.disk (ops s) = r.file
  pos : s.position = r.pos
  len : s.length = r.file.len
  syncs : ∀ k, Op.sync k ∈ ops s → s.syncDone < k ∧ k < s.syncNext
  order : (ops s).Pairwise SyncLt
  done : s.syncDone < s.syncNext
  busy : ∀ op, s.thread = .busy op → (∃ st g o c u, op = .write st g o c u) ∨ ∃ k, op = .sync k

/-- What a step does to the pending operations, the disk and the ideal file -/
inductive Effect (mem : Nat → Nat → α) (disk : File α) (file : File α) : List Op → (Nat → Nat → α) → File α → File α → List Op → Prop
  | same {q} : Effect mem disk file q mem disk file q
  | push {q mem'} (op : Op) (h : ∀ o ∈ q, o.bytes mem' = o.bytes mem) :
      Effect mem disk file q mem' disk (file.write op.start (op.bytes mem')) (q ++ [op])
  | merge {a b mem'} (o o' : Op) (d : List α) (ha : ∀ op ∈ a, op.bytes mem' = op.bytes mem)
      (hb : ∀ op ∈ b, op.bytes mem' = op.bytes mem) (hs : o'.start = o.start) (ho : o'.bytes mem' = o.bytes mem ++ d)
      (hd : ∀ op ∈ b, o.end_ + d.length ≤ op.start ∨ op.end_ ≤ o.end_ ∨ op.bytes mem = [])
      (hk : ∀ k, o ≠ .sync k) (hk' : ∀ k, o' ≠ .sync k) :
      Effect mem disk file (a ++ o :: b) mem' disk (file.write o.end_ d) (a ++ o' :: b)
  | executed {q} (op : Op) : Effect mem disk file (op :: q) mem (disk.write op.start (op.bytes mem)) file q
  | partly {q} (op op' : Op) (n : Nat) (hs : op'.start = op.start + n) (hn : n ≤ (op.bytes mem).length)
      (hb : op'.bytes mem = (op.bytes mem).drop n)
      (hk : ∀ k, op ≠ .sync k) (hk' : ∀ k, op' ≠ .sync k) :
      Effect mem disk file (op :: q) mem (disk.write op.start ((op.bytes mem).take n)) file (op' :: q)

theorem start_bytes (mem : Nat → Nat → α) (o : Op) : o.start + (o.bytes mem).length = o.end_ := by
  rw [length_bytes]
  have : o.start ≤ o.end_ := by cases o <;> simp [Op.start, Op.end_]
  omega

theorem fileOf_merge {mem mem' : Nat → Nat → α} {a b : List Op} {o o' : Op} {d : List α} (disk : File α)
    (ha : ∀ op ∈ a, op.bytes mem' = op.bytes mem) (hb : ∀ op ∈ b, op.bytes mem' = op.bytes mem) (hs : o'.start = o.start)
    (ho : o'.bytes mem' = o.bytes mem ++ d)
    (hd : ∀ op ∈ b, o.end_ + d.length ≤ op.start ∨ op.end_ ≤ o.end_ ∨ op.bytes mem = []) :
    fileOf mem' disk (a ++ o' :: b) = (fileOf mem disk (a ++ o :: b)).write o.end_ d := by
  rw [fileOf_append, fileOf_append, fileOf_cons, fileOf_cons, fileOf_congr ha, fileOf_congr hb, hs, ho, write_append,
    start_bytes, fileOf_write _ _ _ _ hd]

/-- The ideal file stays the disk with the pending operations carried out -/
theorem Effect.content {mem mem' : Nat → Nat → α} {disk disk' file file' : File α} {q q' : List Op}
    (e : Effect mem disk file q mem' disk' file' q') (h : fileOf mem disk q = file) : fileOf mem' disk' q' = file' := by
  cases e with
  | same => exact h
  | push op hb => rw [fileOf_append, fileOf_congr hb, h]; rfl
  | merge o o' d ha hb hs ho hd => rw [fileOf_merge disk ha hb hs ho hd, h]
  | executed op => exact h
  | partly op op' n hs hn hb =>
    rw [← h, fileOf_cons, fileOf_cons, hs, hb]
    congr 1
    conv => rhs; rw [← List.take_append_drop n (op.bytes mem)]
    rw [write_append, List.length_take, Nat.min_eq_left hn]

theorem init_inv (mem : Nat → Nat → α) (disk : File α) (position size prealloc : Nat) :
    Inv (init mem disk position size prealloc) ⟨disk, position⟩ where
  rings := by
    intro b hb
    cases hb with
    | head => exact create_inv _
    | tail _ h => cases h
  gens := List.pairwise_singleton ..
  fresh := by
    intro b hb
    cases hb with
    | head => exact Nat.one_pos
    | tail _ h => cases h
  lay := ⟨0, newRing size, rfl, rfl⟩
  content := rfl
  pos := rfl
  len := rfl
  syncs := fun k hk => nomatch hk
  order := .nil
  done := Nat.one_pos
  busy := fun op h => nomatch h

theorem used_le {q : List Op} {bufs : List (Nat × Ring Unit)} {p : Nat} (h : Layout q bufs p) {st g o c u : Nat}
    (hm : Op.write st g o c u ∈ q) : u ≤ c := by
  induction q generalizing bufs p with
  | nil => cases hm
  | cons op q ih =>
    cases op with
    | write =>
      obtain ⟨r, rest, e, h1, h2, h3, h4, h5, h6⟩ := h
      cases hm with
      | head => exact h5
      | tail _ hm => exact ih h6 hm
    | popBuffer =>
      obtain ⟨g, r, rest, e, h1, h2⟩ := h
      cases hm with | tail _ hm => exact ih h2 hm
    | stop => cases hm with | tail _ hm => exact ih h hm
    | sync => cases hm with | tail _ hm => exact ih h hm

theorem findTarget_split {pos : Nat} {q pre post : List Op} {o : Op} (h : findTarget pos q = some (pre, o, post)) :
    q = pre ++ o :: post ∧ o.end_ = pos := by
  induction q generalizing pre with
  | nil => cases h
  | cons op q ih =>
    rw [findTarget] at h
    cases hf : findTarget pos q with
    | some w =>
      obtain ⟨pre', o', post'⟩ := w
      rw [hf] at h
      cases h
      obtain ⟨a, b⟩ := ih hf
      exact ⟨by rw [a]; rfl, b⟩
    | none =>
      rw [hf] at h
      simp only [] at h
      split at h
      · rename_i he; cases h; exact ⟨rfl, he⟩
      · cases h

theorem target_split {pos : Nat} {q pre post : List Op} {o : Op} (h : target pos q = some (pre, o, post)) :
    q = pre ++ o :: post ∧ o.end_ = pos ∧ 0 < o.free ∧ ∀ op ∈ post, o.intersects op = false := by
  rw [target] at h
  cases hf : findTarget pos q with
  | none => rw [hf] at h; cases h
  | some w =>
    obtain ⟨pre', o', post'⟩ := w
    rw [hf] at h
    simp only [] at h
    split at h
    · rename_i h1
      split at h
      · cases h
      · rename_i h2
        cases h
        obtain ⟨a, b⟩ := findTarget_split hf
        refine ⟨a, b, h1, fun op hop => ?_⟩
        rw [Bool.eq_false_iff]
        exact fun hi => h2 (List.any_eq_true.mpr ⟨op, hop, hi⟩)
    · cases h

/-- Appending bytes to an operation: the effect on memory -/
theorem append_bytes {l pre post : List Op} {o : Op} {bufs : List (Nat × Ring Unit)} {d : List α} (mem : Nat → Nat → α)
    (hl : Layout (l ++ (pre ++ o.pushed d.length :: post)) bufs 0) (hi : ∀ b ∈ bufs, b.2.Inv) (hg : (bufs.map (·.1)).Nodup)
    (hd : d.length ≤ o.free) (hf : 0 < o.free) :
    (∀ op ∈ l ++ pre, op.bytes (o.copyTo mem d) = op.bytes mem) ∧ (∀ op ∈ post, op.bytes (o.copyTo mem d) = op.bytes mem) ∧
      (o.pushed d.length).bytes (o.copyTo mem d) = o.bytes mem ++ d := by
  have hp := hl.apart hi hg
  rw [← List.append_assoc] at hp hl
  have hp' := List.pairwise_append.mp hp
  have hap : ∀ x, Apart (o.pushed d.length) x → Apart o x := by
    intro x h
    cases o <;> cases x <;> exact h
  have ho : ∀ st g off c u, o = .write st g off c u → u ≤ c := by
    rintro st g off c u rfl
    unfold Op.free at hf
    simp only [] at hf
    omega
  refine ⟨?_, ?_, bytes_pushed (by omega) mem d⟩
  · intro op hop
    apply bytes_copyTo (hap _ (Apart.symm (hp'.2.2 op hop _ (List.mem_cons_self ..)))) ?_ ho mem d hd
    rintro st g off c u rfl
    exact used_le hl (List.mem_append_left _ hop)
  · intro op hop
    apply bytes_copyTo (hap _ ((List.pairwise_cons.mp hp'.2.1).1 op hop)) ?_ ho mem d hd
    rintro st g off c u rfl
    exact used_le hl (List.mem_append_right _ (List.mem_cons_of_mem _ hop))

theorem order_replace {a b : List Op} {o o' : Op} (h : (a ++ o :: b).Pairwise SyncLt) (ho : ∀ k, o' ≠ .sync k) :
    (a ++ o' :: b).Pairwise SyncLt := by
  obtain ⟨h1, h2, h3⟩ := List.pairwise_append.mp h
  obtain ⟨h4, h5⟩ := List.pairwise_cons.mp h2
  refine List.pairwise_append.mpr ⟨h1, List.pairwise_cons.mpr ⟨fun x _ i j e => absurd e (ho i), h5⟩, ?_⟩
  intro x hx y hy
  cases hy with
  | head => exact fun i j _ e => absurd e (ho j)
  | tail _ hy => exact h3 x hx y (List.mem_cons_of_mem _ hy)

theorem order_push {q : List Op} {op : Op} (h : q.Pairwise SyncLt) (ho : ∀ k, op = .sync k → ∀ j, Op.sync j ∈ q → j < k) :
    (q ++ [op]).Pairwise SyncLt := by
  refine List.pairwise_append.mpr ⟨h, List.pairwise_singleton .., ?_⟩
  intro x hx y hy i j e1 e2
  cases List.mem_singleton.mp hy
  subst e1
  exact ho j e2 i hx

theorem mem_replace {a b : List Op} {o o' : Op} (ho : ∀ k, o' ≠ .sync k) {k : Nat} (h : Op.sync k ∈ a ++ o' :: b) :
    Op.sync k ∈ a ++ o :: b := by
  rcases List.mem_append.mp h with h | h
  · exact List.mem_append_left _ h
  · cases h with
    | head => exact absurd rfl (ho k)
    | tail _ h => exact List.mem_append_right _ (List.mem_cons_of_mem _ h)

theorem pushed_not_sync {o : Op} (h : 0 < o.free) (n k : Nat) : o.pushed n ≠ .sync k := by
  cases o <;> first | (intro e; cases e; done) | exact absurd h (Nat.lt_irrefl 0)

theorem not_sync {o : Op} (h : 0 < o.free) (k : Nat) : o ≠ .sync k := by
  rintro rfl
  exact absurd h (Nat.lt_irrefl 0)

theorem len_write (f : File α) (a : Nat) (d : List α) (hd : d ≠ []) : (f.write a d).len = max f.len (a + d.length) := by
  show (if d = [] then _ else _) = _
  rw [if_neg hd]

theorem pushed_start (o : Op) (n : Nat) : (o.pushed n).start = o.start := by cases o <;> rfl

/-- What is known after a step -/
structure Next (s : State α) (r : Ref α) (s' : State α) (r' : Ref α) : Prop where
  inv : Inv s' r'
  alive : s'.failed = false
  eff : Effect s.mem s.disk r.file (ops s) s'.mem s'.disk r'.file (ops s')
  done : s'.syncDone = s.syncDone ∨ ∃ q, ops s = .sync s'.syncDone :: q

theorem write_merge {s : State α} {r : Ref α} (h : Inv s r) (hf : s.failed = false) {d : List α} (hd : d ≠ []) {pre post : List Op} {o : Op}
    (ht : target s.position s.queue = some (pre, o, post)) :
    ∃ s' n, append s pre o post d = .ok (s', .count n) ∧ 0 < n ∧ n ≤ d.length ∧ Next s r s' (r.after (.write d) (.count n)) := by
  obtain ⟨hq, he, hfree, hpost⟩ := target_split ht
  have hops : ops s = (busyOps s.thread ++ pre) ++ o :: post := by rw [ops, hq, List.append_assoc]
  have hdl : 0 < d.length := List.length_pos_iff.mpr hd
  have hal : o.dangling s.buffers = false := h.lay.alive (by rw [hops]; exact List.mem_append_right _ (List.mem_cons_self ..))
  have hlen : (d.take (min o.free d.length)).length = min o.free d.length := by rw [List.length_take]; omega
  have hlay : Layout ((busyOps s.thread ++ pre) ++ o.pushed (min o.free d.length) :: post) s.buffers 0 :=
    Layout.merge (by rw [← hops]; exact h.lay) (Nat.min_le_left ..)
  rw [append, hal]
  refine ⟨_, _, rfl, by omega, Nat.min_le_right .., ?_⟩
  have hdne : d.take (min o.free d.length) ≠ [] := by intro e; rw [e] at hlen; simp at hlen; omega
  have hb := append_bytes (l := busyOps s.thread) (d := d.take (min o.free d.length)) s.mem
    (by rw [hlen, ← List.append_assoc]; exact hlay) h.rings h.gens (by omega) hfree
  rw [hlen] at hb
  have eff : Effect s.mem s.disk r.file ((busyOps s.thread ++ pre) ++ o :: post) (o.copyTo s.mem (d.take (min o.free d.length))) s.disk
      (r.file.write o.end_ (d.take (min o.free d.length))) ((busyOps s.thread ++ pre) ++ o.pushed (min o.free d.length) :: post) := by
    refine .merge o _ _ hb.1 hb.2.1 (pushed_start ..) hb.2.2 ?_ (fun k => not_sync hfree k) (fun k => pushed_not_sync hfree _ k)
    intro op hop
    rw [hlen]
    have := hpost op hop
    cases op with
    | write st g o' c u =>
      have hu := used_le h.lay (st := st) (g := g) (o := o') (c := c) (u := u)
        (by rw [hops]; exact List.mem_append_right _ (List.mem_cons_of_mem _ hop))
      cases o with
      | write st' g' o'' c' u' =>
        have hmn : min (Op.write st' g' o'' c' u').free d.length ≤ c' - u' := Nat.min_le_left ..
        have hfr : 0 < c' - u' := hfree
        generalize min (Op.write st' g' o'' c' u').free d.length = m at hmn ⊢
        rw [Op.intersects, Bool.and_eq_false_iff, decide_eq_false_iff_not, decide_eq_false_iff_not] at this
        simp only [Op.start, Op.limit, Op.end_] at this ⊢
        omega
      | _ => exact absurd hfree (Nat.lt_irrefl 0)
    | _ => exact .inr (.inr rfl)
  rw [he, h.pos] at eff
  have hops' : ∀ mem p l, ops { s with mem := mem, queue := pre ++ o.pushed (min o.free d.length) :: post, position := p, length := l } =
      (busyOps s.thread ++ pre) ++ o.pushed (min o.free d.length) :: post := by
    intro mem p l; rw [ops]; simp only []; rw [List.append_assoc]
  refine ⟨⟨h.rings, h.gens, h.fresh, ?_, ?_, ?_, ?_, ?_, ?_, h.done, h.busy⟩, hf, ?_, .inl rfl⟩
  · rw [hops']; exact hlay
  · rw [hops']; exact eff.content (by rw [← hops]; exact h.content)
  · simp only [Ref.after]; rw [h.pos]
  · simp only [Ref.after]
    rw [len_write _ _ _ hdne, hlen, h.len, h.pos]
    omega
  · intro k hk
    rw [hops'] at hk
    exact h.syncs k (by rw [hops]; exact mem_replace (fun k => pushed_not_sync hfree _ k) hk)
  · rw [hops']
    exact order_replace (by rw [← hops]; exact h.order) (fun k => pushed_not_sync hfree _ k)
  · rw [hops', hops]
    exact eff

theorem getLast_split {β : Type} {l : List β} {x : β} (h : l.getLast? = some x) : l = l.dropLast ++ [x] := by
  have hne : l ≠ [] := by rintro rfl; cases h
  rw [List.getLast?_eq_some_getLast hne] at h
  cases h
  exact (List.dropLast_concat_getLast hne).symm

theorem write_new {s : State α} {r : Ref α} (h : Inv s r) (hf : s.failed = false) {d : List α} (hd : d ≠ []) {g : Nat} {b : Ring Unit}
    (hl : s.buffers.getLast? = some (g, b)) (hfree : b.freeSize ≠ 0) :
    ∃ b' s' n, b.push (min b.writeSize (max s.prealloc d.length)) = some b' ∧
      append { s with buffers := s.buffers.dropLast ++ [(g, b')] } s.queue
        (.write s.position g b.writeOffset (min b.writeSize (max s.prealloc d.length)) 0) [] d = .ok (s', .count n) ∧
      0 < n ∧ n ≤ d.length ∧ Next s r s' (r.after (.write d) (.count n)) := by
  have hb := getLast_split hl
  have hbm : (g, b) ∈ s.buffers := by rw [hb]; exact List.mem_append_right _ (List.mem_cons_self ..)
  have hbi : b.Inv := h.rings _ hbm
  have hdl : 0 < d.length := List.length_pos_iff.mpr hd
  have hw : b.writeSize ≠ 0 := by
    intro e
    have := writeSize_zero b hbi e
    apply hfree
    unfold freeSize
    omega
  have hm : 0 < min b.writeSize (max s.prealloc d.length) := by omega
  have hmw : min b.writeSize (max s.prealloc d.length) ≤ b.writeSize := Nat.min_le_left ..
  generalize min b.writeSize (max s.prealloc d.length) = m at hm hmw ⊢
  have hfit := writeSize_fits b hbi
  refine ⟨b.advanceWrite m, ?_⟩
  have hpush : b.push m = some (b.advanceWrite m) := by rw [push, if_pos (by omega)]
  have hop : (Op.write s.position g b.writeOffset m 0).free = m := Nat.sub_zero m
  have hlen : (d.take (min m d.length)).length = min m d.length := by rw [List.length_take]; omega
  have hdne : d.take (min m d.length) ≠ [] := by intro e; rw [e] at hlen; simp at hlen; omega
  have hlay : Layout (ops s ++ [.write s.position g b.writeOffset m (min m d.length)]) (s.buffers.dropLast ++ [(g, b.advanceWrite m)]) 0 :=
    Layout.push hbi s.position (by rw [← hb]; exact h.lay) hmw (by omega) (Nat.min_le_left ..)
  have hrings : ∀ x ∈ s.buffers.dropLast ++ [(g, b.advanceWrite m)], x.2.Inv := by
    intro x hx
    rcases List.mem_append.mp hx with hx | hx
    · exact h.rings x (by rw [hb]; exact List.mem_append_left _ hx)
    · cases List.mem_singleton.mp hx
      exact advanceWrite_inv b hbi m hmw
  have hgens : ((s.buffers.dropLast ++ [(g, b.advanceWrite m)]).map (·.1)) = s.buffers.map (·.1) := by
    conv => rhs; rw [hb]
    rw [List.map_append, List.map_append]
    rfl
  have hg' : ((s.buffers.dropLast ++ [(g, b.advanceWrite m)]).map (·.1)).Nodup := by rw [hgens]; exact h.gens
  have hbytes := append_bytes (l := busyOps s.thread) (pre := s.queue) (post := []) (o := .write s.position g b.writeOffset m 0)
    (d := d.take (min m d.length)) s.mem (by rw [hlen, ← List.append_assoc]; rw [Op.pushed, Nat.zero_add]; exact hlay) hrings hg'
    (by rw [hop]; omega) (by rw [hop]; omega)
  have hal : (Op.write s.position g b.writeOffset m 0).dangling (s.buffers.dropLast ++ [(g, b.advanceWrite m)]) = false :=
    (Layout.alive hlay (List.mem_append_right _ (List.mem_cons_self ..)) : (Op.write s.position g b.writeOffset m _).dangling _ = false)
  rw [append]
  simp only []
  rw [hal, hop]
  refine ⟨_, _, hpush, rfl, by omega, Nat.min_le_right .., ?_⟩
  rw [hlen] at hbytes
  have eff : Effect s.mem s.disk r.file (ops s) ((Op.write s.position g b.writeOffset m 0).copyTo s.mem (d.take (min m d.length))) s.disk
      (r.file.write s.position (d.take (min m d.length))) (ops s ++ [(Op.write s.position g b.writeOffset m 0).pushed (min m d.length)]) := by
    have := Effect.push (mem := s.mem) (disk := s.disk) (file := r.file) (q := ops s)
      (mem' := (Op.write s.position g b.writeOffset m 0).copyTo s.mem (d.take (min m d.length)))
      ((Op.write s.position g b.writeOffset m 0).pushed (min m d.length)) hbytes.1
    rw [hbytes.2.2] at this
    exact this
  rw [h.pos] at eff
  rw [h.pos]
  have hq : ∀ bufs mem p l (op : Op), ops { s with buffers := bufs, mem := mem, queue := s.queue ++ [op], position := p, length := l } =
      ops s ++ [op] := by
    intro bufs mem p l op; rw [ops, ops]; simp only []; rw [List.append_assoc]
  refine ⟨⟨hrings, hg', ?_, ?_, ?_, rfl, ?_, ?_, ?_, h.done, h.busy⟩, hf, ?_, .inl rfl⟩
  · intro x hx
    have : x.1 ∈ s.buffers.map (·.1) := by rw [← hgens]; exact List.mem_map_of_mem hx
    obtain ⟨y, hy, e⟩ := List.mem_map.mp this
    have := h.fresh y hy
    simp only []
    omega
  · rw [hq, Op.pushed, Nat.zero_add, ← h.pos]; exact hlay
  · rw [hq]; exact eff.content h.content
  · simp only [Ref.after]
    rw [len_write _ _ _ hdne, hlen, h.len]
    omega
  · intro k hk
    rw [hq] at hk
    rcases List.mem_append.mp hk with hk | hk
    · exact h.syncs k hk
    · cases List.mem_singleton.mp hk
  · rw [hq]
    exact order_push h.order (fun k e => nomatch e)
  · rw [hq]
    exact eff

end Verif.Async

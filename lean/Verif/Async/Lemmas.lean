import Verif.Async.Model
import Verif.Ring.Lemmas

/-! Lemmas for AsyncByteStream. -/

namespace Verif.Async

open Verif.Ring Verif.Ring.Ring

variable {α : Type}

/-! ## Files -/

theorem put_nil (f : Nat → α) (a : Nat) : put f a [] = f := by
  funext x
  unfold put
  split <;> rfl

theorem put_out (f : Nat → α) (a : Nat) (d : List α) (x : Nat) (h : x < a ∨ a + d.length ≤ x) : put f a d x = f x := by
  unfold put
  split
  · rw [List.getElem?_eq_none (by omega)]; rfl
  · rfl

theorem put_in (f : Nat → α) (a : Nat) (d : List α) (i : Nat) (h : i < d.length) : put f a d (a + i) = d[i] := by
  unfold put
  rw [if_pos (Nat.le_add_right _ _), Nat.add_sub_cancel_left, List.getElem?_eq_getElem h]
  rfl

/-- Either outside, or inside at an index -/
theorem put_cases (a n x : Nat) : (x < a ∨ a + n ≤ x) ∨ ∃ i, i < n ∧ x = a + i := by
  by_cases h : x < a ∨ a + n ≤ x
  · exact .inl h
  · exact .inr ⟨x - a, by omega, by omega⟩

theorem put_indep (f g : Nat → α) (a : Nat) (d : List α) (i : Nat) (h : i < d.length) : put f a d (a + i) = put g a d (a + i) := by
  rw [put_in f a d i h, put_in g a d i h]

theorem put_append (f : Nat → α) (a : Nat) (d e : List α) : put f a (d ++ e) = put (put f a d) (a + d.length) e := by
  funext x
  rcases put_cases a d.length x with h | ⟨i, hi, rfl⟩
  · rcases put_cases (a + d.length) e.length x with k | ⟨j, hj, rfl⟩
    · rw [put_out _ _ e _ k, put_out _ _ d _ h, put_out]
      rw [List.length_append]; omega
    · rw [put_in _ _ e j hj, Nat.add_assoc, put_in _ _ (d ++ e) (d.length + j) (by rw [List.length_append]; omega)]
      rw [List.getElem_append_right (Nat.le_add_right _ _)]
      congr 1
      omega
  · rw [put_out _ _ e _ (by omega), put_in _ _ d i hi, put_in _ _ (d ++ e) i (by rw [List.length_append]; omega)]
    exact List.getElem_append_left hi

theorem put_comm (f : Nat → α) (a b : Nat) (d e : List α) (h : a + d.length ≤ b ∨ b + e.length ≤ a) :
    put (put f a d) b e = put (put f b e) a d := by
  funext x
  rcases put_cases a d.length x with k | ⟨i, hi, rfl⟩
  · rw [put_out _ a d _ k]
    rcases put_cases b e.length x with l | ⟨j, hj, rfl⟩
    · rw [put_out _ b e _ l, put_out _ b e _ l, put_out _ a d _ k]
    · rw [put_in _ b e j hj, put_in _ b e j hj]
  · rw [put_out _ b e _ (by omega), put_in _ a d i hi, put_in _ a d i hi]

theorem File.ext' {f g : File α} (h : f.get = g.get) (k : f.len = g.len) : f = g := by
  cases f; cases g; cases h; cases k; rfl

theorem write_nil (f : File α) (a : Nat) : f.write a [] = f := File.ext' (put_nil _ _) (by show (if ([] : List α) = [] then f.len else max f.len (a + 0)) = f.len; rw [if_pos rfl])

theorem write_append (f : File α) (a : Nat) (d e : List α) : f.write a (d ++ e) = (f.write a d).write (a + d.length) e := by
  by_cases hd : d = []
  · subst hd; rw [write_nil]; rfl
  by_cases he : e = []
  · subst he; rw [write_nil, List.append_nil]
  refine File.ext' (put_append ..) ?_
  show (if d ++ e = [] then _ else _) = if e = [] then _ else max (if d = [] then _ else _) _
  rw [if_neg hd, if_neg he, if_neg (fun h => hd (List.append_eq_nil_iff.mp h).1), List.length_append]
  omega

theorem write_comm (f : File α) (a b : Nat) (d e : List α) (h : a + d.length ≤ b ∨ b + e.length ≤ a) :
    (f.write a d).write b e = (f.write b e).write a d := by
  by_cases hd : d = []
  · subst hd; rw [write_nil, write_nil]
  by_cases he : e = []
  · subst he; rw [write_nil, write_nil]
  refine File.ext' (put_comm _ _ _ _ _ h) ?_
  show (if e = [] then _ else max (if d = [] then _ else _) _) = if d = [] then _ else max (if e = [] then _ else _) _
  rw [if_neg hd, if_neg he, if_neg hd, if_neg he]
  omega

/-- The file after operations -/
def fileOf (mem : Nat → Nat → α) (disk : File α) (l : List Op) : File α := l.foldl (fun f op => f.write op.start (op.bytes mem)) disk

theorem fileOf_nil (mem : Nat → Nat → α) (disk : File α) : fileOf mem disk [] = disk := rfl

theorem fileOf_cons (mem : Nat → Nat → α) (disk : File α) (op : Op) (l : List Op) :
    fileOf mem disk (op :: l) = fileOf mem (disk.write op.start (op.bytes mem)) l := rfl

theorem fileOf_append (mem : Nat → Nat → α) (disk : File α) (l k : List Op) :
    fileOf mem disk (l ++ k) = fileOf mem (fileOf mem disk l) k := List.foldl_append ..

theorem fileOf_quiet (mem : Nat → Nat → α) (disk : File α) (op : Op) (l : List Op) (h : op.bytes mem = []) :
    fileOf mem disk (op :: l) = fileOf mem disk l := by rw [fileOf_cons, h, write_nil]

theorem fileOf_congr {mem mem' : Nat → Nat → α} {l : List Op} (h : ∀ op ∈ l, op.bytes mem' = op.bytes mem) (disk : File α) :
    fileOf mem' disk l = fileOf mem disk l := by
  induction l generalizing disk with
  | nil => rfl
  | cons op l ih =>
    rw [fileOf_cons, fileOf_cons, h op (List.mem_cons_self ..), ih fun o ho => h o (List.mem_cons_of_mem _ ho)]

theorem length_bytes (mem : Nat → Nat → α) (op : Op) : (op.bytes mem).length = op.end_ - op.start := by
  cases op <;> simp [Op.bytes, Op.end_, Op.start]

/-- A write that no operation touches may be made before or after them -/
theorem fileOf_write (mem : Nat → Nat → α) (l : List Op) (a : Nat) (d : List α)
    (h : ∀ op ∈ l, a + d.length ≤ op.start ∨ op.end_ ≤ a ∨ op.bytes mem = []) (f : File α) :
    fileOf mem (f.write a d) l = (fileOf mem f l).write a d := by
  induction l generalizing f with
  | nil => rfl
  | cons op l ih =>
    rw [fileOf_cons, fileOf_cons, ← ih (fun o ho => h o (List.mem_cons_of_mem _ ho))]
    congr 1
    rcases h op (List.mem_cons_self ..) with k | k | k
    · exact write_comm _ _ _ _ _ (.inl k)
    · refine write_comm _ _ _ _ _ (.inr ?_)
      rw [length_bytes]
      have : op.start ≤ op.end_ := by cases op <;> simp [Op.start, Op.end_]
      omega
    · rw [k, write_nil, write_nil]

/-! ## The layout of the operations in the buffers -/

/-- From position `p` of the first buffer on, the operations tile the buffers -/
def Layout : List Op → List (Nat × Ring Unit) → Nat → Prop
  | [], bufs, p => ∃ g r, bufs = [(g, r)] ∧ p = r.dataSize
  | .write _ g o c u :: q, bufs, p =>
    ∃ r rest, bufs = (g, r) :: rest ∧ r.pos p = o ∧ o + c ≤ r.storageSize ∧ p + c ≤ r.dataSize ∧ 0 < u ∧ u ≤ c ∧
      Layout q bufs (p + c)
  | .popBuffer :: q, bufs, p => ∃ g r rest, bufs = (g, r) :: rest ∧ p = r.dataSize ∧ Layout q rest 0
  | .stop :: q, bufs, p => Layout q bufs p
  | .sync _ :: q, bufs, p => Layout q bufs p

theorem Layout.ne {q : List Op} {bufs : List (Nat × Ring Unit)} {p : Nat} (h : Layout q bufs p) : bufs ≠ [] := by
  induction q generalizing bufs p with
  | nil => obtain ⟨g, r, rfl, _⟩ := h; exact fun e => nomatch e
  | cons op q ih =>
    cases op with
    | write => obtain ⟨r, rest, rfl, _⟩ := h; exact fun e => nomatch e
    | popBuffer => obtain ⟨g, r, rest, rfl, _⟩ := h; exact fun e => nomatch e
    | stop => exact ih h
    | sync => exact ih h

/-- A new write at the end, in the front buffer -/
theorem Layout.push {q : List Op} {bs : List (Nat × Ring Unit)} {g : Nat} {r : Ring Unit} (hr : r.Inv) {p n u : Nat} (st : Nat)
    (h : Layout q (bs ++ [(g, r)]) p) (hn : n ≤ r.writeSize) (hu : 0 < u) (hun : u ≤ n) :
    Layout (q ++ [.write st g r.writeOffset n u]) (bs ++ [(g, r.advanceWrite n)]) p := by
  have hs : (r.advanceWrite n).storageSize = r.storageSize := by unfold storageSize; rw [advanceWrite_storage]
  have hp : ∀ i, (r.advanceWrite n).pos i = r.pos i := by intro i; unfold pos; rw [hs, advanceWrite_readOffset]
  have hd := advanceWrite_dataSize r hr n hn
  induction q generalizing bs p with
  | nil =>
    obtain ⟨g', r', e, hpd⟩ := h
    have : bs = [] := by
      cases bs with
      | nil => rfl
      | cons b bs => have := congrArg List.length e; simp at this
    subst this
    cases e
    refine ⟨_, [], rfl, ?_, ?_, ?_, hu, hun, ?_⟩
    · rw [hp, hpd]; exact pos_write r hr 0 (by omega)
    · rw [hs]; have := writeSize_fits r hr; omega
    · omega
    · exact ⟨g, _, rfl, by omega⟩
  | cons op q ih =>
    cases op with
    | write st' g' o c u' =>
      obtain ⟨r', rest, e, h1, h2, h3, h4, h5, h6⟩ := h
      cases bs with
      | nil =>
        cases e
        exact ⟨_, [], rfl, by rw [hp]; exact h1, by rw [hs]; exact h2, by omega, h4, h5, ih h6⟩
      | cons b bs =>
        cases e
        exact ⟨_, _, rfl, h1, h2, h3, h4, h5, ih (bs := _ :: bs) h6⟩
    | popBuffer =>
      obtain ⟨g', r', rest, e, h1, h2⟩ := h
      cases bs with
      | nil => cases e; exact absurd rfl h2.ne
      | cons b bs => cases e; exact ⟨g', r', _, rfl, h1, ih h2⟩
    | stop => exact ih h
    | sync => exact ih h

/-- An operation without bytes at the end -/
theorem Layout.push_quiet {q : List Op} {bufs : List (Nat × Ring Unit)} {p : Nat} (h : Layout q bufs p) (op : Op)
    (ho : op = .stop ∨ ∃ k, op = .sync k) : Layout (q ++ [op]) bufs p := by
  induction q generalizing bufs p with
  | nil => rcases ho with rfl | ⟨k, rfl⟩ <;> exact h
  | cons o q ih =>
    cases o with
    | write => obtain ⟨r', rest, e, h1, h2, h3, h4, h5, h6⟩ := h; exact ⟨r', rest, e, h1, h2, h3, h4, h5, ih h6⟩
    | popBuffer => obtain ⟨g', r', rest, e, h1, h2⟩ := h; exact ⟨g', r', rest, e, h1, ih h2⟩
    | stop => exact ih h
    | sync => exact ih h

/-- A new buffer -/
theorem Layout.reconf {q : List Op} {bufs : List (Nat × Ring Unit)} {p : Nat} (h : Layout q bufs p) (b : Nat × Ring Unit)
    (hb : b.2.dataSize = 0) : Layout (q ++ [.popBuffer]) (bufs ++ [b]) p := by
  induction q generalizing bufs p with
  | nil => obtain ⟨g, r, rfl, hp⟩ := h; exact ⟨g, r, [b], rfl, hp, b.1, b.2, rfl, hb.symm⟩
  | cons o q ih =>
    cases o with
    | write => obtain ⟨r', rest, rfl, h1, h2, h3, h4, h5, h6⟩ := h; exact ⟨r', rest ++ [b], rfl, h1, h2, h3, h4, h5, ih h6⟩
    | popBuffer => obtain ⟨g', r', rest, rfl, h1, h2⟩ := h; exact ⟨g', r', rest ++ [b], rfl, h1, ih h2⟩
    | stop => exact ih h
    | sync => exact ih h

/-- More bytes of a queued write -/
theorem Layout.merge {pre post : List Op} {o : Op} {bufs : List (Nat × Ring Unit)} {p n : Nat}
    (h : Layout (pre ++ o :: post) bufs p) (hn : n ≤ o.free) : Layout (pre ++ o.pushed n :: post) bufs p := by
  induction pre generalizing bufs p with
  | nil =>
    cases o with
    | write st g off c u =>
      obtain ⟨r', rest, e, h1, h2, h3, h4, h5, h6⟩ := h
      exact ⟨r', rest, e, h1, h2, h3, by omega, by unfold Op.free at hn; simp only [] at hn; omega, h6⟩
    | _ => exact h
  | cons o' q ih =>
    cases o' with
    | write => obtain ⟨r', rest, e, h1, h2, h3, h4, h5, h6⟩ := h; exact ⟨r', rest, e, h1, h2, h3, h4, h5, ih h6⟩
    | popBuffer => obtain ⟨g', r', rest, e, h1, h2⟩ := h; exact ⟨g', r', rest, e, h1, ih h2⟩
    | stop => exact ih h
    | sync => exact ih h

/-- The reader moves on -/
theorem Layout.shift {q : List Op} {g : Nat} {r : Ring Unit} {rest : List (Nat × Ring Unit)} (hr : r.Inv) {p n : Nat}
    (h : Layout q ((g, r) :: rest) p) (hn : n ≤ r.readSize) (hp : n ≤ p) :
    Layout q ((g, r.advanceRead n) :: rest) (p - n) := by
  have hs : (r.advanceRead n).storageSize = r.storageSize := by unfold storageSize; rw [advanceRead_storage]
  have hd := advanceRead_dataSize r hr n hn
  have hle := readSize_le r hr
  induction q generalizing p with
  | nil =>
    obtain ⟨g', r', e, hpd⟩ := h
    cases e
    exact ⟨g, _, rfl, by omega⟩
  | cons op q ih =>
    cases op with
    | write st' g' o c u' =>
      obtain ⟨r', rest', e, h1, h2, h3, h4, h5, h6⟩ := h
      cases e
      refine ⟨_, _, rfl, ?_, by rw [hs]; exact h2, by omega, h4, h5, ?_⟩
      · rw [advanceRead_pos r hr n hn _ (by omega), show n + (p - n) = p by omega]; exact h1
      · have := ih h6 (by omega)
        rwa [show p + c - n = p - n + c by omega] at this
    | popBuffer =>
      obtain ⟨g', r', rest', e, h1, h2⟩ := h
      cases e
      exact ⟨g, _, rest, rfl, by omega, h2⟩
    | stop => exact ih h hp
    | sync => exact ih h hp

/-- The front operation is where the reader is -/
theorem Layout.front {st g o c u : Nat} {q : List Op} {bufs : List (Nat × Ring Unit)} (h : Layout (.write st g o c u :: q) bufs 0)
    (hi : ∀ b ∈ bufs, b.2.Inv) : ∃ r rest, bufs = (g, r) :: rest ∧ o = r.readOffset ∧ c ≤ r.readSize ∧ 0 < u ∧ u ≤ c := by
  obtain ⟨r, rest, rfl, h1, h2, h3, h4, h5, _⟩ := h
  have hr : r.Inv := hi (g, r) (List.mem_cons_self ..)
  have a1 := hr.contig; have a2 := hr.wrapped; have a3 := hr.ro; have a4 := hr.wo; have a5 := hr.roEnd
  refine ⟨r, rest, rfl, ?_, ?_, h4, h5⟩
  · unfold pos at h1
    split at h1 <;> omega
  · have ho : o = r.readOffset := by unfold pos at h1; split at h1 <;> omega
    unfold dataSize at h3
    unfold readSize
    by_cases hc : r.contiguous = true
    · rw [if_pos hc] at h3 ⊢; omega
    · rw [if_neg hc] at h3 ⊢; omega

theorem Layout.done {st g o c u : Nat} {q : List Op} {r : Ring Unit} {rest : List (Nat × Ring Unit)}
    (h : Layout (.write st g o c u :: q) ((g, r) :: rest) 0) (hr : r.Inv) (hc : c ≤ r.readSize) :
    Layout q ((g, r.advanceRead c) :: rest) 0 := by
  obtain ⟨r', rest', e, h1, h2, h3, h4, h5, h6⟩ := h
  have := h6.shift hr hc (by omega)
  rwa [show 0 + c - c = 0 by omega] at this

theorem Layout.partial_ {st g o c u n : Nat} {q : List Op} {r : Ring Unit} {rest : List (Nat × Ring Unit)}
    (h : Layout (.write st g o c u :: q) ((g, r) :: rest) 0) (hr : r.Inv) (hc : c ≤ r.readSize) (hn : n < u) :
    Layout (.write (st + n) g (o + n) (c - n) (u - n) :: q) ((g, r.advanceRead n) :: rest) 0 := by
  obtain ⟨r', rest', e, h1, h2, h3, h4, h5, h6⟩ := h
  cases e
  have hs : (r.advanceRead n).storageSize = r.storageSize := by unfold storageSize; rw [advanceRead_storage]
  have hd := advanceRead_dataSize r hr n (by omega)
  have := h6.shift hr (n := n) (by omega) (by omega)
  refine ⟨_, _, rfl, ?_, by omega, by omega, by omega, by omega, ?_⟩
  · rw [advanceRead_pos r hr n (by omega) 0 (by omega)]
    unfold pos at h1 ⊢
    have := hr.ro
    have := hr.roEnd
    split at h1 <;> split <;> omega
  · rwa [show 0 + c - n = 0 + (c - n) by omega] at this

/-! ## No two operations share memory -/

/-- The memory of two operations is disjoint -/
def Apart : Op → Op → Prop
  | .write _ g o c _, .write _ g' o' c' _ => g ≠ g' ∨ o + c ≤ o' ∨ o' + c' ≤ o
  | _, _ => True

theorem Layout.later {q : List Op} {g : Nat} {r : Ring Unit} {rest : List (Nat × Ring Unit)} {p : Nat}
    (h : Layout q ((g, r) :: rest) p) {st g' o' c' u' : Nat} (hm : Op.write st g' o' c' u' ∈ q) :
    (g' = g ∧ ∃ p', p ≤ p' ∧ r.pos p' = o' ∧ p' + c' ≤ r.dataSize ∧ o' + c' ≤ r.storageSize ∧ 0 < c') ∨ g' ∈ rest.map (·.1) := by
  induction q generalizing g r rest p with
  | nil => cases hm
  | cons op q ih =>
    cases op with
    | write st' g'' o c u =>
      obtain ⟨r', rest', e, h1, h2, h3, h4, h5, h6⟩ := h
      cases e
      cases hm with
      | head => exact .inl ⟨rfl, p, Nat.le_refl _, h1, h3, h2, by omega⟩
      | tail _ hm =>
        rcases ih h6 hm with ⟨a, p', b, c⟩ | a
        · exact .inl ⟨a, p', by omega, c⟩
        · exact .inr a
    | popBuffer =>
      obtain ⟨g'', r', rest', e, h1, h2⟩ := h
      cases e
      cases hm with
      | tail _ hm =>
        right
        cases rest with
        | nil => exact absurd rfl h2.ne
        | cons b rest =>
          rcases ih (g := b.1) (r := b.2) h2 hm with ⟨a, _⟩ | a
          · rw [a]; exact List.mem_cons_self ..
          · exact List.mem_cons_of_mem _ a
    | stop => cases hm with | tail _ hm => exact ih h hm
    | sync => cases hm with | tail _ hm => exact ih h hm

theorem Layout.apart {q : List Op} {bufs : List (Nat × Ring Unit)} {p : Nat} (h : Layout q bufs p) (hi : ∀ b ∈ bufs, b.2.Inv)
    (hg : (bufs.map (·.1)).Nodup) : q.Pairwise Apart := by
  induction q generalizing bufs p with
  | nil => exact .nil
  | cons op q ih =>
    cases op with
    | write st g o c u =>
      obtain ⟨r, rest, rfl, h1, h2, h3, h4, h5, h6⟩ := h
      refine List.pairwise_cons.mpr ⟨?_, ih h6 hi hg⟩
      intro op' hm
      cases op' with
      | write st' g' o' c' u' =>
        rcases h6.later hm with ⟨rfl, p', a1, a2, a3, a4, a5⟩ | a
        · right
          have hr : r.Inv := hi (g', r) (List.mem_cons_self ..)
          have := dataSize_le r hr
          have := hr.ro
          have := hr.roEnd
          unfold pos at h1 a2
          split at h1 <;> split at a2 <;> omega
        · left
          rintro rfl
          exact (List.nodup_cons.mp hg).1 a
      | _ => trivial
    | popBuffer =>
      obtain ⟨g, r, rest, rfl, h1, h2⟩ := h
      exact List.pairwise_cons.mpr ⟨fun _ _ => trivial,
        ih h2 (fun b hb => hi b (List.mem_cons_of_mem _ hb)) (List.nodup_cons.mp hg).2⟩
    | stop => exact List.pairwise_cons.mpr ⟨fun _ _ => trivial, ih h hi hg⟩
    | sync => exact List.pairwise_cons.mpr ⟨fun _ _ => trivial, ih h hi hg⟩

/-- No operation points into a destroyed buffer -/
theorem Layout.alive {q : List Op} {bufs : List (Nat × Ring Unit)} {p : Nat} (h : Layout q bufs p) {op : Op} (hm : op ∈ q) :
    op.dangling bufs = false := by
  cases op with
  | write st g o c u =>
    cases bufs with
    | nil => exact absurd rfl h.ne
    | cons b bufs =>
      have : ∃ b' ∈ b :: bufs, b'.1 = g := by
        rcases h.later (g := b.1) (r := b.2) hm with ⟨rfl, _⟩ | a
        · exact ⟨b, List.mem_cons_self .., rfl⟩
        · obtain ⟨b', hb, e⟩ := List.mem_map.mp a
          exact ⟨b', List.mem_cons_of_mem _ hb, e⟩
      obtain ⟨b', hb, e⟩ := this
      unfold Op.dangling
      rw [Bool.eq_false_iff]
      intro ha
      have := List.all_eq_true.mp ha b' hb
      simp [e] at this
  | _ => rfl

theorem Apart.symm {a b : Op} (h : Apart a b) : Apart b a := by
  cases a <;> cases b <;> first | trivial | skip
  unfold Apart at *
  omega

/-- A copy into the free space of an operation leaves the bytes of another alone -/
theorem bytes_copyTo {a b : Op} (h : Apart a b) (hb : ∀ st g o c u, b = .write st g o c u → u ≤ c)
    (hal : ∀ st g o c u, a = .write st g o c u → u ≤ c) (mem : Nat → Nat → α) (d : List α)
    (hd : d.length ≤ a.free) : b.bytes (a.copyTo mem d) = b.bytes mem := by
  cases a with
  | write st g o c u =>
    cases b with
    | write st' g' o' c' u' =>
      have h1 := hb _ _ _ _ _ rfl
      have h2 := hal _ _ _ _ _ rfl
      unfold Op.bytes Op.copyTo
      apply List.map_congr_left
      intro i hi
      rw [List.mem_range] at hi
      simp only []
      unfold Op.free at hd
      simp only [] at hd
      split
      · rename_i e
        subst e
        rcases h with h | h
        · exact absurd rfl h
        · exact put_out _ _ _ _ (by omega)
      · rfl
    | _ => rfl
  | _ => rfl

/-- The bytes of an operation after more were appended -/
theorem bytes_pushed {a : Op} (ha : a.free ≠ 0) (mem : Nat → Nat → α) (d : List α) :
    (a.pushed d.length).bytes (a.copyTo mem d) = a.bytes mem ++ d := by
  cases a with
  | write st g o c u =>
    unfold Op.pushed Op.bytes Op.copyTo
    simp only []
    rw [List.range_add, List.map_append, List.map_map]
    congr 1
    · apply List.map_congr_left
      intro i hi
      rw [List.mem_range] at hi
      rw [if_pos trivial]
      exact put_out _ _ _ _ (by omega)
    · apply List.ext_getElem
      · simp
      · intro i h1 h2
        simp only [List.getElem_map, List.getElem_range, Function.comp, ↓reduceIte]
        rw [← Nat.add_assoc]
        exact put_in _ _ _ _ h2
  | _ => exact absurd rfl ha

end Verif.Async

import Verif.Bytes.Model
import Verif.Bytes.Spec
/- Proofs about views of bytes. -/
namespace Verif.Bytes
open Spec
section
variable {α : Type}

/-- Sizes and offsets are numbers of 64 bits, and the offset is within the vector. -/
structure WF (h : List (List α)) (v : View) : Prop where
  short : (data h v).length < M - 1
  offset : v.offset ≤ (data h v).length
  limit : v.limit < M

theorem size_eq {h : List (List α)} {v : View} (hv : WF h v) : size h v = min ((data h v).length - v.offset) v.limit := by
  rw [size, if_pos hv.offset]

/-- The bytes of a view lie within its vector. -/
theorem bytes_length (h : List (List α)) (v : View) : (bytes h v).length = size h v := by
  unfold bytes size
  split
  · rw [List.length_take, List.length_drop]; omega
  · rw [List.length_take]; omega

/-- A view of a view shows the part asked for. -/
theorem from1_part_partial (h : List (List α)) (v : View) (hv : WF h v) (o : Nat) (ho : Within (bytes h v) o none) :
    ∃ v', from1 h v o = some v' ∧ WF h v' ∧ data h v' = data h v ∧ bytes h v' = part (bytes h v) o none := by
  have hs := hv.short
  have hof := hv.offset
  have hl := hv.limit
  rw [Within, bytes_length, size_eq hv] at ho
  unfold M at hs hl
  have e1 : add v.offset o = v.offset + o := by unfold add M; omega
  have hb : (data h v).drop (v.offset + o) = ((data h v).drop v.offset).drop o := by rw [List.drop_drop]
  unfold from1
  rw [e1, if_pos (by omega)]
  by_cases hn : v.limit = noLimit
  · rw [if_pos hn]
    have hw : WF h ⟨v.id, v.offset + o, noLimit⟩ :=
      ⟨hv.short, by show v.offset + o ≤ (data h v).length; omega, by show noLimit < M; unfold noLimit M; omega⟩
    refine ⟨_, rfl, hw, rfl, ?_⟩
    unfold bytes part
    rw [size_eq hw, size_eq hv]
    simp only [hn]
    rw [show data h ⟨v.id, v.offset + o, noLimit⟩ = data h v from rfl, hb, List.drop_take]
    unfold noLimit M
    congr 1
    omega
  · rw [if_neg hn]
    have e2 : sub v.limit o = v.limit - o := by unfold sub M; omega
    rw [e2]
    have hw : WF h ⟨v.id, v.offset + o, v.limit - o⟩ :=
      ⟨hv.short, by show v.offset + o ≤ (data h v).length; omega, by show v.limit - o < M; unfold M; omega⟩
    refine ⟨_, rfl, hw, rfl, ?_⟩
    unfold bytes part
    rw [size_eq hw, size_eq hv]
    simp only []
    rw [show data h ⟨v.id, v.offset + o, v.limit - o⟩ = data h v from rfl, hb, List.drop_take]
    congr 1
    omega

/-- A view of a view with a size shows the part asked for. -/
theorem from2_part_partial (h : List (List α)) (v : View) (hv : WF h v) (o n : Nat) (ho : Within (bytes h v) o (some n)) :
    ∃ v', from2 h v o n = some v' ∧ WF h v' ∧ data h v' = data h v ∧ bytes h v' = part (bytes h v) o (some n) ∧ size h v' = n := by
  have hs := hv.short
  have hof := hv.offset
  have hl := hv.limit
  rw [Within, bytes_length, size_eq hv] at ho
  unfold M at hs hl
  have e1 : add v.offset o = v.offset + o := by unfold add M; omega
  have e2 : add n o = n + o := by unfold add M; omega
  have hb : (data h v).drop (v.offset + o) = ((data h v).drop v.offset).drop o := by rw [List.drop_drop]
  unfold from2
  rw [e1, e2, if_pos (by omega), if_pos (by omega), if_pos (by omega)]
  have hw : WF h ⟨v.id, v.offset + o, n⟩ :=
    ⟨hv.short, by show v.offset + o ≤ (data h v).length; omega, by show n < M; unfold M; omega⟩
  have hsz : size h ⟨v.id, v.offset + o, n⟩ = n := by
    rw [size_eq hw]
    show min ((data h v).length - (v.offset + o)) n = n
    omega
  refine ⟨_, rfl, hw, rfl, ?_, hsz⟩
  unfold bytes part
  rw [hsz, size_eq hv]
  simp only []
  rw [show data h ⟨v.id, v.offset + o, n⟩ = data h v from rfl, hb, List.drop_take, List.take_take]
  congr 1
  omega

/-- A view of an array without size limit: an offset outside of it is refused. -/
theorem from1_refused_partial (h : List (List α)) (v : View) (hv : WF h v) (hn : v.limit = noLimit) (o : Nat) (hM : v.offset + o < M)
    (ho : ¬ Within (bytes h v) o none) : from1 h v o = none := by
  have hs := hv.short
  rw [Within, bytes_length, size_eq hv, hn] at ho
  unfold M at hs
  unfold noLimit at ho
  unfold M at ho hM
  have e1 : add v.offset o = v.offset + o := by unfold add M; omega
  unfold from1
  rw [e1, if_neg (by omega)]

/-- A view with a size of a view which begins with the vector: a part outside of it is refused. -/
theorem from2_refused_partial (h : List (List α)) (v : View) (hv : WF h v) (h0 : v.offset = 0) (o n : Nat) (hM : o + n < M) (hn : n ≠ noLimit)
    (ho : ¬ Within (bytes h v) o (some n)) : from2 h v o n = none := by
  have hs := hv.short
  rw [Within, bytes_length, size_eq hv, h0] at ho
  unfold M at hM hs
  have e2 : add n o = n + o := by unfold add M; omega
  unfold from2
  rw [e2]
  split
  · split
    · rw [if_neg (by rename_i h3; rcases h3 with h3 | h3; exact absurd h3 hn; omega)]
    · rfl
  · rfl

/-- Makes a view of a view: offset, and a size if given. -/
def sub1 (h : List (List α)) (v : View) (p : Nat × Option Nat) : Option View :=
  match p.2 with
  | none => from1 h v p.1
  | some n => from2 h v p.1 n

/-- Views of views of views, to any depth: as long as each part lies within the one before it, the last view shows the part of the part of
the part. -/
theorem nested_views_partial (h : List (List α)) (ps : List (Nat × Option Nat)) : ∀ (v : View), WF h v →
    (∀ pre p post, ps = pre ++ p :: post → Within (pre.foldl (fun xs q => part xs q.1 q.2) (bytes h v)) p.1 p.2) →
    ∃ v', ps.foldl (fun w p => w.bind fun w => sub1 h w p) (some v) = some v' ∧ WF h v' ∧
      bytes h v' = ps.foldl (fun xs q => part xs q.1 q.2) (bytes h v) := by
  induction ps with
  | nil => intro v hv _; exact ⟨v, rfl, hv, rfl⟩
  | cons p ps ih =>
    intro v hv hin
    have h0 : Within (bytes h v) p.1 p.2 := hin [] p ps rfl
    have h1 : ∃ v1, sub1 h v p = some v1 ∧ WF h v1 ∧ bytes h v1 = part (bytes h v) p.1 p.2 := by
      obtain ⟨o, n⟩ := p
      cases n with
      | none => obtain ⟨v1, a, b, _, c⟩ := from1_part_partial h v hv o h0; exact ⟨v1, a, b, c⟩
      | some n => obtain ⟨v1, a, b, _, c, _⟩ := from2_part_partial h v hv o n h0; exact ⟨v1, a, b, c⟩
    obtain ⟨v1, a, b, c⟩ := h1
    obtain ⟨v', d, e, f⟩ := ih v1 b (fun pre q post hq => by
      have := hin (p :: pre) q post (by rw [hq]; rfl)
      rw [List.foldl_cons, ← c] at this
      exact this)
    refine ⟨v', ?_, e, ?_⟩
    · rw [List.foldl_cons, Option.bind_some, a]; exact d
    · rw [List.foldl_cons, ← c]; exact f

theorem getElem?_bytes (h : List (List α)) (v : View) (i : Nat) :
    (bytes h v)[i]? = if i < size h v then (data h v)[v.offset + i]? else none := by
  unfold bytes
  rw [List.getElem?_take, List.getElem?_drop]

/-- Elements of a view. -/
theorem index_spec (h : List (List α)) (v : View) (hv : WF h v) (i : Nat) : index h v i = (bytes h v)[i]? := by
  rw [getElem?_bytes, index]
  have hs := hv.short
  have := hv.offset
  unfold M at hs
  by_cases hi : i < size h v
  · rw [if_pos hi, if_pos hi]
    rw [size_eq hv] at hi
    have : add i v.offset = v.offset + i := by unfold add M; omega
    rw [this]
  · rw [if_neg hi, if_neg hi]

theorem data_set_same (h : List (List α)) (v w : View) (xs : List α) (hid : w.id = v.id) (hlt : v.id < h.length) :
    data (h.set v.id xs) w = xs := by
  unfold data
  rw [hid, List.getD_eq_getElem?_getD, List.getElem?_set_self hlt]
  rfl

theorem data_set_other (h : List (List α)) (v w : View) (xs : List α) (hid : w.id ≠ v.id) : data (h.set v.id xs) w = data h w := by
  unfold data
  rw [List.getD_eq_getElem?_getD, List.getElem?_set_ne (fun e => hid e.symm), ← List.getD_eq_getElem?_getD]

/-- A write through one view is seen by every view exactly at the same place of the same vector. -/
theorem write_spec (h : List (List α)) (v w : View) (hv : WF h v) (hw : WF h w) (hlt : v.id < h.length) (i : Nat) (x : α) :
    (write h v i x = none ↔ (bytes h v).length ≤ i) ∧
    ∀ h', write h v i x = some h' → ∀ j, (bytes h' w)[j]? =
      if w.id = v.id ∧ w.offset + j = v.offset + i ∧ j < (bytes h w).length then some x else (bytes h w)[j]? := by
  have hs := hv.short
  have ho := hv.offset
  unfold M at hs
  constructor
  · rw [bytes_length, write]
    split
    · rename_i h1; exact ⟨(fun e => nomatch e), fun h2 => by omega⟩
    · rename_i h1; exact ⟨fun _ => by omega, fun _ => rfl⟩
  · intro h' hh j
    rw [write] at hh
    split at hh
    · rename_i hi
      cases hh
      have hisz : i < (data h v).length - v.offset := by rw [size_eq hv] at hi; omega
      have ea : add i v.offset = v.offset + i := by unfold add M; omega
      rw [ea, bytes_length]
      by_cases hid : w.id = v.id
      · have hd := data_set_same h v w ((data h v).set (v.offset + i) x) hid hlt
        have hdw : data h w = data h v := by unfold data; rw [hid]
        have hsz : size (h.set v.id ((data h v).set (v.offset + i) x)) w = size h w := by
          unfold size; rw [hd, hdw, List.length_set]
        rw [getElem?_bytes, getElem?_bytes, hsz, hd, hdw]
        by_cases hj : j < size h w
        · rw [if_pos hj, if_pos hj]
          by_cases he : w.offset + j = v.offset + i
          · rw [if_pos ⟨hid, he, hj⟩, he, List.getElem?_set_self (by omega)]
          · rw [if_neg (fun e => he e.2.1), List.getElem?_set_ne (fun e => he e.symm)]
        · rw [if_neg hj, if_neg hj, if_neg (fun e => hj e.2.2)]
      · have hd := data_set_other h v w ((data h v).set (v.offset + i) x) hid
        rw [if_neg (fun e => hid e.1), getElem?_bytes, getElem?_bytes]
        unfold size
        rw [hd]
    · cases hh

/-- Appending: refused for views with a size limit; the view gets the bytes at its end, as does every other view without limit of the same
vector; views with limit which lie within the vector and views of other vectors do not change. -/
theorem append_spec (h : List (List α)) (v : View) (hv : WF h v) (hlt : v.id < h.length) (xs : List α)
    (hM : (data h v).length + xs.length < M - 1) :
    (append h v xs = none ↔ v.limit ≠ noLimit) ∧
    ∀ h', append h v xs = some h' → bytes h' v = bytes h v ++ xs ∧
      ∀ w, WF h w → (w.id ≠ v.id → bytes h' w = bytes h w) ∧ (w.id = v.id → w.limit = noLimit → bytes h' w = bytes h w ++ xs) ∧
        (w.id = v.id → w.offset + w.limit ≤ (data h w).length → bytes h' w = bytes h w) := by
  unfold append
  constructor
  · split
    · rename_i h1; exact ⟨(fun e => nomatch e), fun h2 => absurd h1 h2⟩
    · rename_i h1; exact ⟨fun _ => h1, fun _ => rfl⟩
  · intro h' hh
    split at hh
    · rename_i hl
      cases hh
      have key : ∀ w, WF h w → w.id = v.id → w.limit = noLimit → bytes (h.set v.id (data h v ++ xs)) w = bytes h w ++ xs := by
        intro w hw hid hwl
        have hd := data_set_same h v w (data h v ++ xs) hid hlt
        have hdw : data h w = data h v := by unfold data; rw [hid]
        have ho := hw.offset
        rw [hdw] at ho
        unfold bytes size
        rw [hd, hdw, hwl, if_pos ho, if_pos (by rw [List.length_append]; omega), List.length_append,
          List.drop_append_of_le_length ho]
        unfold noLimit
        unfold M at hM ⊢
        rw [List.take_of_length_le (by rw [List.length_append, List.length_drop]; omega),
          List.take_of_length_le (by rw [List.length_drop]; omega)]
      refine ⟨key v hv rfl hl, fun w hw => ⟨fun hid => ?_, fun hid hwl => key w hw hid hwl, fun hid hin => ?_⟩⟩
      · have hd := data_set_other h v w (data h v ++ xs) hid
        unfold bytes size
        rw [hd]
      · have hd := data_set_same h v w (data h v ++ xs) hid hlt
        have hdw : data h w = data h v := by unfold data; rw [hid]
        have ho := hw.offset
        rw [hdw] at ho hin
        unfold bytes size
        rw [hd, hdw, if_pos ho, if_pos (by rw [List.length_append]; omega), List.length_append, List.drop_append_of_le_length ho,
          Nat.min_eq_right (by omega), Nat.min_eq_right (by omega), List.take_append_of_le_length (by rw [List.length_drop]; omega)]
    · cases hh

/-- `RequireSize` makes the view at least as long as asked, with new elements zero, and keeps the bytes. -/
theorem requireSize_spec (h : List (List α)) (v : View) (hv : WF h v) (hlt : v.id < h.length) (hl : v.limit = noLimit) (n : Nat) (zero : α)
    (hM : v.offset + n < M - 1) :
    ∃ h', requireSize h v n zero = some h' ∧ bytes h' v = bytes h v ++ List.replicate (n - (bytes h v).length) zero := by
  have hs := hv.short
  have ho := hv.offset
  unfold M at hs hM
  have e : add n v.offset = n + v.offset := by unfold add M; omega
  have hsz : size h v = (data h v).length - v.offset := by rw [size_eq hv, hl]; unfold noLimit M; omega
  unfold requireSize
  rw [if_pos hl, e, bytes_length, hsz]
  refine ⟨_, rfl, ?_⟩
  by_cases hc : (data h v).length < n + v.offset
  · rw [if_pos hc]
    have hap := (append_spec h v hv hlt (List.replicate (n + v.offset - (data h v).length) zero)
      (by rw [List.length_replicate]; unfold M; omega)).2 _ (by rw [append, if_pos hl])
    rw [hap.1]
    congr 2
    omega
  · rw [if_neg hc, Nat.sub_eq_zero_of_le (by omega)]
    simp

/-- `clear` through any view empties all views of the vector and no other. -/
theorem clear_spec (h : List (List α)) (v w : View) (hlt : v.id < h.length) :
    bytes (clear h v) w = if w.id = v.id then [] else bytes h w := by
  unfold clear
  by_cases hid : w.id = v.id
  · rw [if_pos hid]
    unfold bytes
    rw [data_set_same h v w [] hid hlt]
    simp
  · rw [if_neg hid]
    unfold bytes size
    rw [data_set_other h v w [] hid]

/-- Equality of views is equality of the bytes they show. -/
theorem equal_spec [BEq α] [LawfulBEq α] (h : List (List α)) (v w : View) : equal h v w = true ↔ bytes h v = bytes h w := by
  unfold equal
  rw [← bytes_length, ← bytes_length]
  generalize bytes h v = xs
  generalize bytes h w = ys
  induction xs generalizing ys with
  | nil => cases ys <;> simp
  | cons x xs ih =>
    cases ys with
    | nil => simp
    | cons y ys =>
      have := ih ys
      simp only [Bool.and_eq_true, beq_iff_eq, List.length_cons, Nat.add_right_cancel_iff, List.zip_cons_cons, List.all_cons,
        List.cons.injEq] at this ⊢
      rw [← this]
      constructor
      · rintro ⟨a, b, c⟩; exact ⟨b, a, c⟩
      · rintro ⟨b, a, c⟩; exact ⟨a, b, c⟩

/-- A new array shows its bytes and does not change the others; an array read back shows the bytes from the offset on. -/
theorem create_spec (h : List (List α)) (xs : List α) (o : Nat) (hM : xs.length < M - 1) (ho : o ≤ xs.length) :
    bytes (create h xs).1 (create h xs).2 = xs ∧ WF (create h xs).1 (create h xs).2 ∧
    (∀ w, w.id < h.length → bytes (create h xs).1 w = bytes h w) ∧
    bytes (deserialize h o xs).1 (deserialize h o xs).2 = xs.drop o := by
  have hd : ∀ o l, data (h ++ [xs]) ⟨h.length, o, l⟩ = xs := by
    intro o l
    unfold data
    rw [List.getD_eq_getElem?_getD, List.getElem?_append_right (Nat.le_refl _), Nat.sub_self]
    rfl
  unfold M at hM
  refine ⟨?_, ⟨?_, ?_, ?_⟩, fun w hw => ?_, ?_⟩
  · unfold create bytes size
    simp only [hd, Nat.zero_le, if_true, List.drop_zero, Nat.sub_zero]
    exact List.take_of_length_le (by unfold noLimit M; omega)
  · simp only [create, hd]; unfold M; omega
  · exact Nat.zero_le _
  · simp only [create]; unfold noLimit M; omega
  · have : data (h ++ [xs]) w = data h w := by
      unfold data
      rw [List.getD_eq_getElem?_getD, List.getElem?_append_left hw, ← List.getD_eq_getElem?_getD]
    unfold create bytes size
    simp only [this]
  · unfold deserialize bytes size
    simp only [hd, if_pos ho]
    exact List.take_of_length_le (by rw [List.length_drop]; unfold noLimit M; omega)

/-! ### ByteData -/

/-- Parts of references, as long as the numbers do not wrap: given exactly if within, and at the right place. -/
theorem ref_part_partial (r : Ref) (o n : Nat) (hr : r.pos + r.size < M) (hM : o + n < M) :
    (r.from1 o = if o ≤ r.size then some ⟨r.pos + o, r.size - o⟩ else none) ∧
    (r.from2 o n = if o + n ≤ r.size then some ⟨r.pos + o, n⟩ else none) ∧
    (r.index o = if o < r.size then some (r.pos + o) else none) := by
  unfold M at hr hM
  refine ⟨?_, ?_, ?_⟩
  · unfold Ref.from1
    split
    · congr 2
      · unfold add M; omega
      · unfold sub M; omega
    · rfl
  · unfold Ref.from2
    have e : add o n = o + n := by unfold add M; omega
    rw [e]
    split
    · congr 2
      unfold add M; omega
    · rfl
  · unfold Ref.index
    split
    · congr 1
      unfold add M; omega
    · rfl

/-- Parts of parts of references never reach outside of the first one, as long as the numbers do not wrap. -/
theorem ref_nested_partial (ps : List (Nat × Option Nat)) : ∀ (r r' : Ref), r.pos + r.size < M → (∀ p ∈ ps, p.1 + p.2.getD 0 < M) →
    ps.foldl (fun (w : Option Ref) p => w.bind fun w => match p.2 with | none => w.from1 p.1 | some n => w.from2 p.1 n) (some r) = some r' →
    r.pos ≤ r'.pos ∧ r'.pos + r'.size ≤ r.pos + r.size := by
  induction ps with
  | nil => intro r r' _ _ h; cases h; exact ⟨Nat.le_refl _, Nat.le_refl _⟩
  | cons p ps ih =>
    intro r r' hr hM h
    rw [List.foldl_cons, Option.bind_some] at h
    have hp := hM p List.mem_cons_self
    have stuck : ∀ qs : List (Nat × Option Nat), qs.foldl (fun (w : Option Ref) p => w.bind fun w => match p.2 with
        | none => w.from1 p.1 | some n => w.from2 p.1 n) none = none := by
      intro qs
      induction qs with
      | nil => rfl
      | cons q qs ihq => rw [List.foldl_cons, Option.bind_none]; exact ihq
    obtain ⟨o, n⟩ := p
    cases n with
    | none =>
      simp only [Option.getD_none] at h hp
      rw [(ref_part_partial r o 0 hr hp).1] at h
      by_cases ho : o ≤ r.size
      · rw [if_pos ho] at h
        have := ih ⟨r.pos + o, r.size - o⟩ r' (by simp only []; omega) (fun q hq => hM q (List.mem_cons_of_mem _ hq)) h
        simp only [] at this
        omega
      · rw [if_neg ho, stuck] at h; cases h
    | some n =>
      simp only [Option.getD_some] at h hp
      rw [(ref_part_partial r o n hr hp).2.1] at h
      by_cases ho : o + n ≤ r.size
      · rw [if_pos ho] at h
        have := ih ⟨r.pos + o, n⟩ r' (by simp only []; omega) (fun q hq => hM q (List.mem_cons_of_mem _ hq)) h
        simp only [] at this
        omega
      · rw [if_neg ho, stuck] at h; cases h

end

/-! ### Where views show something else -/

/-- The first two bytes of ten; asking it for its part from 5 on is not refused but shows bytes outside of it. -/
theorem from1_beyond_limit_violated :
    from2 [[1, 2, 3, 4, 5, 6, 7, 8, 9, 10]] ⟨0, 0, noLimit⟩ 0 2 = some ⟨0, 0, 2⟩ ∧
    bytes [[1, 2, 3, 4, 5, 6, 7, 8, 9, 10]] ⟨0, 0, 2⟩ = [1, 2] ∧
    (from1 [[1, 2, 3, 4, 5, 6, 7, 8, 9, 10]] ⟨0, 0, 2⟩ 5).map (bytes [[1, 2, 3, 4, 5, 6, 7, 8, 9, 10]]) = some [6, 7, 8, 9, 10] := by
  decide +kernel

/-- The last five bytes of ten; eight bytes from its second on are not refused: a view of three bytes is given. -/
theorem from2_short_violated :
    from1 [[1, 2, 3, 4, 5, 6, 7, 8, 9, 10]] ⟨0, 0, noLimit⟩ 5 = some ⟨0, 5, noLimit⟩ ∧
    bytes [[1, 2, 3, 4, 5, 6, 7, 8, 9, 10]] ⟨0, 5, noLimit⟩ = [6, 7, 8, 9, 10] ∧
    (from2 [[1, 2, 3, 4, 5, 6, 7, 8, 9, 10]] ⟨0, 5, noLimit⟩ 2 8).map (bytes [[1, 2, 3, 4, 5, 6, 7, 8, 9, 10]]) = some [8, 9, 10] := by
  decide +kernel

/-- An offset near 2^64 is not refused: it leads to bytes before the view. -/
theorem from1_wraps_violated :
    (from1 [[1, 2, 3, 4, 5, 6, 7, 8, 9, 10]] ⟨0, 5, noLimit⟩ (M - 3)).map (bytes [[1, 2, 3, 4, 5, 6, 7, 8, 9, 10]]) =
      some [3, 4, 5, 6, 7, 8, 9, 10] := by decide +kernel

/-- A size near 2^64 is not refused for a reference to ten bytes: the bytes from the second on, and 2^64 - 2 of them. -/
theorem ref_wraps_violated :
    (⟨1000, 10⟩ : Ref).from2 2 (M - 2) = some ⟨1002, M - 2⟩ ∧ (⟨1002, M - 2⟩ : Ref).index 500 = some 1502 := by decide +kernel

/-! ### The hypotheses are met -/

example : WF [[1, 2, 3, 4, 5]] ⟨0, 1, 3⟩ := ⟨by decide, by decide, by decide⟩
example : Within (bytes [[1, 2, 3, 4, 5]] ⟨0, 1, 3⟩) 1 (some 2) := by show 1 + 2 ≤ _; decide
example : (from2 [[1, 2, 3, 4, 5]] ⟨0, 1, 3⟩ 1 2).map (bytes [[1, 2, 3, 4, 5]]) = some [3, 4] := by decide +kernel
example : (write [[1, 2, 3, 4, 5]] ⟨0, 1, 3⟩ 1 9).map (bytes · ⟨0, 2, noLimit⟩) = some [9, 4, 5] := by decide +kernel
example : (append [[1, 2, 3, 4, 5]] ⟨0, 4, noLimit⟩ [6]).map (bytes · ⟨0, 2, noLimit⟩) = some [3, 4, 5, 6] := by decide +kernel

end Verif.Bytes

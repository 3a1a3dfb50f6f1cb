import Verif.Bytes.Owner
/-! C165: owners of bytes. -/

namespace Verif.Bytes.Owner

/-- What can be read through an object: exactly these bytes, and an exception at every index beyond. -/
def Spec.Content (s : State) (i : Nat) (bs : List Nat) : Prop :=
  ∀ k, (step s (.read i k)).2 = match bs[k]? with
    | some v => .value v
    | none => .exception

/-- The object exists, and neither it nor one that it got its data from was moved from. -/
def Spec.Sound (s : State) (i : Nat) : Prop := ∃ o, get s i = some o ∧ o.moved = false

/-- The part of the bytes that the constructor is asked for. -/
def Spec.part (bs : List Nat) : Slice → Option (List Nat)
  | .whole => some bs
  | .start offset => if offset ≤ bs.length then some (bs.drop offset) else none
  | .part offset n => if offset + n ≤ bs.length then some ((bs.drop offset).take n) else none

/-- The sizes and offsets are such that `offset + size` does not wrap around. -/
def Spec.OpOk : Op → Prop
  | .create bytes => bytes.length < 2 ^ 64
  | .copy _ (.part offset n) => offset + n < 2 ^ 64
  | .move _ (.part offset n) => offset + n < 2 ^ 64
  | _ => True

/-- The states that histories lead to. -/
def Spec.Reached (s : State) : Prop := ∃ ops, (∀ op ∈ ops, OpOk op) ∧ run init ops = s

open Spec

/-- The data of the object is in storage that it keeps alive. -/
def Good (heap : List (Option (List Nat))) (o : Owner) : Prop :=
  (o.ptr = none ∧ o.size = 0) ∨
  ∃ b pos bytes, o.ptr = some (b, pos) ∧ o.life = some b ∧ heap[b]? = some (some bytes) ∧ pos + o.size ≤ bytes.length ∧ bytes.length < 2 ^ 64

structure PreInv (x : Option Nat) (s : State) : Prop where
  own : ∀ i o, get s i = some o → o.moved = false → Good s.heap o
  held : ∀ i o b, get s i = some o → o.life = some b → ∃ bytes, s.heap[b]? = some (some bytes)
  leak : ∀ b bytes, s.heap[b]? = some (some bytes) → (∃ i o, get s i = some o ∧ o.life = some b) ∨ x = some b

abbrev Inv := PreInv none

theorem any_holds {s : State} {b : Nat} : s.vars.any (holds b) = true ↔ ∃ i o, get s i = some o ∧ o.life = some b := by
  rw [List.any_eq_true]
  constructor
  · rintro ⟨x, hx, hh⟩
    cases x with
    | none => cases hh
    | some o =>
      obtain ⟨i, hi, e⟩ := List.mem_iff_getElem.mp hx
      refine ⟨i, o, ?_, by simpa [holds] using hh⟩
      simp [get, List.getElem?_eq_getElem hi, e]
  · rintro ⟨i, o, h, hl⟩
    refine ⟨some o, ?_, by simp [holds, hl]⟩
    rw [get] at h
    cases hv : s.vars[i]? with
    | none => rw [hv] at h; cases h
    | some x => rw [hv] at h; cases h; exact List.mem_of_getElem? hv

theorem release_vars (s : State) (x : Option Nat) : (release s x).vars = s.vars := by
  cases x with
  | none => rfl
  | some b => rw [release]; split <;> rfl

theorem release_heap {s : State} {x : Option Nat} {i : Nat} {o : Owner} {b : Nat} (h : get s i = some o) (hl : o.life = some b) :
    (release s x).heap[b]? = s.heap[b]? := by
  cases x with
  | none => rfl
  | some c =>
    rw [release]
    split
    · rfl
    · rename_i hn
      have : c ≠ b := by rintro rfl; exact hn (any_holds.mpr ⟨i, o, h, hl⟩)
      simp only []
      rw [List.getElem?_set_ne this]

theorem good_congr {h h' : List (Option (List Nat))} {o : Owner} (hg : Good h o) (e : ∀ b, o.life = some b → h'[b]? = h[b]?) : Good h' o := by
  rcases hg with hg | ⟨b, pos, bytes, h1, h2, h3, h4⟩
  · exact .inl hg
  · exact .inr ⟨b, pos, bytes, h1, h2, by rw [e b h2]; exact h3, h4⟩

theorem release_ok {s : State} {x : Option Nat} (h : PreInv x s) : Inv (release s x) := by
  have hg : ∀ i, get (release s x) i = get s i := fun i => by rw [get, get, release_vars]
  refine ⟨?_, ?_, ?_⟩
  · intro i o ho hm
    rw [hg] at ho
    exact good_congr (h.own i o ho hm) (fun b hb => release_heap ho hb)
  · intro i o b ho hl
    rw [hg] at ho
    rw [release_heap ho hl]
    exact h.held i o b ho hl
  · intro b bytes hb
    left
    have hs : s.heap[b]? = some (some bytes) := by
      cases x with
      | none => exact hb
      | some c =>
        rw [release] at hb
        split at hb
        · exact hb
        · simp only [] at hb
          by_cases hc : c = b
          · subst hc
            rw [List.getElem?_set] at hb
            simp at hb
          · rwa [List.getElem?_set_ne hc] at hb
    rcases h.leak b bytes hs with ⟨i, o, h1, h2⟩ | hx
    · exact ⟨i, o, by rw [hg]; exact h1, h2⟩
    · subst hx
      by_cases ha : s.vars.any (holds b) = true
      · obtain ⟨i, o, h1, h2⟩ := any_holds.mp ha
        exact ⟨i, o, by rw [hg]; exact h1, h2⟩
      · have hlt : b < s.heap.length := by
          rcases Nat.lt_or_ge b s.heap.length with h | h
          · exact h
          · rw [List.getElem?_eq_none h] at hs; cases hs
        rw [release, if_neg ha] at hb
        simp only [] at hb
        rw [List.getElem?_set_self hlt] at hb
        simp at hb

/-! ### Reading -/

theorem get_append {s : State} {x : Option Owner} {heap : List (Option (List Nat))} {i : Nat} :
    get ⟨heap, s.vars ++ [x]⟩ i = if i < s.vars.length then get s i else if i = s.vars.length then x else none := by
  simp only [get]
  by_cases h : i < s.vars.length
  · rw [if_pos h, List.getElem?_append_left h]
  · rw [if_neg h, List.getElem?_append_right (by omega)]
    by_cases he : i = s.vars.length
    · rw [if_pos he, he]; simp
    · rw [if_neg he, List.getElem?_eq_none (by simp; omega)]; rfl

theorem get_lt {s : State} {i : Nat} {o : Owner} (h : get s i = some o) : i < s.vars.length := by
  rcases Nat.lt_or_ge i s.vars.length with h' | h'
  · exact h'
  · rw [get, List.getElem?_eq_none h'] at h; cases h

theorem get_set {s : State} {x : Option Owner} {heap : List (Option (List Nat))} {i j : Nat} (hj : j < s.vars.length) :
    get ⟨heap, s.vars.set j x⟩ i = if i = j then x else get s i := by
  simp only [get]
  by_cases h : i = j
  · rw [if_pos h, h, List.getElem?_set_self hj]; rfl
  · rw [if_neg h, List.getElem?_set_ne (Ne.symm h)]

/-- The bytes an object shows. -/
def bytesOf (heap : List (Option (List Nat))) (o : Owner) : List Nat :=
  match o.ptr with
  | none => []
  | some (b, pos) => ((((heap[b]?).join).getD []).drop pos).take o.size

theorem bytesOf_length {heap : List (Option (List Nat))} {o : Owner} (h : Good heap o) : (bytesOf heap o).length = o.size := by
  rcases h with ⟨h1, h2⟩ | ⟨b, pos, bytes, h1, h2, h3, h4, h5⟩
  · simp [bytesOf, h1, h2]
  · simp [bytesOf, h1, h3]; omega

theorem content_of_good {s : State} {i : Nat} {o : Owner} (hg : get s i = some o) (h : Good s.heap o) : Content s i (bytesOf s.heap o) := by
  intro k
  simp only [step, hg, place]
  by_cases hk : k < o.size
  · rw [if_pos hk]
    rcases h with ⟨h1, h2⟩ | ⟨b, pos, bytes, h1, h2, h3, h4, h5⟩
    · omega
    · simp only [h1, h3, Option.join_some, bytesOf, Option.getD_some]
      have hm : (pos + k) % 2 ^ 64 = pos + k := Nat.mod_eq_of_lt (by omega)
      rw [hm, if_pos (by omega)]
      simp only []
      rw [List.getElem?_take_of_lt hk, List.getElem?_drop, List.getElem?_eq_getElem (by omega), List.getD_eq_getElem?_getD, List.getElem?_eq_getElem (by omega)]
      rfl
  · rw [if_neg hk, List.getElem?_eq_none (by rw [bytesOf_length h]; omega)]

theorem content_unique {s : State} {i : Nat} {bs cs : List Nat} (h1 : Content s i bs) (h2 : Content s i cs) : bs = cs := by
  apply List.ext_getElem?
  intro k
  have a := h1 k
  rw [h2 k] at a
  cases hb : bs[k]? <;> cases hc : cs[k]? <;> rw [hb, hc] at a <;> simp_all

theorem bytesOf_congr {h h' : List (Option (List Nat))} {o : Owner} (hg : Good h o) (e : ∀ b, o.life = some b → h'[b]? = h[b]?) : bytesOf h' o = bytesOf h o := by
  rcases hg with ⟨h1, h2⟩ | ⟨b, pos, bytes, h1, h2, h3, h4⟩
  · simp [bytesOf, h1]
  · simp only [bytesOf, h1]; rw [e b h2]

/-! ### The invariant -/

theorem slice_good {heap : List (Option (List Nat))} {o : Owner} {sl : Slice} {p : Option (Nat × Nat)} {n : Nat} {m : Bool} (hg : Good heap o)
    (hok : ∀ off k, sl = .part off k → off + k < 2 ^ 64) (h : slice o.ptr o.size sl = some (p, n)) :
    Good heap ⟨p, n, o.life, m⟩ ∧ part (bytesOf heap o) sl = some (bytesOf heap ⟨p, n, o.life, m⟩) := by
  have hl := bytesOf_length hg
  cases sl with
  | whole => cases h; exact ⟨hg, rfl⟩
  | start off =>
    simp only [slice] at h
    by_cases hle : off ≤ o.size
    · rw [if_pos hle] at h
      cases h
      simp only [part, hl, if_pos hle]
      rcases hg with ⟨h1, h2⟩ | ⟨b, pos, bytes, h1, h2, h3, h4, h5⟩
      · exact ⟨.inl ⟨by simp [h1], by simp [h2]⟩, by simp [bytesOf, h1]⟩
      · have hm : (pos + off) % 2 ^ 64 = pos + off := Nat.mod_eq_of_lt (by omega)
        refine ⟨.inr ⟨b, pos + off, bytes, by simp [h1, hm], h2, h3, by simp only []; omega, h5⟩, ?_⟩
        simp only [bytesOf, h1, h3, Option.map_some, hm, Option.join_some, Option.getD_some, List.drop_take, List.drop_drop]
    · rw [if_neg hle] at h; cases h
  | part off k =>
    have hw := hok off k rfl
    simp only [slice, Nat.mod_eq_of_lt hw] at h
    by_cases hle : off + k ≤ o.size
    · rw [if_pos hle] at h
      cases h
      simp only [part, hl, if_pos hle]
      rcases hg with ⟨h1, h2⟩ | ⟨b, pos, bytes, h1, h2, h3, h4, h5⟩
      · exact ⟨.inl ⟨by simp [h1], by simp only []; omega⟩, by simp [bytesOf, h1]⟩
      · have hm : (pos + off) % 2 ^ 64 = pos + off := Nat.mod_eq_of_lt (by omega)
        refine ⟨.inr ⟨b, pos + off, bytes, by simp [h1, hm], h2, h3, by simp only []; omega, h5⟩, ?_⟩
        simp only [bytesOf, h1, h3, Option.map_some, hm, Option.join_some, Option.getD_some, List.drop_take, List.drop_drop, List.take_take]
        congr 2
        omega
    · rw [if_neg hle] at h; cases h

theorem slice_none {heap : List (Option (List Nat))} {o : Owner} {sl : Slice} (hg : Good heap o)
    (hok : ∀ off k, sl = .part off k → off + k < 2 ^ 64) : slice o.ptr o.size sl = none ↔ part (bytesOf heap o) sl = none := by
  have hl := bytesOf_length hg
  cases sl with
  | whole => simp [slice, part]
  | start off => simp only [slice, part, hl]; split <;> simp
  | part off k => simp only [slice, part, hl, Nat.mod_eq_of_lt (hok off k rfl)]; split <;> simp

theorem ok_part {op : Op} (h : OpOk op) {j : Nat} {sl : Slice} (e : op = .copy j sl ∨ op = .move j sl) : ∀ off k, sl = .part off k → off + k < 2 ^ 64 := by
  rintro off k rfl
  rcases e with rfl | rfl <;> exact h

/-- What a call does, given the invariant: the invariant holds again, and an object that the call does not change or move from shows the same bytes, except for a write. -/
theorem step_inv {s : State} (hi : Inv s) {op : Op} (hok : OpOk op) : Inv (step s op).1 := by
  cases op with
  | empty =>
    simp only [step]
    refine ⟨?_, ?_, ?_⟩
    · intro i o ho hm
      rw [get_append] at ho
      split at ho
      · exact hi.own i o ho hm
      · split at ho
        · cases ho; exact .inl ⟨rfl, rfl⟩
        · cases ho
    · intro i o b ho hl
      rw [get_append] at ho
      split at ho
      · exact hi.held i o b ho hl
      · split at ho
        · cases ho; cases hl
        · cases ho
    · intro b bytes hb
      rcases hi.leak b bytes hb with ⟨i, o, h1, h2⟩ | h
      · exact .inl ⟨i, o, by rw [get_append, if_pos (get_lt h1)]; exact h1, h2⟩
      · exact .inr h
  | create bytes =>
    simp only [step]
    have hmono : ∀ (b : Nat) (x : Option (List Nat)), s.heap[b]? = some x → (s.heap ++ [some bytes])[b]? = some x := by
      intro b x h
      have : b < s.heap.length := by
        rcases Nat.lt_or_ge b s.heap.length with h' | h'
        · exact h'
        · rw [List.getElem?_eq_none h'] at h; cases h
      rw [List.getElem?_append_left this]; exact h
    have hnew : (s.heap ++ [some bytes])[s.heap.length]? = some (some bytes) := by simp
    refine ⟨?_, ?_, ?_⟩
    · intro i o ho hm
      rw [get_append] at ho
      split at ho
      · exact good_congr (hi.own i o ho hm) (fun b hb => by
          obtain ⟨x, hx⟩ := hi.held i o b ho hb
          rw [hx]; exact hmono b _ hx)
      · split at ho
        · cases ho; exact .inr ⟨_, 0, bytes, rfl, rfl, hnew, by simp, hok⟩
        · cases ho
    · intro i o b ho hl
      rw [get_append] at ho
      split at ho
      · obtain ⟨x, hx⟩ := hi.held i o b ho hl
        exact ⟨x, hmono b _ hx⟩
      · split at ho
        · cases ho; cases hl; exact ⟨bytes, hnew⟩
        · cases ho
    · intro b x hb
      left
      by_cases hlt : b < s.heap.length
      · simp only [] at hb
        rw [List.getElem?_append_left hlt] at hb
        rcases hi.leak b x hb with ⟨i, o, h1, h2⟩ | h
        · exact ⟨i, o, by rw [get_append, if_pos (get_lt h1)]; exact h1, h2⟩
        · cases h
      · have : b = s.heap.length := by
          rcases Nat.lt_or_ge b (s.heap ++ [some bytes]).length with h' | h'
          · simp at h'; omega
          · simp only [] at hb; rw [List.getElem?_eq_none h'] at hb; cases hb
        subst this
        exact ⟨s.vars.length, _, by rw [get_append, if_neg (Nat.lt_irrefl _), if_pos rfl], rfl⟩
  | copy j sl =>
    simp only [step]
    cases hj : get s j with
    | none => exact hi
    | some o =>
      simp only []
      cases hsl : slice o.ptr o.size sl with
      | none => exact hi
      | some pn =>
        obtain ⟨p, n⟩ := pn
        simp only []
        refine ⟨?_, ?_, ?_⟩
        · intro i o' ho hm
          rw [get_append] at ho
          split at ho
          · exact hi.own i o' ho hm
          · split at ho
            · cases ho
              exact (slice_good (hi.own j o hj hm) (ok_part hok (.inl rfl)) hsl).1
            · cases ho
        · intro i o' b ho hl
          rw [get_append] at ho
          split at ho
          · exact hi.held i o' b ho hl
          · split at ho
            · cases ho; exact hi.held j o b hj hl
            · cases ho
        · intro b bytes hb
          rcases hi.leak b bytes hb with ⟨i, o', h1, h2⟩ | h
          · exact .inl ⟨i, o', by rw [get_append, if_pos (get_lt h1)]; exact h1, h2⟩
          · exact .inr h
  | move j sl =>
    simp only [step]
    cases hj : get s j with
    | none => exact hi
    | some o =>
      simp only []
      cases hsl : slice o.ptr o.size sl with
      | none => exact hi
      | some pn =>
        obtain ⟨p, n⟩ := pn
        simp only []
        have hjl := get_lt hj
        have hget : ∀ i, get ⟨s.heap, s.vars.set j (some { o with life := none, moved := true }) ++ [some ⟨p, n, o.life, o.moved⟩]⟩ i =
            if i < s.vars.length then (if i = j then some { o with life := none, moved := true } else get s i) else if i = s.vars.length then some ⟨p, n, o.life, o.moved⟩ else none := by
          intro i
          have := get_append (s := ⟨s.heap, s.vars.set j (some { o with life := none, moved := true })⟩) (x := some ⟨p, n, o.life, o.moved⟩) (heap := s.heap) (i := i)
          simp only [List.length_set] at this
          rw [this, get_set hjl]
        refine ⟨?_, ?_, ?_⟩
        · intro i o' ho hm
          rw [hget] at ho
          split at ho
          · split at ho
            · cases ho; cases hm
            · exact hi.own i o' ho hm
          · split at ho
            · cases ho
              exact (slice_good (hi.own j o hj hm) (ok_part hok (.inr rfl)) hsl).1
            · cases ho
        · intro i o' b ho hl
          rw [hget] at ho
          split at ho
          · split at ho
            · cases ho; cases hl
            · exact hi.held i o' b ho hl
          · split at ho
            · cases ho; exact hi.held j o b hj hl
            · cases ho
        · intro b bytes hb
          rcases hi.leak b bytes hb with ⟨i, o', h1, h2⟩ | h
          · left
            by_cases hij : i = j
            · rw [hij, hj] at h1
              have e : o = o' := by simpa using h1
              exact ⟨s.vars.length, ⟨p, n, o.life, o.moved⟩, by rw [hget, if_neg (Nat.lt_irrefl _), if_pos rfl], by rw [e]; exact h2⟩
            · exact ⟨i, o', by rw [hget, if_pos (get_lt h1), if_neg hij]; exact h1, h2⟩
          · exact .inr h
  | assign i j =>
    simp only [step]
    cases hd : get s i with
    | none => exact hi
    | some d =>
      cases hj : get s j with
      | none => exact hi
      | some o =>
        simp only []
        apply release_ok
        have hil := get_lt hd
        refine ⟨?_, ?_, ?_⟩
        · intro a o' ho hm
          rw [get_set hil] at ho
          split at ho
          · cases ho; exact hi.own j o hj hm
          · exact hi.own a o' ho hm
        · intro a o' b ho hl
          rw [get_set hil] at ho
          split at ho
          · cases ho; exact hi.held j o b hj hl
          · exact hi.held a o' b ho hl
        · intro b bytes hb
          rcases hi.leak b bytes hb with ⟨a, o', h1, h2⟩ | h
          · by_cases ha : a = i
            · rw [ha, hd] at h1
              cases h1
              exact .inr h2
            · exact .inl ⟨a, o', by rw [get_set hil, if_neg ha]; exact h1, h2⟩
          · cases h
  | moveAssign i j =>
    simp only [step]
    cases hd : get s i with
    | none => exact hi
    | some d =>
      cases hj : get s j with
      | none => exact hi
      | some o =>
        simp only []
        by_cases hij : i = j
        · rw [if_pos hij]; exact hi
        rw [if_neg hij]
        apply release_ok
        have hil := get_lt hd
        have hjl := get_lt hj
        have hget : ∀ a, get ⟨s.heap, (s.vars.set j (some { o with life := none, moved := true })).set i (some o)⟩ a =
            if a = i then some o else if a = j then some { o with life := none, moved := true } else get s a := by
          intro a
          have := get_set (s := ⟨s.heap, s.vars.set j (some { o with life := none, moved := true })⟩) (x := some o) (heap := s.heap) (i := a) (j := i) (by simpa using hil)
          rw [this, get_set hjl]
        refine ⟨?_, ?_, ?_⟩
        · intro a o' ho hm
          rw [hget] at ho
          split at ho
          · cases ho; exact hi.own j o hj hm
          · split at ho
            · cases ho; cases hm
            · exact hi.own a o' ho hm
        · intro a o' b ho hl
          rw [hget] at ho
          split at ho
          · cases ho; exact hi.held j o b hj hl
          · split at ho
            · cases ho; cases hl
            · exact hi.held a o' b ho hl
        · intro b bytes hb
          rcases hi.leak b bytes hb with ⟨a, o', h1, h2⟩ | h
          · by_cases ha : a = i
            · rw [ha, hd] at h1
              cases h1
              exact .inr h2
            · by_cases haj : a = j
              · rw [haj, hj] at h1
                have e : o = o' := by simpa using h1
                exact .inl ⟨i, o, by rw [hget, if_pos rfl], by rw [e]; exact h2⟩
              · exact .inl ⟨a, o', by rw [hget, if_neg ha, if_neg haj]; exact h1, h2⟩
          · cases h
  | destroy i =>
    simp only [step]
    cases hd : get s i with
    | none => exact hi
    | some d =>
      simp only []
      apply release_ok
      have hil := get_lt hd
      refine ⟨?_, ?_, ?_⟩
      · intro a o' ho hm
        rw [get_set hil] at ho
        split at ho
        · cases ho
        · exact hi.own a o' ho hm
      · intro a o' b ho hl
        rw [get_set hil] at ho
        split at ho
        · cases ho
        · exact hi.held a o' b ho hl
      · intro b bytes hb
        rcases hi.leak b bytes hb with ⟨a, o', h1, h2⟩ | h
        · by_cases ha : a = i
          · rw [ha, hd] at h1
            cases h1
            exact .inr h2
          · exact .inl ⟨a, o', by rw [get_set hil, if_neg ha]; exact h1, h2⟩
        · cases h
  | read i k =>
    simp only [step]
    repeat' split
    all_goals exact hi
  | write i k v =>
    simp only [step]
    split
    · exact hi
    · rename_i o ho
      split
      · exact hi
      · exact hi
      · rename_i b a bytes hp
        have hb : s.heap[b]? = some (some bytes) ∧ a < bytes.length := by
          rw [place] at hp
          split at hp
          · split at hp
            · cases hp
            · split at hp
              · cases hp
              · rename_i bytes' hx
                split at hp
                · cases hp
                  refine ⟨?_, by assumption⟩
                  cases hh : s.heap[b]? with
                  | none => rw [hh] at hx; cases hx
                  | some y => rw [hh] at hx; cases hx; rfl
                · cases hp
          · cases hp
        have hlt : b < s.heap.length := by
          rcases Nat.lt_or_ge b s.heap.length with h' | h'
          · exact h'
          · rw [List.getElem?_eq_none h'] at hb; cases hb.1
        have hset : ∀ (c : Nat) (x : List Nat), s.heap[c]? = some (some x) → ∃ y : List Nat, (s.heap.set b (some (bytes.set a v)))[c]? = some (some y) ∧ y.length = x.length := by
          intro c x hx
          by_cases hc : b = c
          · subst hc
            rw [hb.1] at hx
            cases hx
            exact ⟨_, List.getElem?_set_self hlt, by simp⟩
          · exact ⟨x, by rw [List.getElem?_set_ne hc]; exact hx, rfl⟩
        refine ⟨?_, ?_, ?_⟩
        · intro c o' ho' hm
          rcases hi.own c o' ho' hm with h | ⟨d, pos, x, h1, h2, h3, h4, h5⟩
          · exact .inl h
          · obtain ⟨y, hy, hyl⟩ := hset d x h3
            exact .inr ⟨d, pos, y, h1, h2, hy, by omega, by omega⟩
        · intro c o' d ho' hl
          obtain ⟨x, hx⟩ := hi.held c o' d ho' hl
          obtain ⟨y, hy, -⟩ := hset d x hx
          exact ⟨y, hy⟩
        · intro d y hy
          simp only [] at hy
          by_cases hc : b = d
          · subst hc
            exact hi.leak b bytes hb.1
          · rw [List.getElem?_set_ne hc] at hy
            exact hi.leak d y hy

theorem inv_init : Inv init := by
  refine ⟨?_, ?_, ?_⟩
  · intro i o h; simp [init, get] at h
  · intro i o b h; simp [init, get] at h
  · intro b x h; simp [init] at h

theorem reached_inv {s : State} (h : Reached s) : Inv s := by
  obtain ⟨ops, hok, rfl⟩ := h
  have key : ∀ (ops : List Op) (s : State), Inv s → (∀ op ∈ ops, OpOk op) → Inv (run s ops) := by
    intro ops
    induction ops with
    | nil => exact fun s h _ => h
    | cons op ops ih => exact fun s h ho => ih _ (step_inv h (ho op (by simp))) (fun o h' => ho o (by simp [h']))
  exact key ops init inv_init hok

/-! ### The statements -/

/-- C165.  After every history, reading through an object that was not moved from is defined: it shows some bytes, and at every index beyond them throws. -/
theorem content_exists_partial {s : State} (h : Reached s) {i : Nat} (hs : Sound s i) : ∃ bs, Content s i bs := by
  obtain ⟨o, ho, hm⟩ := hs
  exact ⟨_, content_of_good ho ((reached_inv h).own i o ho hm)⟩

/-- C165.  `Create` makes an object that shows exactly the given bytes. -/
theorem create_content {s : State} (bytes : List Nat) (hb : bytes.length < 2 ^ 64) : Content (step s (.create bytes)).1 s.vars.length bytes := by
  have hg : get (step s (.create bytes)).1 s.vars.length = some ⟨some (s.heap.length, 0), bytes.length, some s.heap.length, false⟩ := by
    simp only [step]
    rw [get_append, if_neg (Nat.lt_irrefl _), if_pos rfl]
  have := content_of_good hg (.inr ⟨_, 0, bytes, rfl, rfl, by simp [step], by simp, hb⟩)
  simpa [bytesOf, step] using this

/-- C165.  Constructing from another object, whether copied or moved, shows exactly the part asked for, or throws and changes nothing when there is no such part. -/
theorem slice_content_partial {s : State} (h : Reached s) {j : Nat} (hs : Sound s j) {bs : List Nat} (hc : Content s j bs) (sl : Slice)
    (hok : ∀ off k, sl = .part off k → off + k < 2 ^ 64) (op : Op) (hop : op = .copy j sl ∨ op = .move j sl) :
    match part bs sl with
    | some cs => (step s op).2 = .done ∧ Content (step s op).1 s.vars.length cs ∧ Sound (step s op).1 s.vars.length
    | none => (step s op).2 = .exception ∧ (step s op).1 = s := by
  obtain ⟨o, ho, hm⟩ := hs
  have hg := (reached_inv h).own j o ho hm
  have hbs := content_unique hc (content_of_good ho hg)
  subst hbs
  cases hsl : slice o.ptr o.size sl with
  | none =>
    rw [(slice_none hg hok).mp hsl]
    rcases hop with rfl | rfl <;> simp [step, ho, hsl]
  | some pn =>
    obtain ⟨p, n⟩ := pn
    have hsg := slice_good (m := o.moved) hg hok hsl
    rw [hsg.2]
    have hget : get (step s op).1 s.vars.length = some ⟨p, n, o.life, o.moved⟩ ∧ (step s op).1.heap = s.heap ∧ (step s op).2 = .done := by
      rcases hop with rfl | rfl
      · simp only [step, ho, hsl, and_true]
        rw [get_append, if_neg (Nat.lt_irrefl _), if_pos rfl]
      · simp only [step, ho, hsl, and_true]
        simp [get]
    refine ⟨hget.2.2, ?_, ⟨_, hget.1, hm⟩⟩
    have := content_of_good hget.1 (by rw [hget.2.1]; exact hsg.1)
    rwa [hget.2.1] at this

/-- The object keeps its value in the call: it is not assigned to, destroyed or moved from, and nothing is written. -/
def Spec.Keeps (i : Nat) : Op → Prop
  | .move j _ => j ≠ i
  | .assign a _ => a ≠ i
  | .moveAssign a j => a ≠ i ∧ (j ≠ i ∨ a = j)
  | .destroy a => a ≠ i
  | .write _ _ _ => False
  | _ => True

theorem heap_keeps {s : State} (hi : Inv s) {op : Op} {i : Nat} (hk : Keeps i op) {o : Owner} (ho : get s i = some o) :
    get (step s op).1 i = some o ∧ ∀ b, o.life = some b → (step s op).1.heap[b]? = s.heap[b]? := by
  have hil := get_lt ho
  cases op with
  | empty => exact ⟨by simp only [step]; rw [get_append, if_pos hil]; exact ho, fun _ _ => rfl⟩
  | create bytes =>
    refine ⟨by simp only [step]; rw [get_append, if_pos hil]; exact ho, fun b hb => ?_⟩
    obtain ⟨x, hx⟩ := hi.held i o b ho hb
    have : b < s.heap.length := by
      rcases Nat.lt_or_ge b s.heap.length with h' | h'
      · exact h'
      · rw [List.getElem?_eq_none h'] at hx; cases hx
    simp only [step]
    rw [List.getElem?_append_left this]
  | copy j sl =>
    simp only [step]
    repeat' split
    all_goals first
      | exact ⟨ho, fun _ _ => rfl⟩
      | exact ⟨by rw [get_append, if_pos hil]; exact ho, fun _ _ => rfl⟩
  | move j sl =>
    simp only [step]
    cases hj : get s j with
    | none => exact ⟨ho, fun _ _ => rfl⟩
    | some o' =>
      simp only []
      cases hsl : slice o'.ptr o'.size sl with
      | none => exact ⟨ho, fun _ _ => rfl⟩
      | some pn =>
        obtain ⟨p, n⟩ := pn
        simp only []
        refine ⟨?_, by simp⟩
        have hk' : j ≠ i := hk
        have := get_append (s := ⟨s.heap, s.vars.set j (some { o' with life := none, moved := true })⟩) (x := some ⟨p, n, o'.life, o'.moved⟩) (heap := s.heap) (i := i)
        simp only [List.length_set] at this
        rw [this, if_pos hil, get_set (get_lt hj), if_neg (Ne.symm hk')]
        exact ho
  | assign a j =>
    simp only [step]
    have hk' : a ≠ i := hk
    cases hd : get s a with
    | none => exact ⟨ho, fun _ _ => rfl⟩
    | some d =>
      cases hj : get s j with
      | none => exact ⟨ho, fun _ _ => rfl⟩
      | some o' =>
        simp only []
        have hg : get ⟨s.heap, s.vars.set a (some o')⟩ i = some o := by rw [get_set (get_lt hd), if_neg (Ne.symm hk')]; exact ho
        exact ⟨by rw [get, release_vars]; exact hg, fun b hb => release_heap hg hb⟩
  | moveAssign a j =>
    simp only [step]
    cases hd : get s a with
    | none => exact ⟨ho, fun _ _ => rfl⟩
    | some d =>
      cases hj : get s j with
      | none => exact ⟨ho, fun _ _ => rfl⟩
      | some o' =>
        simp only []
        by_cases haj : a = j
        · rw [if_pos haj]; exact ⟨ho, fun _ _ => rfl⟩
        rw [if_neg haj]
        have hji : j ≠ i := hk.2.resolve_right haj
        have hg : get ⟨s.heap, (s.vars.set j (some { o' with life := none, moved := true })).set a (some o')⟩ i = some o := by
          have := get_set (s := ⟨s.heap, s.vars.set j (some { o' with life := none, moved := true })⟩) (x := some o') (heap := s.heap) (i := i) (j := a) (by simpa using get_lt hd)
          rw [this, if_neg (Ne.symm hk.1), get_set (get_lt hj), if_neg (Ne.symm hji)]
          exact ho
        exact ⟨by rw [get, release_vars]; exact hg, fun b hb => release_heap hg hb⟩
  | destroy a =>
    simp only [step]
    have hk' : a ≠ i := hk
    cases hd : get s a with
    | none => exact ⟨ho, fun _ _ => rfl⟩
    | some d =>
      simp only []
      have hg : get ⟨s.heap, s.vars.set a none⟩ i = some o := by rw [get_set (get_lt hd), if_neg (Ne.symm hk')]; exact ho
      exact ⟨by rw [get, release_vars]; exact hg, fun b hb => release_heap hg hb⟩
  | read a k =>
    simp only [step]
    repeat' split
    all_goals exact ⟨ho, fun _ _ => rfl⟩
  | write a k v => exact hk.elim

/-- C165.  Whatever happens to other objects, even to those it was copied from, an object goes on showing the same bytes. -/
theorem content_kept_partial {s : State} (h : Reached s) {i : Nat} (hs : Sound s i) {bs : List Nat} (hc : Content s i bs) {op : Op} (hk : Keeps i op) :
    Content (step s op).1 i bs ∧ Sound (step s op).1 i := by
  obtain ⟨o, ho, hm⟩ := hs
  have hi := reached_inv h
  have hg := hi.own i o ho hm
  have hbs := content_unique hc (content_of_good ho hg)
  subst hbs
  obtain ⟨h1, h2⟩ := heap_keeps hi hk ho
  have := content_of_good h1 (good_congr hg h2)
  rw [bytesOf_congr hg h2] at this
  exact ⟨this, _, h1, hm⟩

/-- C165.  After an assignment, copying or moving, the target shows what the source showed. -/
theorem assign_content_partial {s : State} (h : Reached s) {i j : Nat} (hj : Sound s j) (hi : ∃ d, get s i = some d) {bs : List Nat} (hc : Content s j bs)
    {op : Op} (hop : op = .assign i j ∨ op = .moveAssign i j) : (step s op).2 = .done ∧ Content (step s op).1 i bs ∧ Sound (step s op).1 i := by
  obtain ⟨o, ho, hm⟩ := hj
  obtain ⟨d, hd⟩ := hi
  have hinv := reached_inv h
  have hg := hinv.own j o ho hm
  have hbs := content_unique hc (content_of_good ho hg)
  subst hbs
  have key : (step s op).2 = .done ∧ get (step s op).1 i = some o ∧ ∀ b, o.life = some b → (step s op).1.heap[b]? = s.heap[b]? := by
    rcases hop with rfl | rfl
    · simp only [step, hd, ho, true_and]
      have hg : get ⟨s.heap, s.vars.set i (some o)⟩ i = some o := by rw [get_set (get_lt hd), if_pos rfl]
      exact ⟨by rw [get, release_vars]; exact hg, fun b hb => release_heap hg hb⟩
    · simp only [step, hd, ho]
      by_cases hij : i = j
      · rw [if_pos hij]
        subst hij
        exact ⟨rfl, ho, fun _ _ => rfl⟩
      · rw [if_neg hij]
        have hg : get ⟨s.heap, (s.vars.set j (some { o with life := none, moved := true })).set i (some o)⟩ i = some o := by
          have := get_set (s := ⟨s.heap, s.vars.set j (some { o with life := none, moved := true })⟩) (x := some o) (heap := s.heap) (i := i) (j := i) (by simpa using get_lt hd)
          rw [this, if_pos rfl]
        exact ⟨rfl, by rw [get, release_vars]; exact hg, fun b hb => release_heap hg hb⟩
  have := content_of_good key.2.1 (good_congr hg key.2.2)
  rw [bytesOf_congr hg key.2.2] at this
  exact ⟨key.1, this, _, key.2.1, hm⟩

/-- C165.  A write changes the one byte; beyond the end it throws and changes nothing. -/
theorem write_content_partial {s : State} (h : Reached s) {i : Nat} (hs : Sound s i) {bs : List Nat} (hc : Content s i bs) (k v : Nat) :
    if k < bs.length then (step s (.write i k v)).2 = .done ∧ Content (step s (.write i k v)).1 i (bs.set k v) ∧ Sound (step s (.write i k v)).1 i
    else (step s (.write i k v)).2 = .exception ∧ (step s (.write i k v)).1 = s := by
  obtain ⟨o, ho, hm⟩ := hs
  have hi := reached_inv h
  have hg := hi.own i o ho hm
  have hbs := content_unique hc (content_of_good ho hg)
  subst hbs
  rw [bytesOf_length hg]
  by_cases hk : k < o.size
  · rw [if_pos hk]
    rcases hg with ⟨h1, h2⟩ | ⟨b, pos, bytes, h1, h2, h3, h4, h5⟩
    · omega
    · have hm' : (pos + k) % 2 ^ 64 = pos + k := Nat.mod_eq_of_lt (by omega)
      have hst : step s (.write i k v) = ({ s with heap := s.heap.set b (some (bytes.set (pos + k) v)) }, .done) := by
        simp only [step, ho, place]
        rw [if_pos hk, h1]
        simp only [h3, Option.join_some, hm']
        rw [if_pos (by omega)]
      have hlt : b < s.heap.length := by
        rcases Nat.lt_or_ge b s.heap.length with h' | h'
        · exact h'
        · rw [List.getElem?_eq_none h'] at h3; cases h3
      have hget : get (step s (.write i k v)).1 i = some o := by rw [hst]; exact ho
      refine ⟨by rw [hst], ?_, _, hget, hm⟩
      have hnew : (s.heap.set b (some (bytes.set (pos + k) v)))[b]? = some (some (bytes.set (pos + k) v)) := List.getElem?_set_self hlt
      have := content_of_good hget (.inr ⟨b, pos, bytes.set (pos + k) v, h1, h2, by rw [hst]; exact hnew, by simp; omega, by simp; omega⟩)
      have e : bytesOf (step s (.write i k v)).1.heap o = (bytesOf s.heap o).set k v := by
        simp only [hst, bytesOf, h1, hnew, h3, Option.join_some, Option.getD_some]
        apply List.ext_getElem?
        intro n
        by_cases hn : n < o.size
        · rw [List.getElem?_take_of_lt hn, List.getElem?_drop, List.getElem?_set, List.getElem?_set, List.getElem?_take_of_lt hn, List.getElem?_drop]
          simp only [List.length_take, List.length_drop]
          by_cases hkn : k = n
          · subst hkn
            rw [if_pos rfl, if_pos rfl, if_pos (by omega), if_pos (by omega)]
          · rw [if_neg (by omega), if_neg hkn]
        · rw [List.getElem?_eq_none (by simp; omega), List.getElem?_eq_none (by simp; omega)]
      rwa [e] at this
  · rw [if_neg hk]
    simp [step, ho, place, hk]

/-- C165.  A part and the object it was copied from share their bytes: what is written through the part at `k` is there in the object at `offset + k`. -/
theorem write_shared_partial {s : State} (h : Reached s) {j : Nat} (hs : Sound s j) {bs : List Nat} (hc : Content s j bs) (off n : Nat) (hf : off + n ≤ bs.length) (hw : off + n < 2 ^ 64)
    (k v : Nat) (hk : k < n) : Content (step (step s (.copy j (.part off n))).1 (.write s.vars.length k v)).1 j (bs.set (off + k) v) := by
  obtain ⟨o, ho, hm⟩ := hs
  have hi := reached_inv h
  have hg := hi.own j o ho hm
  have hbs := content_unique hc (content_of_good ho hg)
  subst hbs
  rw [bytesOf_length hg] at hf
  rcases hg with ⟨h1, h2⟩ | ⟨b, pos, bytes, h1, h2, h3, h4, h5⟩
  · omega
  · have hst1 : step s (.copy j (.part off n)) = ({ s with vars := s.vars ++ [some ⟨some (b, pos + off), n, o.life, o.moved⟩] }, .done) := by
      simp only [step, ho, slice, Nat.mod_eq_of_lt hw, if_pos hf, h1, Option.map_some, Nat.mod_eq_of_lt (show pos + off < 2 ^ 64 by omega)]
    have hgn : get { s with vars := s.vars ++ [some ⟨some (b, pos + off), n, o.life, o.moved⟩] } s.vars.length = some ⟨some (b, pos + off), n, o.life, o.moved⟩ := by
      rw [get_append, if_neg (Nat.lt_irrefl _), if_pos rfl]
    have hm' : (pos + off + k) % 2 ^ 64 = pos + off + k := Nat.mod_eq_of_lt (by omega)
    have hst : step (step s (.copy j (.part off n))).1 (.write s.vars.length k v) =
        (⟨s.heap.set b (some (bytes.set (pos + off + k) v)), s.vars ++ [some ⟨some (b, pos + off), n, o.life, o.moved⟩]⟩, .done) := by
      rw [hst1]
      simp only [step, hgn, place]
      rw [if_pos hk]
      simp only [h3, Option.join_some, hm']
      rw [if_pos (by omega)]
    have hlt : b < s.heap.length := by
      rcases Nat.lt_or_ge b s.heap.length with h' | h'
      · exact h'
      · rw [List.getElem?_eq_none h'] at h3; cases h3
    rw [hst]
    have hget : get ⟨s.heap.set b (some (bytes.set (pos + off + k) v)), s.vars ++ [some ⟨some (b, pos + off), n, o.life, o.moved⟩]⟩ j = some o := by
      rw [get_append, if_pos (get_lt ho)]; exact ho
    have hnew : (s.heap.set b (some (bytes.set (pos + off + k) v)))[b]? = some (some (bytes.set (pos + off + k) v)) := List.getElem?_set_self hlt
    have := content_of_good hget (.inr ⟨b, pos, bytes.set (pos + off + k) v, h1, h2, hnew, by simp; omega, by simp; omega⟩)
    have e : bytesOf (s.heap.set b (some (bytes.set (pos + off + k) v))) o = (bytesOf s.heap o).set (off + k) v := by
      simp only [bytesOf, h1, hnew, h3, Option.join_some, Option.getD_some]
      apply List.ext_getElem?
      intro m
      by_cases hn : m < o.size
      · rw [List.getElem?_take_of_lt hn, List.getElem?_drop, List.getElem?_set, List.getElem?_set, List.getElem?_take_of_lt hn, List.getElem?_drop]
        simp only [List.length_take, List.length_drop]
        by_cases hkn : off + k = m
        · subst hkn
          rw [if_pos (by omega), if_pos rfl, if_pos (by omega), if_pos (by omega)]
        · rw [if_neg (by omega), if_neg hkn]
      · rw [List.getElem?_eq_none (by simp; omega), List.getElem?_eq_none (by simp; omega)]
    simp only [] at this
    rwa [e] at this

/-- C165.  Storage is freed as soon as no object refers to it: when every object is destroyed, nothing is left. -/
theorem all_freed_partial {s : State} (h : Reached s) (hv : ∀ i, get s i = none) : ∀ (b : Nat) (bytes : List Nat), s.heap[b]? ≠ some (some bytes) := by
  intro b bytes hb
  rcases (reached_inv h).leak b bytes hb with ⟨i, o, h1, -⟩ | h
  · rw [hv i] at h1; cases h1
  · cases h

/-- C165, why moved-from objects are excluded: such an object keeps its pointer and size, and once the storage is freed reads freed memory. -/
theorem moved_from_violated : (step (run init [.create [7, 8], .move 0 .whole, .destroy 1]) (.read 0 0)).2 = .ub ∧
    (step (run init [.create [7, 8], .move 0 .whole]) (.read 0 0)).2 = .value 7 := by decide +kernel

/-- C165, why the sums must not wrap around: a part before the beginning of the storage is accepted. -/
theorem wrap_violated : (step (run init [.create [7, 8], .copy 0 (.part (2 ^ 64 - 1) 2)]) (.read 1 0)).2 = .ub := by decide +kernel

/-! Non-vacuity: a part of an object outlives it. -/
example : Reached (run init [.create [5, 6, 7, 8], .copy 0 (.part 1 2), .destroy 0]) ∧ Sound (run init [.create [5, 6, 7, 8], .copy 0 (.part 1 2), .destroy 0]) 1 ∧
    (step (run init [.create [5, 6, 7, 8], .copy 0 (.part 1 2), .destroy 0]) (.read 1 1)).2 = .value 7 := by
  refine ⟨⟨_, ?_, rfl⟩, ⟨_, rfl, rfl⟩, by decide +kernel⟩
  intro op hop
  simp only [List.mem_cons, List.not_mem_nil, or_false] at hop
  rcases hop with rfl | rfl | rfl <;> simp [OpOk]

end Verif.Bytes.Owner

import Verif.PagedBuffer.Spec
import Verif.Ring.Lemmas
/- Representation relation and simulation for `PagedBuffer`. -/
namespace Verif.PagedBuffer
open Verif.Ring (slice splice)
set_option linter.unusedSectionVars false
section
variable {α : Type}

/-! ### Pages -/

/-- All pages but the last are full. -/
def Full (P : Nat) (l : List (List α)) : Prop := ∀ pg ∈ l.dropLast, pg.length = P

theorem Full.tail {P : Nat} {x : List α} {l : List (List α)} (h : Full P (x :: l)) : Full P l := by
  cases l with
  | nil => intro pg hp; cases hp
  | cons y r =>
    intro pg hp
    apply h
    rw [List.dropLast_cons_of_ne_nil (by simp)]
    exact List.mem_cons_of_mem _ hp

theorem Full.head {P : Nat} {x y : List α} {l : List (List α)} (h : Full P (x :: y :: l)) : x.length = P := by
  apply h
  rw [List.dropLast_cons_of_ne_nil (by simp)]
  exact List.mem_cons_self

/-- Bytes of a page are bytes of the concatenation. -/
theorem page_slice (P : Nat) : ∀ (l : List (List α)), Full P l → ∀ (i off k : Nat), off + k ≤ (l[i]?.getD []).length →
    slice (l[i]?.getD []) off k = (l.flatten.drop (i * P + off)).take k ∧ (0 < k → i * P + off + k ≤ l.flatten.length)
  | [], _, i, off, k, h => by
    simp at h
    obtain ⟨rfl, rfl⟩ := h
    simp [slice]
  | x :: l, hf, 0, off, k, h => by
    simp at h
    constructor
    · simp only [slice, List.getElem?_cons_zero, Option.getD_some, Nat.zero_mul, Nat.zero_add, List.flatten_cons]
      rw [List.drop_append_of_le_length (by omega), List.take_append_of_le_length (by rw [List.length_drop]; omega)]
    · intro _
      simp only [Nat.zero_mul, Nat.zero_add, List.flatten_cons, List.length_append]
      omega
  | x :: l, hf, i + 1, off, k, h => by
    simp only [List.getElem?_cons_succ] at h ⊢
    obtain ⟨h1, h2⟩ := page_slice P l hf.tail i off k h
    cases l with
    | nil =>
      simp at h
      obtain ⟨rfl, rfl⟩ := h
      simp [slice]
    | cons y r =>
      have hx := hf.head
      rw [h1]
      have e : (i + 1) * P + off = x.length + (i * P + off) := by rw [hx, Nat.add_mul, Nat.one_mul]; omega
      rw [e, List.flatten_cons (l := x), List.drop_append, List.drop_eq_nil_of_le (as := x) (by omega), List.nil_append, Nat.add_sub_cancel_left]
      refine ⟨rfl, fun hk => ?_⟩
      have := h2 hk
      rw [List.length_append]
      omega

theorem flatten_length (P : Nat) (l : List (List α)) (h : Full P l) (hne : l ≠ []) :
    l.flatten.length = P * (l.length - 1) + (l.getLast?.getD []).length := by
  induction l with
  | nil => exact absurd rfl hne
  | cons x l ih =>
    cases l with
    | nil => simp
    | cons y r =>
      have := ih h.tail (by simp)
      rw [List.flatten_cons, List.length_append, this, h.head]
      simp only [List.length_cons, List.getLast?_cons_cons]
      have : P * (r.length + 1 + 1 - 1) = P * (r.length + 1 - 1) + P := by
        rw [show r.length + 1 + 1 - 1 = (r.length + 1 - 1) + 1 from by omega, Nat.mul_add, Nat.mul_one]
      omega

theorem dropLast_append_getLast (l : List (List α)) (h : l ≠ []) : l = l.dropLast ++ [l.getLast?.getD []] := by
  rcases List.eq_nil_or_concat l with rfl | ⟨pre, x, rfl⟩
  · exact absurd rfl h
  · simp

/-- Writing at the end of the last page. -/
theorem tail_write (P : Nat) (l : List (List α)) (hf : Full P l) (hne : l ≠ []) (d : List α) (off : Nat) (ho : (l.getLast?.getD []).length = off) :
    (l.dropLast ++ [splice (l.getLast?.getD []) off d]).flatten = l.flatten ++ d ∧ Full P (l.dropLast ++ [splice (l.getLast?.getD []) off d]) ∧
    (l.dropLast ++ [splice (l.getLast?.getD []) off d]).length = l.length := by
  have hl := dropLast_append_getLast l hne
  have hs : splice (l.getLast?.getD []) off d = l.getLast?.getD [] ++ d := by
    subst ho; unfold splice
    rw [List.take_length, List.drop_eq_nil_of_le (by omega), List.append_nil]
  refine ⟨?_, ?_, ?_⟩
  · rw [hs]
    conv => rhs; rw [hl]
    simp
  · intro pg hp
    rw [List.dropLast_concat] at hp
    exact hf pg hp
  · have hp : 0 < l.length := List.length_pos_iff.mpr hne
    simp; omega

/-! ### New pages -/

theorem newPages_flatten (c : Config) (hP : 0 < c.pageSize) : ∀ (fuel : Nat) (d : List α), d.length ≤ fuel → (newPages c fuel d).flatten = d
  | 0, d, h => by
    have : d = [] := List.eq_nil_of_length_eq_zero (by omega)
    subst this; rfl
  | fuel + 1, d, h => by
    unfold newPages
    split
    · rename_i h0
      have : d = [] := List.eq_nil_of_length_eq_zero h0
      subst this; rfl
    · rw [List.flatten_cons, newPages_flatten c hP fuel _ (by rw [List.length_drop]; omega), List.take_append_drop]

theorem newPages_spec (c : Config) (hP : 0 < c.pageSize) : ∀ (fuel : Nat) (d : List α) (t : Nat), d.length ≤ fuel → d ≠ [] →
    Full c.pageSize (newPages c fuel d) ∧ newPages c fuel d ≠ [] ∧
    d.length + newTail c fuel d t = c.pageSize * (newPages c fuel d).length ∧ newTail c fuel d t < c.pageSize
  | 0, d, t, h, hne => absurd (List.eq_nil_of_length_eq_zero (by omega)) hne
  | fuel + 1, d, t, h, hne => by
    have hd : d.length ≠ 0 := fun h0 => hne (List.eq_nil_of_length_eq_zero h0)
    unfold newPages newTail
    rw [if_neg hd, if_neg hd]
    by_cases hr : d.drop (min c.pageSize d.length) = []
    · rw [hr]
      have hlen : d.length ≤ c.pageSize := by
        have := congrArg List.length hr
        rw [List.length_drop, List.length_nil] at this
        omega
      have e : newPages c fuel ([] : List α) = [] := by cases fuel <;> simp [newPages]
      have e2 : ∀ t, newTail c fuel ([] : List α) t = t := by intro t; cases fuel <;> simp [newTail]
      rw [e, e2]
      refine ⟨fun pg hp => by simp at hp, by simp, ?_, by omega⟩
      simp only [List.length_cons, List.length_nil, Nat.zero_add, Nat.mul_one]
      omega
    · obtain ⟨h1, h2, h3, h4⟩ := newPages_spec c hP fuel (d.drop (min c.pageSize d.length)) (c.pageSize - min c.pageSize d.length)
        (by rw [List.length_drop]; omega) hr
      have hlen : c.pageSize < d.length := by
        apply Nat.lt_of_not_le
        intro hle
        apply hr
        apply List.drop_eq_nil_of_le
        omega
      have hm : min c.pageSize d.length = c.pageSize := by omega
      rw [hm] at h1 h2 h3 h4 ⊢
      refine ⟨?_, by simp, ?_, h4⟩
      · intro pg hp
        rw [List.dropLast_cons_of_ne_nil h2, List.mem_cons] at hp
        rcases hp with rfl | hp
        · rw [List.length_take]; omega
        · exact h1 pg hp
      · rw [List.length_drop] at h3
        simp only [List.length_cons]
        rw [Nat.mul_add, Nat.mul_one]
        omega

theorem Full.append {P : Nat} {l m : List (List α)} (hl : ∀ pg ∈ l, pg.length = P) (hm : Full P m) (hne : m ≠ []) : Full P (l ++ m) := by
  intro pg hp
  rw [List.dropLast_append_of_ne_nil hne, List.mem_append] at hp
  rcases hp with hp | hp
  · exact hl pg hp
  · exact hm pg hp

/-! ### The loop of `Pop` -/

theorem popLoop_eq (c : Config) (hP : 0 < c.pageSize) : ∀ (fuel d st cur : Nat), st ≤ fuel → st ≤ cur →
    popLoop c fuel (d, st, cur) = (d + st / c.pageSize, st % c.pageSize, cur - c.pageSize * (st / c.pageSize))
  | 0, d, st, cur, h, _ => by
    have : st = 0 := by omega
    subst this
    simp [popLoop]
  | fuel + 1, d, st, cur, h, hc => by
    unfold popLoop
    split
    · rename_i hle
      rw [popLoop_eq c hP fuel (d + 1) (st - c.pageSize) (cur - c.pageSize) (by omega) (by omega)]
      have h1 : st / c.pageSize = (st - c.pageSize) / c.pageSize + 1 := Nat.div_eq_sub_div hP hle
      have h2 : st % c.pageSize = (st - c.pageSize) % c.pageSize := Nat.mod_eq_sub_mod hle
      rw [h1, h2, Nat.mul_add, Nat.mul_one]
      ext1 <;> simp <;> omega
    · rename_i hlt
      rw [Nat.div_eq_of_lt (by omega), Nat.mod_eq_of_lt (by omega)]
      simp

/-! ### Representation -/

/-- Bytes of the `Push` in progress that are not yet in any page. -/
def pending : Option (Writer α) → List α
  | none => []
  | some (.tail now rest false) => now ++ rest
  | some (.tail _ rest true) => rest
  | some (.pages rest) => rest

/-- Bytes of the `Push` in progress that are in the tail page but not yet accounted for in `_tailSize`. -/
def unaccounted : Option (Writer α) → Nat
  | some (.tail now _ true) => now.length
  | _ => 0

structure Rep (c : Config) (s : Sys α) (a : Spec.St α) : Prop where
  full : Full c.pageSize s.store
  log : a.log = s.store.flatten ++ pending s.writer
  tail : s.tailSize < c.pageSize
  pub : a.pub + s.tailSize = c.pageSize * s.store.length
  len : s.store.flatten.length = a.pub + unaccounted s.writer
  writing : a.w = s.writer.isSome
  stage : match s.writer with
    | none => True
    | some (.tail now rest _) => 0 < s.tailSize ∧ now.length ≤ s.tailSize ∧ (rest ≠ [] → now.length = s.tailSize)
    | some (.pages rest) => rest ≠ [] → s.tailSize = 0
  popped : a.popped = c.pageSize * s.first + s.startOffset
  start : s.startOffset < c.pageSize
  poppedPub : a.popped ≤ a.pub
  cursor : a.cursor = c.pageSize * s.first + s.currentOffset
  cursorLo : a.popped ≤ a.cursor
  cursorHi : a.cursor ≤ s.store.flatten.length
  reader : match s.reader, a.r with
    | none, none => True
    | some rd, some (p, d, k) => c.pageSize * rd.page + rd.offset = p ∧ rd.processed = k ∧ (∀ k', k = some k' → p + k' ≤ s.store.flatten.length) ∧
        p ≤ s.store.flatten.length ∧ (d = false → rd.saved = s.currentOffset ∧ a.cursor = p)
    | _, _ => False

theorem create_rep (c : Config) (hc : c.Valid) : Rep c (Sys.create : Sys α) Spec.St.init := by
  obtain ⟨h1, h2, h3⟩ := hc
  constructor <;> simp [Sys.create, Spec.St.init, Full, pending, unaccounted, h1]

theorem Rep.first_le {c : Config} {s : Sys α} {a : Spec.St α} (h : Rep c s a) : s.first ≤ s.store.length := by
  have h1 := h.popped; have h2 := h.poppedPub; have h3 := h.pub; have h4 := h.tail
  exact Nat.le_of_mul_le_mul_left (c := c.pageSize) (by omega) (by omega)

theorem Rep.count {c : Config} {s : Sys α} {a : Spec.St α} (h : Rep c s a) :
    c.pageSize * s.count = a.pub + s.tailSize - c.pageSize * s.first := by
  unfold Sys.count
  rw [Nat.mul_sub, h.pub]

theorem Rep.storage {c : Config} {s : Sys α} {a : Spec.St α} (h : Rep c s a) : storageSize c s = a.pub - a.popped := by
  have h1 := h.count; have h2 := h.popped; have h3 := h.poppedPub
  unfold storageSize
  omega

theorem Rep.nothing {c : Config} {s : Sys α} {a : Spec.St α} (h : Rep c s a) :
    nothingToRead c s = true ↔ a.cursor ≤ a.pub ∧ a.pub - a.cursor < c.chunkSize := by
  have h1 := h.count; have h2 := h.cursor
  unfold nothingToRead
  simp only [Bool.and_eq_true, decide_eq_true_eq]
  have h5 := h.popped; have h6 := h.poppedPub
  omega

/-- If something is unread, the cursor lies in a page. -/
theorem Rep.inPage {c : Config} {s : Sys α} {a : Spec.St α} (h : Rep c s a) (hlt : a.cursor < a.pub) : s.currentOffset / c.pageSize < s.count := by
  have hP : 0 < c.pageSize := by have := h.tail; omega
  have h1 := h.count; have h2 := h.cursor
  rw [Nat.div_lt_iff_lt_mul hP, Nat.mul_comm]
  omega

theorem quiet_pop_arith (P st n : Nat) (hP : 0 < P) (h : st + n < P) : (st + n) / P = 0 ∧ (st + n) % P = st + n :=
  ⟨Nat.div_eq_of_lt h, Nat.mod_eq_of_lt h⟩

theorem Rep.popped_mod {c : Config} {s : Sys α} {a : Spec.St α} (h : Rep c s a) : a.popped % c.pageSize = s.startOffset := by
  rw [h.popped, Nat.mul_add_mod, Nat.mod_eq_of_lt h.start]

theorem pop_rep {c : Config} {s : Sys α} {a : Spec.St α} (hr : Rep c s a) (n : Nat) (hn : a.popped + n ≤ a.pub) (d : Option (Nat × Bool × Option Nat))
    (hd : d = Spec.disturb a.r) :
    Rep c { s with first := s.first + (s.startOffset + n) / c.pageSize, startOffset := (s.startOffset + n) % c.pageSize,
                   currentOffset := max (s.startOffset + n) s.currentOffset - c.pageSize * ((s.startOffset + n) / c.pageSize) }
      { a with popped := a.popped + n, cursor := max (a.popped + n) a.cursor, r := d } := by
  have hP : 0 < c.pageSize := by have := hr.tail; omega
  have hdm := Nat.div_add_mod (s.startOffset + n) c.pageSize
  have h1 := hr.popped; have h2 := hr.cursor; have h3 := hr.len
  have h4 : a.popped + n ≤ s.store.flatten.length := by omega
  have h5 := hr.cursorHi
  have hle : c.pageSize * ((s.startOffset + n) / c.pageSize) ≤ s.startOffset + n := by omega
  refine ⟨hr.full, hr.log, hr.tail, hr.pub, hr.len, hr.writing, hr.stage, ?_, Nat.mod_lt _ hP, hn, ?_, ?_, ?_, ?_⟩
  · simp only; rw [Nat.mul_add]; omega
  · simp only; rw [Nat.mul_add]; omega
  · simp only; omega
  · simp only; omega
  · have hreq := hr.reader
    subst hd
    simp only
    cases hrd : s.reader with
    | none =>
      rw [hrd] at hreq
      cases har : a.r with
      | none => trivial
      | some x => rw [har] at hreq; exact hreq.elim
    | some rd =>
      rw [hrd] at hreq
      cases har : a.r with
      | none => rw [har] at hreq; exact hreq.elim
      | some x =>
        obtain ⟨p, dd, k⟩ := x
        rw [har] at hreq
        exact ⟨hreq.1, hreq.2.1, hreq.2.2.1, hreq.2.2.2.1, fun h => by cases h⟩

theorem pop_quiet_rep {c : Config} {s : Sys α} {a : Spec.St α} (hr : Rep c s a) (n : Nat) (hn : a.popped + n ≤ a.pub)
    (hp : s.startOffset + n < c.pageSize) (hq : a.popped + n ≤ a.cursor) :
    Rep c { s with startOffset := s.startOffset + n } { a with popped := a.popped + n } := by
  refine ⟨hr.full, hr.log, hr.tail, hr.pub, hr.len, hr.writing, hr.stage, ?_, hp, hn, hr.cursor, hq, hr.cursorHi, hr.reader⟩
  simp only
  have := hr.popped; omega

theorem step_sim (c : Config) (hc : c.Valid) (s : Sys α) (a : Spec.St α) (hr : Rep c s a) (op : Op α) (s' : Sys α) (out : Out α)
    (h : step c s op = some (s', out)) : ∃ a', Spec.Step c a op out a' ∧ (a'.chaos = true ∨ Rep c s' a') := by
  obtain ⟨hP, hC, _⟩ := hc
  cases op with
  | push d =>
    cases hw : s.writer with
    | some w => simp only [step, hw] at h; cases h
    | none =>
      have haw : a.w = false := by rw [hr.writing, hw]; rfl
      simp only [step, hw] at h
      have hcnt : ¬ (s.count = 0 ∧ s.tailSize ≠ 0) := by
        rintro ⟨h0, h1⟩
        have h2 := hr.count
        have := hr.popped; have := hr.poppedPub
        rw [h0] at h2
        omega
      rw [if_neg hcnt] at h
      have hun := hr.len; rw [hw] at hun
      have hlog := hr.log; rw [hw] at hlog; simp only [pending, List.append_nil] at hlog
      by_cases ht : 0 < s.tailSize
      · rw [if_pos ht] at h
        cases h
        refine ⟨_, .push a d haw, .inr ⟨hr.full, ?_, hr.tail, hr.pub, hun, rfl, ⟨ht, ?_, ?_⟩, hr.popped, hr.start, hr.poppedPub, hr.cursor,
          hr.cursorLo, hr.cursorHi, hr.reader⟩⟩
        · simp only [pending, List.take_append_drop]; rw [hlog]
        · simp only; rw [List.length_take]; omega
        · intro hne
          have : (d.drop (min s.tailSize d.length)).length ≠ 0 := fun h0 => hne (List.eq_nil_of_length_eq_zero h0)
          rw [List.length_drop] at this
          simp only; rw [List.length_take]
          omega
      · rw [if_neg ht] at h
        cases h
        refine ⟨_, .push a d haw, .inr ⟨hr.full, ?_, hr.tail, hr.pub, hun, rfl, fun _ => by simp only; omega, hr.popped, hr.start, hr.poppedPub, hr.cursor,
          hr.cursorLo, hr.cursorHi, hr.reader⟩⟩
        simp only [pending]; rw [hlog]
  | tailWritten =>
    cases hw : s.writer with
    | none => simp only [step, hw] at h; cases h
    | some w =>
      cases w with
      | pages rest => simp only [step, hw] at h; cases h
      | tail now rest written =>
        cases written with
        | true => simp only [step, hw] at h; cases h
        | false =>
          simp only [step, hw] at h
          cases h
          have haw : a.w = true := by rw [hr.writing, hw]; rfl
          have hst := hr.stage; rw [hw] at hst
          have hlen := hr.len; rw [hw] at hlen; simp only [unaccounted, Nat.add_zero] at hlen
          have hne : s.store ≠ [] := by
            intro h0
            have := hr.pub
            rw [h0, List.length_nil, Nat.mul_zero] at this
            omega
          have hfl := flatten_length c.pageSize s.store hr.full hne
          have hpos := List.length_pos_iff.mpr hne
          have hmul : c.pageSize * s.store.length = c.pageSize * (s.store.length - 1) + c.pageSize := by
            conv => lhs; rw [show s.store.length = (s.store.length - 1) + 1 from by omega, Nat.mul_add, Nat.mul_one]
          have hpub := hr.pub
          obtain ⟨t1, t2, t3⟩ := tail_write c.pageSize s.store hr.full hne now (c.pageSize - s.tailSize) (by have := hr.tail; omega)
          have hlog := hr.log; rw [hw] at hlog; simp only [pending] at hlog
          refine ⟨a, .tailWritten a haw, .inr ⟨t2, ?_, hr.tail, by simp only; rw [t3]; exact hr.pub, ?_, by rw [haw]; rfl, hst, hr.popped, hr.start, hr.poppedPub,
            hr.cursor, hr.cursorLo, ?_, ?_⟩⟩
          · simp only [pending]; rw [t1, hlog, List.append_assoc]
          · simp only [unaccounted]; rw [t1, List.length_append]; omega
          · simp only; rw [t1, List.length_append]; have := hr.cursorHi; omega
          · have hreq := hr.reader
            simp only
            cases hrd : s.reader with
            | none =>
              rw [hrd] at hreq
              cases har : a.r with
              | none => trivial
              | some x => rw [har] at hreq; exact hreq.elim
            | some rd =>
              rw [hrd] at hreq
              cases har : a.r with
              | none => rw [har] at hreq; exact hreq.elim
              | some x =>
                obtain ⟨p, dd, k⟩ := x
                rw [har] at hreq
                refine ⟨hreq.1, hreq.2.1, fun k' hk => ?_, ?_, hreq.2.2.2.2⟩
                · rw [t1, List.length_append]; have := hreq.2.2.1 k' hk; omega
                · rw [t1, List.length_append]; have := hreq.2.2.2.1; omega
  | tailDone =>
    cases hw : s.writer with
    | none => simp only [step, hw] at h; cases h
    | some w =>
      cases w with
      | pages rest => simp only [step, hw] at h; cases h
      | tail now rest written =>
        cases written with
        | false => simp only [step, hw] at h; cases h
        | true =>
          simp only [step, hw] at h
          cases h
          have haw : a.w = true := by rw [hr.writing, hw]; rfl
          have hst := hr.stage; rw [hw] at hst
          have hlen := hr.len; rw [hw] at hlen; simp only [unaccounted] at hlen
          have hlog := hr.log; rw [hw] at hlog; simp only [pending] at hlog
          have hpub := hr.pub
          have htl := hr.tail
          have hpp := hr.poppedPub
          refine ⟨{ a with pub := a.pub + now.length }, .tailDone a _ haw (by omega) (by rw [hlog, List.length_append]; omega),
            .inr ⟨hr.full, hlog, by simp only; omega, by simp only; omega, hlen, by simp only; rw [haw]; rfl, fun hne => ?_, hr.popped, hr.start,
              by simp only; omega, hr.cursor, hr.cursorLo, hr.cursorHi, hr.reader⟩⟩
          simp only
          have := hst.2.2 hne
          omega
  | pagesDone =>
    cases hw : s.writer with
    | none => simp only [step, hw] at h; cases h
    | some w =>
      cases w with
      | tail now rest written => simp only [step, hw] at h; cases h
      | pages rest =>
        simp only [step, hw] at h
        cases h
        have haw : a.w = true := by rw [hr.writing, hw]; rfl
        have hst := hr.stage; rw [hw] at hst; simp only at hst
        have hlen := hr.len; rw [hw] at hlen; simp only [unaccounted, Nat.add_zero] at hlen
        have hlog := hr.log; rw [hw] at hlog; simp only [pending] at hlog
        have hll : a.log.length = a.pub + rest.length := by rw [hlog, List.length_append, hlen]
        have hpub := hr.pub
        have hfl := newPages_flatten c hP rest.length rest (Nat.le_refl _)
        have hpp := hr.poppedPub
        have hreader : match s.reader, a.r with
            | none, none => True
            | some rd, some (p, d, k) => c.pageSize * rd.page + rd.offset = p ∧ rd.processed = k ∧
                (∀ k', k = some k' → p + k' ≤ (s.store ++ newPages c rest.length rest).flatten.length) ∧
                p ≤ (s.store ++ newPages c rest.length rest).flatten.length ∧ (d = false → rd.saved = s.currentOffset ∧ a.cursor = p)
            | _, _ => False := by
          have hreq := hr.reader
          cases hrd : s.reader with
          | none =>
            rw [hrd] at hreq
            cases har : a.r with
            | none => trivial
            | some x => rw [har] at hreq; exact hreq.elim
          | some rd =>
            rw [hrd] at hreq
            cases har : a.r with
            | none => rw [har] at hreq; exact hreq.elim
            | some x =>
              obtain ⟨p, dd, k⟩ := x
              rw [har] at hreq
              refine ⟨hreq.1, hreq.2.1, fun k' hk => ?_, ?_, hreq.2.2.2.2⟩
              · rw [List.flatten_append, List.length_append]; have := hreq.2.2.1 k' hk; omega
              · rw [List.flatten_append, List.length_append]; have := hreq.2.2.2.1; omega
        refine ⟨_, .pagesDone a haw, .inr ?_⟩
        by_cases hne : rest = []
        · subst hne
          have e : newPages c ([] : List α).length ([] : List α) = [] := rfl
          have e2 : newTail c ([] : List α).length ([] : List α) s.tailSize = s.tailSize := rfl
          rw [e] at hreader ⊢
          rw [e2]
          rw [List.append_nil] at hreader ⊢
          rw [List.append_nil] at hlog
          simp only [List.length_nil, Nat.add_zero] at hll
          exact ⟨hr.full, by simp only [pending, List.append_nil]; exact hlog, hr.tail, by simp only; omega, by simp only [unaccounted]; omega, rfl, trivial,
            hr.popped, hr.start, by simp only; omega, hr.cursor, hr.cursorLo, hr.cursorHi, hreader⟩
        · obtain ⟨n1, n2, n3, n4⟩ := newPages_spec c hP rest.length rest s.tailSize (Nat.le_refl _) hne
          have ht0 := hst hne
          have hfull : ∀ pg ∈ s.store, pg.length = c.pageSize := by
            intro pg hpg
            have hsne : s.store ≠ [] := by intro h0; rw [h0] at hpg; cases hpg
            have hfl2 := flatten_length c.pageSize s.store hr.full hsne
            have hpos := List.length_pos_iff.mpr hsne
            have hmul : c.pageSize * s.store.length = c.pageSize * (s.store.length - 1) + c.pageSize := by
              conv => lhs; rw [show s.store.length = (s.store.length - 1) + 1 from by omega, Nat.mul_add, Nat.mul_one]
            rw [dropLast_append_getLast s.store hsne, List.mem_append, List.mem_singleton] at hpg
            rcases hpg with hpg | rfl
            · exact hr.full pg hpg
            · omega
          refine ⟨Full.append hfull n1 n2, ?_, n4, ?_, ?_, rfl, trivial, hr.popped, hr.start, by simp only; omega, hr.cursor, hr.cursorLo, ?_, hreader⟩
          · simp only [pending, List.append_nil, List.flatten_append]; rw [hfl, hlog]
          · simp only; rw [List.length_append, Nat.mul_add, ← n3]; omega
          · simp only [unaccounted, List.flatten_append, List.length_append]; rw [hfl]; omega
          · simp only [List.flatten_append, List.length_append]; have := hr.cursorHi; omega
  | read =>
    have hreq := hr.reader
    cases hrd : s.reader with
    | some rd =>
      simp only [step, hrd] at h
      cases h
      rw [hrd] at hreq
      refine ⟨a, .busy a ?_, .inr hr⟩
      intro h0
      rw [h0] at hreq
      exact hreq
    | none =>
      have har : a.r = none := by
        rw [hrd] at hreq
        cases har : a.r with
        | none => rfl
        | some x => rw [har] at hreq; exact hreq.elim
      simp only [step, hrd] at h
      have hover : a.pub < a.cursor → a.w = true := by
        intro hlt
        have h1 := hr.cursorHi; have h2 := hr.len
        rw [hr.writing]
        cases hw : s.writer with
        | none => rw [hw] at h2; simp only [unaccounted] at h2; omega
        | some w => rfl
      by_cases hn : nothingToRead c s = true
      · rw [if_pos hn] at h
        cases h
        have := hr.nothing.mp hn
        exact ⟨a, .wait a har this.1 this.2, .inr hr⟩
      · rw [if_neg hn] at h
        have hn' : ¬ (a.cursor ≤ a.pub ∧ a.pub - a.cursor < c.chunkSize) := fun hx => hn (hr.nothing.mpr hx)
        have hcases : a.cursor + c.chunkSize ≤ a.pub ∨ (a.w = true ∧ a.pub < a.cursor) := by
          by_cases hlt : a.pub < a.cursor
          · exact Or.inr ⟨hover hlt, hlt⟩
          · left; omega
        by_cases hpg : s.currentOffset / c.pageSize < s.count
        · rw [if_pos hpg] at h
          cases h
          refine ⟨_, .read a har hcases, .inr ⟨hr.full, hr.log, hr.tail, hr.pub, hr.len, hr.writing, hr.stage, hr.popped, hr.start, hr.poppedPub, hr.cursor,
            hr.cursorLo, hr.cursorHi, ?_, rfl, (fun k' hk => by cases hk), hr.cursorHi, fun _ => ⟨rfl, rfl⟩⟩⟩
          simp only
          have := Nat.div_add_mod s.currentOffset c.pageSize
          have := hr.cursor
          rw [Nat.mul_add]
          omega
        · rw [if_neg hpg] at h
          cases h
          have hlt : a.pub < a.cursor := by
            apply Nat.lt_of_not_le
            intro hle
            rcases hcases with h1 | h1
            · exact hpg (hr.inPage (by omega))
            · omega
          exact ⟨a, .broken a har (hover hlt) hlt, .inr hr⟩
  | deliver k =>
    have hreq := hr.reader
    cases hrd : s.reader with
    | none => simp only [step, hrd] at h; cases h
    | some rd =>
      obtain ⟨page, off, saved, pr⟩ := rd
      cases pr with
      | some k' => simp only [step, hrd] at h; cases h
      | none =>
        rw [hrd] at hreq
        cases har : a.r with
        | none => rw [har] at hreq; exact hreq.elim
        | some x =>
          obtain ⟨p, dd, kk⟩ := x
          rw [har] at hreq
          obtain ⟨g1, g2, g3, g4, g5⟩ := hreq
          simp only at g1 g2 g5
          subst g2
          simp only [step, hrd] at h
          by_cases hk : off + k ≤ (s.store[page]?.getD []).length
          · rw [if_pos hk] at h
            cases h
            obtain ⟨h1, h2⟩ := page_slice c.pageSize s.store hr.full page off k hk
            rw [Nat.mul_comm page, g1] at h1 h2
            have hpk : p + k ≤ s.store.flatten.length := by
              rcases Nat.eq_zero_or_pos k with h0 | h0
              · omega
              · exact h2 h0
            have hlog : (a.log.drop p).take k = (s.store.flatten.drop p).take k := by
              rw [hr.log, List.drop_append_of_le_length (by omega), List.take_append_of_le_length (by rw [List.length_drop]; omega)]
            have hlen : s.store.flatten.length ≤ a.log.length := by rw [hr.log, List.length_append]; omega
            rw [h1, ← hlog]
            refine ⟨_, .deliver a p k dd har (by omega), .inr ⟨hr.full, hr.log, hr.tail, hr.pub, hr.len, hr.writing, hr.stage, hr.popped, hr.start, hr.poppedPub, hr.cursor,
              hr.cursorLo, hr.cursorHi, g1, rfl, fun k' hk' => ?_, g4, g5⟩⟩
            cases hk'
            exact hpk
          · rw [if_neg hk] at h; cases h
  | readEnd cancelled =>
    have hreq := hr.reader
    cases hrd : s.reader with
    | none => simp only [step, hrd] at h; cases h
    | some rd =>
      obtain ⟨page, off, saved, pr⟩ := rd
      cases pr with
      | none => simp only [step, hrd] at h; cases h
      | some k =>
        rw [hrd] at hreq
        cases har : a.r with
        | none => rw [har] at hreq; exact hreq.elim
        | some x =>
          obtain ⟨p, dd, kk⟩ := x
          rw [har] at hreq
          obtain ⟨g1, g2, g3, g4, g5⟩ := hreq
          simp only at g1 g2 g5
          subst g2
          simp only [step, hrd] at h
          cases cancelled with
          | true =>
            rw [if_pos rfl] at h
            cases h
            exact ⟨_, .readCancelled a p k dd har, .inr ⟨hr.full, hr.log, hr.tail, hr.pub, hr.len, hr.writing, hr.stage, hr.popped, hr.start, hr.poppedPub, hr.cursor,
              hr.cursorLo, hr.cursorHi, trivial⟩⟩
          | false =>
            rw [if_neg (by simp)] at h
            cases dd with
            | true =>
              have hout : out = .done := by
                split at h <;> (cases h; rfl)
              subst hout
              exact ⟨{ a with chaos := true }, .readDisturbed a _ p k har rfl, .inl rfl⟩
            | false =>
              obtain ⟨g6, g7⟩ := g5 rfl
              rw [if_pos g6.symm] at h
              cases h
              have hpk := g3 k rfl
              have hcur := hr.cursor
              have hlo := hr.cursorLo
              refine ⟨_, .readEnd a p k har g7, .inr ⟨hr.full, hr.log, hr.tail, hr.pub, hr.len, hr.writing, hr.stage, hr.popped, hr.start, hr.poppedPub,
                by simp only; omega, by simp only; omega, by simp only; omega, trivial⟩⟩
  | pop n =>
    have hst := hr.storage
    have hpp := hr.poppedPub
    simp only [step] at h
    by_cases h1 : storageSize c s < n
    · rw [if_pos h1] at h
      cases h
      exact ⟨a, .popRange a n (by omega), .inr hr⟩
    · rw [if_neg h1] at h
      by_cases h2 : n % c.chunkSize ≠ 0
      · rw [if_pos h2] at h
        cases h
        exact ⟨a, .popArg a n (by omega) h2, .inr hr⟩
      · rw [if_neg h2, popLoop_eq c hP _ _ _ _ (Nat.le_refl _) (Nat.le_max_left _ _)] at h
        simp only [Nat.zero_add] at h
        cases h
        have hmod := hr.popped_mod
        have hpo := hr.popped
        have hcu := hr.cursor
        by_cases hq : s.startOffset + n < c.pageSize ∧ a.popped + n ≤ a.cursor
        · obtain ⟨q1, q2⟩ := hq
          obtain ⟨e1, e2⟩ := quiet_pop_arith c.pageSize s.startOffset n hP q1
          have e3 : max (s.startOffset + n) s.currentOffset = s.currentOffset := by omega
          rw [e1, e2, e3, Nat.mul_zero, Nat.add_zero, Nat.sub_zero]
          exact ⟨_, .popQuiet a n (by omega) (by omega) (by omega) q2, .inr (pop_quiet_rep hr n (by omega) q1 q2)⟩
        · exact ⟨_, .pop a n (by omega) (by omega) (by omega), .inr (pop_rep hr n (by omega) _ rfl)⟩
  | seek n =>
    have hst := hr.storage
    have hpp := hr.poppedPub
    simp only [step] at h
    by_cases h1 : storageSize c s < n
    · rw [if_pos h1] at h
      cases h
      exact ⟨a, .seekRange a n (by omega), .inr hr⟩
    · rw [if_neg h1] at h
      by_cases h2 : n % c.chunkSize ≠ 0
      · rw [if_pos h2] at h
        cases h
        exact ⟨a, .seekArg a n (by omega) h2, .inr hr⟩
      · rw [if_neg h2] at h
        cases h
        have hpo := hr.popped
        have hlen := hr.len
        refine ⟨_, .seek a n (by omega) (by omega), .inr ⟨hr.full, hr.log, hr.tail, hr.pub, hr.len, hr.writing, hr.stage, hr.popped, hr.start, hr.poppedPub,
          by simp only; omega, by simp only; omega, by simp only; omega, ?_⟩⟩
        have hreq := hr.reader
        simp only
        cases hrd : s.reader with
        | none =>
          rw [hrd] at hreq
          cases har : a.r with
          | none => trivial
          | some x => rw [har] at hreq; exact hreq.elim
        | some rd =>
          rw [hrd] at hreq
          cases har : a.r with
          | none => rw [har] at hreq; exact hreq.elim
          | some x =>
            obtain ⟨p, dd, k⟩ := x
            rw [har] at hreq
            exact ⟨hreq.1, hreq.2.1, hreq.2.2.1, hreq.2.2.2.1, fun h => by cases h⟩
  | size =>
    simp only [step] at h
    cases h
    rw [hr.storage]
    exact ⟨a, .size a, .inr hr⟩

theorem chaos_trace (c : Config) : ∀ (t : List (Event α)) (a : Spec.St α), a.chaos = true → Spec.Trace c a t a
  | [], a, _ => .nil a
  | e :: t, a, h => .cons (.chaos a a e.op e.out h h) (chaos_trace c t a h)

theorem simulate (c : Config) (hc : c.Valid) : ∀ (ops : List (Op α)) (s : Sys α) (a : Spec.St α), Rep c s a → ∀ (s' : Sys α) (t : List (Event α)),
    runFrom c s ops = some (s', t) → ∃ a', Spec.Trace c a t a' ∧ (a'.chaos = true ∨ Rep c s' a')
  | [], s, a, hr, s', t, h => by
    cases h
    exact ⟨a, .nil a, .inr hr⟩
  | op :: ops, s, a, hr, s', t, h => by
    simp only [runFrom] at h
    cases hs : step c s op with
    | none => rw [hs] at h; cases h
    | some x =>
      obtain ⟨s1, out⟩ := x
      rw [hs] at h
      simp only at h
      cases hrun : runFrom c s1 ops with
      | none => rw [hrun] at h; cases h
      | some y =>
        obtain ⟨s2, t2⟩ := y
        rw [hrun] at h
        cases h
        obtain ⟨a1, st, hr1⟩ := step_sim c hc s a hr op s1 out hs
        rcases hr1 with hch | hr1
        · exact ⟨a1, .cons st (chaos_trace c t2 a1 hch), .inl hch⟩
        · obtain ⟨a2, tr, hr2⟩ := simulate c hc ops s1 a1 hr1 _ t2 hrun
          exact ⟨a2, .cons st tr, hr2⟩

end
end Verif.PagedBuffer

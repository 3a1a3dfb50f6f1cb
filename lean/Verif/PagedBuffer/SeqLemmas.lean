import Verif.PagedBuffer.Lemmas
/- Single-threaded clients of `PagedBuffer`, and consequences of the trace specification. -/
namespace Verif.PagedBuffer
open Verif.Ring (slice splice)
section
variable {α : Type}

/-- Between two calls of a single-threaded client. -/
structure SeqRep (c : Config) (s : Sys α) (l : Spec.Log α) : Prop where
  ex : ∃ a, Rep c s a ∧ a.chaos = false ∧ l.stored = a.log.drop a.popped ∧ l.cursor = a.cursor - a.popped
  writer : s.writer = none
  reader : s.reader = none

theorem SeqRep.create (c : Config) (hc : c.Valid) : SeqRep c (Sys.create : Sys α) ⟨[], 0⟩ :=
  ⟨⟨_, create_rep c hc, rfl, by simp [Spec.St.init], by simp [Spec.St.init]⟩, rfl, rfl⟩

theorem Rep.noWriter {c : Config} {s : Sys α} {a : Spec.St α} (h : Rep c s a) (hw : s.writer = none) : a.log.length = a.pub := by
  have h1 := h.log; have h2 := h.len
  rw [hw] at h1 h2
  simp only [pending, unaccounted, List.append_nil, Nat.add_zero] at h1 h2
  rw [h1, h2]

theorem Rep.noReader {c : Config} {s : Sys α} {a : Spec.St α} (h : Rep c s a) (hw : s.reader = none) : a.r = none := by
  have h1 := h.reader
  rw [hw] at h1
  cases har : a.r with
  | none => rfl
  | some x => rw [har] at h1; exact h1.elim

theorem sim1 {c : Config} (hc : c.Valid) {s s' : Sys α} {a : Spec.St α} {op : Op α} {out : Out α} (hr : Rep c s a) (h : step c s op = some (s', out)) :
    ∃ a', Spec.Step c a op out a' ∧ (a'.chaos = true ∨ Rep c s' a') := step_sim c hc s a hr op s' out h

theorem runFrom_cons {c : Config} {s s1 s2 : Sys α} {op : Op α} {out : Out α} {ops : List (Op α)} {t : List (Event α)}
    (h : step c s op = some (s1, out)) (hr : runFrom c s1 ops = some (s2, t)) : runFrom c s (op :: ops) = some (s2, ⟨op, out⟩ :: t) := by
  simp only [runFrom, h, hr]

/-- Last part of a `Push`. -/
theorem seq_pages {c : Config} (hc : c.Valid) {s : Sys α} {a : Spec.St α} (hr : Rep c s a) (hch : a.chaos = false) (rest : List α)
    (hw : s.writer = some (.pages rest)) (hrd : s.reader = none) :
    ∃ s', step c s .pagesDone = some (s', .done) ∧ s'.writer = none ∧ s'.reader = none ∧ Rep c s' { a with pub := a.log.length, w := false } := by
  have s1 : step c s .pagesDone = some ({ s with store := s.store ++ newPages c rest.length rest, tailSize := newTail c rest.length rest s.tailSize, writer := none }, .done) := by simp only [step, hw]
  refine ⟨_, s1, rfl, hrd, ?_⟩
  obtain ⟨a', st, h⟩ := sim1 hc hr s1
  cases st with
  | chaos _ _ _ h1 _ => rw [hch] at h1; cases h1
  | pagesDone _ => exact h.resolve_left (by simp [hch])

theorem seq_push {c : Config} (hc : c.Valid) {s : Sys α} {l : Spec.Log α} (h : SeqRep c s l) (d : List α) :
    ∃ s' t, runFrom c s (callSteps c s (.push d)) = some (s', t) ∧ seen t = ([], some .done) ∧ SeqRep c s' ⟨l.stored ++ d, l.cursor⟩ := by
  obtain ⟨⟨a, hr, hch, hl, hcu⟩, hw, hrd⟩ := h
  have hlen := hr.noWriter hw
  have hpp := hr.poppedPub
  have hcnt : ¬ (s.count = 0 ∧ s.tailSize ≠ 0) := by
    rintro ⟨h0, h1⟩
    have h2 := hr.count
    have := hr.popped
    rw [h0] at h2
    omega
  have hfin : ∀ s', Rep c s' ({ a with log := a.log ++ d, w := false, pub := (a.log ++ d).length } : Spec.St α) → s'.writer = none → s'.reader = none →
      SeqRep c s' ⟨l.stored ++ d, l.cursor⟩ := by
    intro s' hr' h1 h2
    refine ⟨⟨_, hr', hch, ?_, hcu⟩, h1, h2⟩
    simp only
    rw [List.drop_append_of_le_length (by omega), hl]
  by_cases ht : 0 < s.tailSize
  · have s1 : step c s (.push d) = some ({ s with writer := some (.tail (d.take (min s.tailSize d.length)) (d.drop (min s.tailSize d.length)) false) }, .inProgress) := by
      simp only [step, hw]; rw [if_neg hcnt, if_pos ht]
    obtain ⟨a1, st1, r1⟩ := sim1 hc hr s1
    cases st1 with
    | chaos _ _ _ h1 _ => rw [hch] at h1; cases h1
    | push _ _ =>
      have r1 := r1.resolve_left (by simp [hch])
      obtain ⟨s2, e2⟩ : ∃ s2, s2 = ({ ({ s with writer := some (.tail (d.take (min s.tailSize d.length)) (d.drop (min s.tailSize d.length)) false) } : Sys α) with
        store := s.store.dropLast ++ [splice (s.store.getLast?.getD []) (c.pageSize - s.tailSize) (d.take (min s.tailSize d.length))],
        writer := some (.tail (d.take (min s.tailSize d.length)) (d.drop (min s.tailSize d.length)) true) } : Sys α) := ⟨_, rfl⟩
      have st2 : step c { s with writer := some (.tail (d.take (min s.tailSize d.length)) (d.drop (min s.tailSize d.length)) false) } .tailWritten = some (s2, .done) := by
        subst e2; simp only [step]
      obtain ⟨a2, sp2, r2⟩ := sim1 hc r1 st2
      cases sp2 with
      | chaos _ _ _ h1 _ => simp only [hch] at h1; cases h1
      | tailWritten _ =>
        have r2 := r2.resolve_left (by simp [hch])
        have st3 : step c s2 .tailDone = some ({ s2 with tailSize := s2.tailSize - (d.take (min s.tailSize d.length)).length, writer := some (.pages (d.drop (min s.tailSize d.length))) }, .done) := by
          subst e2; simp only [step]
        obtain ⟨a3, sp3, r3⟩ := sim1 hc r2 st3
        cases sp3 with
        | chaos _ _ _ h1 _ => simp only [hch] at h1; cases h1
        | tailDone p _ _ _ =>
          have r3 := r3.resolve_left (by simp [hch])
          obtain ⟨s4, st4, w4, rd4, r4⟩ := seq_pages hc r3 (by simp [hch]) _ rfl (by simp only; rw [e2]; exact hrd)
          have hcs : callSteps c s (.push d) = [.push d, .tailWritten, .tailDone, .pagesDone] := if_pos ht
          rw [hcs]
          exact ⟨s4, _, runFrom_cons s1 (runFrom_cons st2 (runFrom_cons st3 (runFrom_cons st4 rfl))), rfl, hfin s4 r4 w4 rd4⟩
  · have s1 : step c s (.push d) = some ({ s with writer := some (.pages d) }, .inProgress) := by
      simp only [step, hw]; rw [if_neg hcnt, if_neg ht]
    obtain ⟨a1, st1, r1⟩ := sim1 hc hr s1
    cases st1 with
    | chaos _ _ _ h1 _ => rw [hch] at h1; cases h1
    | push _ _ =>
      have r1 := r1.resolve_left (by simp [hch])
      obtain ⟨s4, st4, w4, rd4, r4⟩ := seq_pages hc r1 (by simp [hch]) _ rfl hrd
      have hcs : callSteps c s (.push d) = [.push d, .pagesDone] := if_neg ht
      rw [hcs]
      exact ⟨s4, _, runFrom_cons s1 (runFrom_cons st4 rfl), rfl, hfin s4 r4 w4 rd4⟩

/-- Bytes of the page at the cursor beyond the cursor. -/
theorem Rep.avail {c : Config} (hc : c.Valid) {s : Sys α} {a : Spec.St α} (hr : Rep c s a) (hw : s.writer = none) (hlt : a.cursor < a.pub) :
    s.currentOffset % c.pageSize < (s.store[s.first + s.currentOffset / c.pageSize]?.getD []).length := by
  have hP := hc.1
  have hin := hr.inPage hlt
  have hidx : s.first + s.currentOffset / c.pageSize < s.store.length := by
    unfold Sys.count at hin
    generalize s.currentOffset / c.pageSize = q at hin ⊢
    omega
  have hdm := Nat.div_add_mod s.currentOffset c.pageSize
  have hmod := Nat.mod_lt s.currentOffset hP
  by_cases hlast : s.first + s.currentOffset / c.pageSize + 1 = s.store.length
  · have hne : s.store ≠ [] := by intro h0; rw [h0] at hidx; simp at hidx
    have hfl := flatten_length c.pageSize s.store hr.full hne
    have hl : s.store[s.first + s.currentOffset / c.pageSize]?.getD [] = s.store.getLast?.getD [] := by
      rw [List.getLast?_eq_getElem?, ← hlast, Nat.add_sub_cancel]
    rw [hl]
    have hlen := hr.len; rw [hw] at hlen; simp only [unaccounted, Nat.add_zero] at hlen
    have hcu := hr.cursor
    have : s.store.length - 1 = s.first + s.currentOffset / c.pageSize := by rw [← hlast, Nat.add_sub_cancel]
    rw [this, Nat.mul_add] at hfl
    omega
  · have hmem : s.store[s.first + s.currentOffset / c.pageSize]?.getD [] ∈ s.store.dropLast := by
      have h2 : s.first + s.currentOffset / c.pageSize < s.store.dropLast.length := by rw [List.length_dropLast]; omega
      have h3 : s.store[s.first + s.currentOffset / c.pageSize]?.getD [] = s.store.dropLast[s.first + s.currentOffset / c.pageSize] := by
        rw [List.getElem?_eq_getElem hidx, Option.getD_some, List.getElem_dropLast]
      rw [h3]
      exact List.getElem_mem h2
    rw [hr.full _ hmem]
    exact hmod

theorem seq_read {c : Config} (hc : c.Valid) {s : Sys α} {l : Spec.Log α} (h : SeqRep c s l) (w : Nat) :
    ∃ s' t l', runFrom c s (callSteps c s (.read w)) = some (s', t) ∧ SeqRep c s' l' ∧ Spec.Call c l (.read w) (seen t).1 (seen t).2 l' := by
  obtain ⟨⟨a, hr, hch, hl, hcu⟩, hw, hrd⟩ := h
  have hlen := hr.noWriter hw
  have hpp := hr.poppedPub
  have har := hr.noReader hrd
  have hlo := hr.cursorLo
  have hhi := hr.cursorHi
  have hln := hr.len; rw [hw] at hln; simp only [unaccounted, Nat.add_zero] at hln
  have hsl : l.stored.length = a.pub - a.popped := by rw [hl, List.length_drop]; omega
  by_cases hn : nothingToRead c s = true
  · have s1 : step c s .read = some (s, .waiting) := by simp only [step, hrd]; rw [if_pos hn]
    have hx := hr.nothing.mp hn
    have hcs : callSteps c s (.read w) = [.read] := if_pos hn
    rw [hcs]
    exact ⟨s, _, l, runFrom_cons s1 rfl, ⟨⟨a, hr, hch, hl, hcu⟩, hw, hrd⟩, .wait l w (by omega)⟩
  · have hn' : ¬ (a.cursor ≤ a.pub ∧ a.pub - a.cursor < c.chunkSize) := fun hx => hn (hr.nothing.mpr hx)
    have hC := hc.2.1
    have hlt : a.cursor < a.pub := by omega
    have hin := hr.inPage hlt
    have hav := hr.avail hc hw hlt
    obtain ⟨k, hk⟩ : ∃ k, k = min w ((s.store[s.first + s.currentOffset / c.pageSize]?.getD []).length - s.currentOffset % c.pageSize) := ⟨_, rfl⟩
    have s1 : step c s .read = some ({ s with reader := some ⟨s.first + s.currentOffset / c.pageSize, s.currentOffset % c.pageSize, s.currentOffset, none⟩ }, .reading) := by
      simp only [step, hrd]; rw [if_neg hn, if_pos hin]
    obtain ⟨a1, st1, r1⟩ := sim1 hc hr s1
    cases st1 with
    | chaos _ _ _ h1 _ => rw [hch] at h1; cases h1
    | read _ _ =>
      have r1 := r1.resolve_left (by simp [hch])
      obtain ⟨b, hb⟩ : ∃ b, b = slice (s.store[s.first + s.currentOffset / c.pageSize]?.getD []) (s.currentOffset % c.pageSize) k := ⟨_, rfl⟩
      have s2 : step c { s with reader := some ⟨s.first + s.currentOffset / c.pageSize, s.currentOffset % c.pageSize, s.currentOffset, none⟩ } (.deliver k) =
          some ({ s with reader := some ⟨s.first + s.currentOffset / c.pageSize, s.currentOffset % c.pageSize, s.currentOffset, some k⟩ }, .bytes b) := by
        simp only [step]; rw [if_pos (by omega), hb]
      obtain ⟨a2, st2, r2⟩ := sim1 hc r1 s2
      cases st2 with
      | chaos _ _ _ h1 _ => simp only [hch] at h1; cases h1
      | deliver p _ dd h1 h2 =>
        simp only [Option.some.injEq, Prod.mk.injEq, and_true] at h1
        obtain ⟨rfl, rfl⟩ := h1
        have r2 := r2.resolve_left (by simp [hch])
        simp only at h2
        have s3 : step c { s with reader := some ⟨s.first + s.currentOffset / c.pageSize, s.currentOffset % c.pageSize, s.currentOffset, some k⟩ } (.readEnd false) =
            some ({ s with currentOffset := s.currentOffset + (k - k % c.chunkSize), reader := none }, .done) := by
          simp only [step, Bool.false_eq_true, ↓reduceIte]
        obtain ⟨a3, st3, r3⟩ := sim1 hc r2 s3
        cases st3 with
        | chaos _ _ _ h1 _ => simp only [hch] at h1; cases h1
        | readDisturbed _ p' k' h1 _ => simp at h1
        | readEnd p' k' h1 h3 =>
          simp only [Option.some.injEq, Prod.mk.injEq, true_and] at h1
          obtain ⟨rfl, rfl⟩ := h1
          have r3 := r3.resolve_left (by simp [hch])
          have hcs : callSteps c s (.read w) = [.read, .deliver k, .readEnd false] := by
            simp only [callSteps]; rw [if_neg hn, ← hk]
          rw [hcs]
          refine ⟨_, _, ⟨l.stored, l.cursor + (k - k % c.chunkSize)⟩, runFrom_cons s1 (runFrom_cons s2 (runFrom_cons s3 rfl)), ⟨⟨_, r3, hch, hl, ?_⟩, hw, rfl⟩, ?_⟩
          · simp only; rw [hcu]; omega
          · have e1 : (seen ([⟨.read, .reading⟩, ⟨.deliver k, .bytes ((a.log.drop a.cursor).take k)⟩, ⟨.readEnd false, .done⟩] : List (Event α))) =
                ((l.stored.drop l.cursor).take k, some .done) := by
              simp only [seen, List.flatMap_cons, List.flatMap_nil, List.append_nil, List.nil_append]
              rw [hl, hcu, List.drop_drop, show a.popped + (a.cursor - a.popped) = a.cursor from by omega]
              rfl
            have hfin := Spec.Call.read (c := c) l w k (by omega) (by omega) (by omega) (by omega)
            rw [show (seen _).1 = _ from congrArg Prod.fst e1, show (seen _).2 = _ from congrArg Prod.snd e1]
            exact hfin

theorem seq_call {c : Config} (hc : c.Valid) {s : Sys α} {l : Spec.Log α} (h : SeqRep c s l) (x : Call α) :
    ∃ s' t l', runFrom c s (callSteps c s x) = some (s', t) ∧ SeqRep c s' l' ∧ Spec.Call c l x (seen t).1 (seen t).2 l' := by
  cases x with
  | push d =>
    obtain ⟨s', t, h1, h2, h3⟩ := seq_push hc h d
    refine ⟨s', t, _, h1, h3, ?_⟩
    rw [h2]
    exact .push l d
  | read w => exact seq_read hc h w
  | pop n =>
    obtain ⟨⟨a, hr, hch, hl, hcu⟩, hw, hrd⟩ := h
    have hlen := hr.noWriter hw
    have hpp := hr.poppedPub
    have har := hr.noReader hrd
    have hlo := hr.cursorLo
    have hsl : l.stored.length = a.pub - a.popped := by rw [hl, List.length_drop]; omega
    have hst := hr.storage
    have key : ∀ s' out, step c s (.pop n) = some (s', out) → s'.writer = none → s'.reader = none →
        ∃ s' t l', runFrom c s (callSteps c s (.pop n)) = some (s', t) ∧ SeqRep c s' l' ∧ Spec.Call c l (.pop n) (seen t).1 (seen t).2 l' := by
      intro s' out h1 h2 h3
      obtain ⟨a', st, r⟩ := sim1 hc hr h1
      cases st with
      | chaos _ _ _ h1 _ => rw [hch] at h1; cases h1
      | pop _ g1 g2 g3 =>
        have r := r.resolve_left (by simp [hch])
        refine ⟨s', _, ⟨l.stored.drop n, l.cursor - n⟩, runFrom_cons h1 rfl, ⟨⟨_, r, hch, ?_, ?_⟩, h2, h3⟩, .pop l n (by omega) g2⟩
        · simp only; rw [hl, List.drop_drop]
        · simp only; omega
      | popQuiet _ g1 g2 g3 g4 =>
        have r := r.resolve_left (by simp [hch])
        refine ⟨s', _, ⟨l.stored.drop n, l.cursor - n⟩, runFrom_cons h1 rfl, ⟨⟨_, r, hch, ?_, ?_⟩, h2, h3⟩, .pop l n (by omega) g2⟩
        · simp only; rw [hl, List.drop_drop]
        · simp only; omega
      | popRange _ g1 =>
        exact ⟨s', _, l, runFrom_cons h1 rfl, ⟨⟨a, r.resolve_left (by simp [hch]), hch, hl, hcu⟩, h2, h3⟩, .popRange l n (by omega)⟩
      | popArg _ g1 g2 =>
        exact ⟨s', _, l, runFrom_cons h1 rfl, ⟨⟨a, r.resolve_left (by simp [hch]), hch, hl, hcu⟩, h2, h3⟩, .popArg l n (by omega) g2⟩
    by_cases h1 : storageSize c s < n
    · exact key s .outOfRange (by simp only [step]; rw [if_pos h1]) hw hrd
    · by_cases h2 : n % c.chunkSize ≠ 0
      · exact key s .badArg (by simp only [step]; rw [if_neg h1, if_pos h2]) hw hrd
      · have hs := show step c s (.pop n) = _ from by simp only [step]; rw [if_neg h1, if_neg h2]
        exact key _ .done hs hw hrd
  | seek n =>
    obtain ⟨⟨a, hr, hch, hl, hcu⟩, hw, hrd⟩ := h
    have hlen := hr.noWriter hw
    have hpp := hr.poppedPub
    have hsl : l.stored.length = a.pub - a.popped := by rw [hl, List.length_drop]; omega
    have hst := hr.storage
    have key : ∀ s' out, step c s (.seek n) = some (s', out) → s'.writer = none → s'.reader = none →
        ∃ s' t l', runFrom c s (callSteps c s (.seek n)) = some (s', t) ∧ SeqRep c s' l' ∧ Spec.Call c l (.seek n) (seen t).1 (seen t).2 l' := by
      intro s' out h1 h2 h3
      obtain ⟨a', st, r⟩ := sim1 hc hr h1
      cases st with
      | chaos _ _ _ h1 _ => rw [hch] at h1; cases h1
      | seek _ g1 g2 =>
        have r := r.resolve_left (by simp [hch])
        refine ⟨s', _, ⟨l.stored, n⟩, runFrom_cons h1 rfl, ⟨⟨_, r, hch, hl, ?_⟩, h2, h3⟩, .seek l n (by omega) g2⟩
        simp only; omega
      | seekRange _ g1 =>
        exact ⟨s', _, l, runFrom_cons h1 rfl, ⟨⟨a, r.resolve_left (by simp [hch]), hch, hl, hcu⟩, h2, h3⟩, .seekRange l n (by omega)⟩
      | seekArg _ g1 g2 =>
        exact ⟨s', _, l, runFrom_cons h1 rfl, ⟨⟨a, r.resolve_left (by simp [hch]), hch, hl, hcu⟩, h2, h3⟩, .seekArg l n (by omega) g2⟩
    by_cases h1 : storageSize c s < n
    · exact key s .outOfRange (by simp only [step]; rw [if_pos h1]) hw hrd
    · by_cases h2 : n % c.chunkSize ≠ 0
      · exact key s .badArg (by simp only [step]; rw [if_neg h1, if_pos h2]) hw hrd
      · have hs := show step c s (.seek n) = _ from by simp only [step]; rw [if_neg h1, if_neg h2]
        exact key _ .done hs hw hrd
  | size =>
    obtain ⟨⟨a, hr, hch, hl, hcu⟩, hw, hrd⟩ := h
    have hlen := hr.noWriter hw
    have hsl : l.stored.length = a.pub - a.popped := by rw [hl, List.length_drop]; omega
    refine ⟨s, _, l, runFrom_cons rfl rfl, ⟨⟨a, hr, hch, hl, hcu⟩, hw, hrd⟩, ?_⟩
    rw [hr.storage, ← hsl]
    exact .size l

theorem seq_calls {c : Config} (hc : c.Valid) : ∀ (xs : List (Call α)) (s : Sys α) (l : Spec.Log α), SeqRep c s l →
    ∃ s' r l', calls c s xs = some (s', r) ∧ r.map (·.1) = xs ∧ Spec.Calls c l r l'
  | [], s, l, _ => ⟨s, [], l, rfl, rfl, .nil l⟩
  | x :: xs, s, l, h => by
    obtain ⟨s1, t1, l1, h1, h2, h3⟩ := seq_call hc h x
    obtain ⟨s2, r2, l2, g1, g2, g3⟩ := seq_calls hc xs s1 l1 h2
    refine ⟨s2, (x, (seen t1).1, (seen t1).2) :: r2, l2, ?_, ?_, .cons h3 g3⟩
    · simp only [calls, h1, g1]
    · simp only [List.map_cons, g2]

/-! ### Traces -/

/-- The blocks of `bs` lie in any extension of the log. -/
theorem Disjoint.mono (l m : List α) : ∀ (bs : List (List α)) (lo : Nat), Spec.Disjoint l lo bs → Spec.Disjoint (l ++ m) lo bs
  | [], _, _ => trivial
  | b :: bs, lo, ⟨p, h1, h2, h3, h4⟩ => by
    refine ⟨p, h1, by rw [List.length_append]; omega, ?_, Disjoint.mono l m bs _ h4⟩
    rw [List.drop_append_of_le_length (by omega), List.take_append_of_le_length (by rw [List.length_drop]; omega)]
    exact h3

theorem Disjoint.weaken (l : List α) (bs : List (List α)) (lo lo' : Nat) (h : lo' ≤ lo) (hd : Spec.Disjoint l lo bs) : Spec.Disjoint l lo' bs := by
  cases bs with
  | nil => trivial
  | cons b bs => obtain ⟨p, h1, h2⟩ := hd; exact ⟨p, by omega, h2⟩

/-- The first position from which later blocks can come. -/
def Spec.St.low (c : Config) (a : Spec.St α) : Nat :=
  match a.r with
  | some (p, _, some k) => p + k
  | _ => a.cursor

theorem trace_disjoint (c : Config) : ∀ (t : List (Event α)) (a a' : Spec.St α), Spec.Trace c a t a' → a.chaos = false →
    (∀ p d k, a.r = some (p, d, k) → d = false ∧ a.cursor = p ∧ (∀ k', k = some k' → k' % c.chunkSize = 0)) →
    Spec.calm a.r.isSome t → (∀ n, .seek n ∉ t.map (·.op)) → (.readEnd true ∉ t.map (·.op)) →
    (∀ k, .deliver k ∈ t.map (·.op) → k % c.chunkSize = 0) →
    a'.log = a.log ++ Spec.pushed t ∧ Spec.Disjoint a'.log (a.low c) (Spec.taken t)
  | [], a, a', h, _, _, _, _, _, _ => by
    cases h
    exact ⟨by simp [Spec.pushed], trivial⟩
  | e :: t, a, a', h, hch, hrd, hcalm, hseek, hcan, hk => by
    cases h with
    | @cons _ a1 _ _ _ st tr =>
    obtain ⟨op, out⟩ := e
    simp only at st
    simp only [List.map_cons, List.mem_cons, not_or] at hseek hcan
    have hseek' : ∀ n, .seek n ∉ t.map (·.op) := fun n => (hseek n).2
    have hk' : ∀ k, .deliver k ∈ t.map (·.op) → k % c.chunkSize = 0 := fun k h => hk k (by simp only [List.map_cons]; exact List.mem_cons_of_mem _ h)
    have ih := trace_disjoint c t a1 a' tr
    cases st with
    | chaos _ _ _ h1 _ => rw [hch] at h1; cases h1
    | push d h1 =>
      obtain ⟨i1, i2⟩ := ih hch hrd hcalm hseek' hcan.2 hk'
      exact ⟨by rw [i1]; simp [Spec.pushed], i2⟩
    | tailWritten h1 => exact ih hch hrd hcalm hseek' hcan.2 hk'
    | tailDone p h1 h2 h3 => exact ih hch hrd hcalm hseek' hcan.2 hk'
    | pagesDone h1 => exact ih hch hrd hcalm hseek' hcan.2 hk'
    | busy h1 => exact ih hch hrd hcalm hseek' hcan.2 hk'
    | wait h1 h2 h3 => exact ih hch hrd hcalm hseek' hcan.2 hk'
    | broken h1 h2 h3 => exact ih hch hrd hcalm hseek' hcan.2 hk'
    | read h1 h2 =>
      obtain ⟨i1, i2⟩ := ih hch (by intro p d k hx; simp only [Option.some.injEq, Prod.mk.injEq] at hx; obtain ⟨rfl, rfl, rfl⟩ := hx; exact ⟨rfl, rfl, fun _ h => by cases h⟩)
        hcalm hseek' hcan.2 hk'
      refine ⟨i1, ?_⟩
      simp only [Spec.St.low, h1] at i2 ⊢
      exact i2
    | deliver p k d h1 h2 =>
      obtain ⟨g1, g2, g3⟩ := hrd p d none h1
      have hkk := hk k (by simp)
      obtain ⟨i1, i2⟩ := ih hch (by
          intro p' d' k' hx; simp only [Option.some.injEq, Prod.mk.injEq] at hx; obtain ⟨rfl, rfl, rfl⟩ := hx
          exact ⟨g1, g2, fun k' h => by cases h; exact hkk⟩)
        (by simp only [Spec.calm, h1] at hcalm ⊢; exact hcalm) hseek' hcan.2 hk'
      refine ⟨i1, ?_⟩
      simp only [Spec.St.low] at i2
      simp only at i1
      have hb : ((a.log.drop p).take k).length = k := by rw [List.length_take, List.length_drop]; omega
      refine ⟨p, by simp only [Spec.St.low, h1]; omega, ?_, ?_, ?_⟩
      · rw [hb, i1, List.length_append]; omega
      · rw [hb, i1, List.drop_append_of_le_length (by omega), List.take_append_of_le_length (by rw [List.length_drop]; omega)]
      · rw [hb]; exact i2
    | readEnd p k h1 h2 =>
      obtain ⟨g1, g2, g3⟩ := hrd p false (some k) h1
      obtain ⟨i1, i2⟩ := ih hch (by intro p' d' k' hx; simp at hx) hcalm hseek' hcan.2 hk'
      refine ⟨i1, ?_⟩
      simp only [Spec.St.low, h1] at i2 ⊢
      have := g3 k rfl
      rw [this, h2] at i2
      exact i2
    | readCancelled p k d h1 => exact absurd rfl hcan.1
    | readDisturbed _ p k h1 h2 =>
      have := (hrd p true (some k) h1).1
      cases this
    | pop n h1 h2 h3 =>
      have hn : a.r = none := by
        have := hcalm.1
        cases har : a.r with
        | none => rfl
        | some x => rw [har] at this; cases this
      have hcalm' := hcalm.2
      obtain ⟨i1, i2⟩ := ih hch (by intro p' d' k' hx; simp [hn, Spec.disturb] at hx) (by simpa [hn, Spec.disturb] using hcalm') hseek' hcan.2 hk'
      refine ⟨i1, ?_⟩
      simp only [Spec.St.low, hn, Spec.disturb] at i2 ⊢
      exact Disjoint.weaken _ _ _ _ (by omega) i2
    | popRange n h1 => exact ih hch hrd hcalm hseek' hcan.2 hk'
    | popArg n h1 h2 => exact ih hch hrd hcalm hseek' hcan.2 hk'
    | popQuiet n h1 h2 h3 h4 => exact ih hch hrd hcalm.2 hseek' hcan.2 hk'
    | seek n h1 h2 => exact absurd rfl (hseek n).1
    | seekRange n h1 => exact absurd rfl (hseek n).1
    | seekArg n h1 h2 => exact absurd rfl (hseek n).1
    | size => exact ih hch hrd hcalm hseek' hcan.2 hk'

end
end Verif.PagedBuffer

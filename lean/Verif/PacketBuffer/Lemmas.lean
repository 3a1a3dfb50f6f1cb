import Verif.Ring.Lemmas
import Verif.PacketBuffer.Spec
set_option linter.unusedSectionVars false
namespace Verif.PacketBuffer
open Verif.Ring
section
variable {α μ : Type}

def flat (l : List (Packet α μ)) : List α := (l.map Packet.data).flatten

theorem flat_append (a b : List (Packet α μ)) : flat (a ++ b) = flat a ++ flat b := by simp [flat]
theorem flat_cons (p : Packet α μ) (b : List (Packet α μ)) : flat (p :: b) = p.data ++ flat b := by simp [flat]
theorem flat_nil : flat ([] : List (Packet α μ)) = [] := rfl

theorem readSize_contig (r : Ring α) (hc : r.contiguous = true) : r.readSize = r.dataSize := by
  unfold Ring.readSize Ring.dataSize; simp [hc]

theorem readSize_wrapped (r : Ring α) (hc : r.contiguous = false) : r.readSize = r.storageSize - r.readOffset := by
  unfold Ring.readSize; simp [hc]

/-- How the packets lie in the buffer: `A` before and `B` after the end of the storage, padding at the end. -/
structure Layout (r : Ring α) (padding : Nat) (q A B : List (Packet α μ)) (pad : List α) : Prop where
  split : q = A ++ B
  contents : r.contents = flat A ++ (pad ++ flat B)
  window : r.readSize = (flat A).length + pad.length
  padding : pad.length = padding
  contig : r.contiguous = true → pad = []

theorem Layout.ofContig (r : Ring α) (h : r.Inv) (q : List (Packet α μ)) (hc : r.contiguous = true) (hq : r.contents = flat q) :
    Layout r 0 q q [] [] :=
  ⟨by simp, by simp [hq, flat_nil], by rw [readSize_contig r hc, ← Ring.length_contents r h, hq]; simp, rfl, fun _ => rfl⟩

/-- In a contiguous state everything is before the end of the storage. -/
theorem Layout.contigAll {r : Ring α} (h : r.Inv) {padding : Nat} {q A B : List (Packet α μ)} {pad : List α} (hl : Layout r padding q A B pad)
    (hc : r.contiguous = true) : padding = 0 ∧ r.contents = flat q := by
  have hp := hl.contig hc
  refine ⟨by rw [← hl.padding, hp]; rfl, ?_⟩
  rw [hl.contents, hp, hl.split, flat_append]; rfl

/-- Representation invariant. -/
structure Rep (cap : Nat) (s : Sys α μ) (a : Spec.St α μ) : Prop where
  inv : s.ring.Inv
  cap : s.ring.storageSize = cap
  queue : s.queue = a.q.map (fun p => (p.data.length, p.metadata))
  eod : s.eod = a.eod
  layout : ∃ A B pad, Layout s.ring s.padding a.q A B pad ∧ (a.r ≠ none → A ≠ [])
  writer : match s.writer, a.w with
    | none, none => True
    | some ⟨off, p, copied⟩, some p' => off = s.ring.writeOffset ∧ p = p' ∧ p.data.length ≤ s.ring.writeSize ∧
        (copied = true → slice s.ring.storage off p.data.length = p.data)
    | _, _ => False
  reader : match s.reader, a.r with
    | none, none => True
    | some ⟨off, n, md⟩, some p => off = s.ring.readOffset ∧ n = p.data.length ∧ md = p.metadata ∧ ∃ ps, a.q = p :: ps
    | _, _ => False

/-- The writer in progress is unaffected by advancing the read offset. -/
theorem writer_advanceRead (s : Sys α μ) (a : Spec.St α μ) (h : s.ring.Inv) (n : Nat) (hn : n ≤ s.ring.readSize)
    (hw : match s.writer, a.w with
      | none, none => True
      | some ⟨off, p, copied⟩, some p' => off = s.ring.writeOffset ∧ p = p' ∧ p.data.length ≤ s.ring.writeSize ∧
          (copied = true → slice s.ring.storage off p.data.length = p.data)
      | _, _ => False) :
    match s.writer, a.w with
      | none, none => True
      | some ⟨off, p, copied⟩, some p' => off = (s.ring.advanceRead n).writeOffset ∧ p = p' ∧ p.data.length ≤ (s.ring.advanceRead n).writeSize ∧
          (copied = true → slice (s.ring.advanceRead n).storage off p.data.length = p.data)
      | _, _ => False := by
  cases hsw : s.writer with
  | none =>
    rw [hsw] at hw
    cases haw : a.w with
    | none => trivial
    | some b => rw [haw] at hw; exact hw.elim
  | some w =>
    obtain ⟨off, p, cp⟩ := w
    rw [hsw] at hw
    cases haw : a.w with
    | none => rw [haw] at hw; exact hw.elim
    | some p' =>
      rw [haw] at hw
      obtain ⟨e1, e2, e3, e4⟩ := hw
      refine ⟨by rw [e1, Ring.advanceRead_writeOffset], e2, Nat.le_trans e3 (Ring.advanceRead_writeSize _ h n hn), ?_⟩
      intro h; rw [Ring.advanceRead_storage]; exact e4 h

theorem writer_none {cap : Nat} {s : Sys α μ} {a : Spec.St α μ} (hr : Rep cap s a) (h : s.writer = none) : a.w = none := by
  have := hr.writer; rw [h] at this
  cases haw : a.w with
  | none => rfl
  | some b => rw [haw] at this; exact this.elim

theorem reader_none {cap : Nat} {s : Sys α μ} {a : Spec.St α μ} (hr : Rep cap s a) (h : s.reader = none) : a.r = none := by
  have := hr.reader; rw [h] at this
  cases haw : a.r with
  | none => rfl
  | some b => rw [haw] at this; exact this.elim

theorem storage_zero_contents (r : Ring α) (h : r.Inv) (hz : r.storageSize = 0) : r.contents = [] := by
  have := Ring.dataSize_le r h
  apply List.eq_nil_of_length_eq_zero
  rw [Ring.length_contents r h]; omega

/-- Layout after a packet was pushed. -/
theorem push_layout (r : Ring α) (h : r.Inv) {padding : Nat} {q A B : List (Packet α μ)} {pad : List α} (hl : Layout r padding q A B pad)
    (p : Packet α μ) (hn : p.data.length ≤ r.writeSize) (hd : slice r.storage r.writeOffset p.data.length = p.data) :
    ∃ A' B' pad', Layout (r.advanceWrite p.data.length) padding (q ++ [p]) A' B' pad' ∧ (A ≠ [] → A' ≠ []) := by
  have hinv := Ring.advanceWrite_inv r h _ hn
  have hcon := Ring.advanceWrite_contents r h _ hn
  have hflat : flat [p] = p.data := by simp [flat]
  rw [hd] at hcon
  cases hc : r.contiguous with
  | true =>
    obtain ⟨h0, hq⟩ := hl.contigAll h hc
    subst h0
    have hcon' : (r.advanceWrite p.data.length).contents = flat (q ++ [p]) := by rw [hcon, hq, flat_append, hflat]
    by_cases hE : r.writeOffset + p.data.length = r.storageSize
    · refine ⟨q ++ [p], [], [], ⟨by simp, by rw [hcon']; simp [flat_nil], ?_, rfl, fun _ => rfl⟩, by simp⟩
      have e : r.advanceWrite p.data.length = { r with writeOffset := 0, contiguous := false } := by
        unfold Ring.advanceWrite; rw [if_pos hE, hc]; rfl
      have : (r.advanceWrite p.data.length).readSize = (r.advanceWrite p.data.length).dataSize := by
        rw [e]; unfold Ring.readSize Ring.dataSize Ring.storageSize; simp
      rw [this, ← Ring.length_contents _ hinv, hcon']; simp
    · have hc' : (r.advanceWrite p.data.length).contiguous = true := by
        unfold Ring.advanceWrite; rw [if_neg hE]; exact hc
      exact ⟨q ++ [p], [], [], Layout.ofContig _ hinv _ hc' hcon', by simp⟩
  | false =>
    by_cases hE : r.writeOffset + p.data.length = r.storageSize
    · -- only with an empty storage
      have h2 := h.wrapped hc
      have hws : r.writeSize = r.readOffset - r.writeOffset := by unfold Ring.writeSize; simp [hc]
      have hz : r.storageSize = 0 := h.roEnd (by have := h.ro; omega)
      have c0 := storage_zero_contents r h hz
      have hc' : (r.advanceWrite p.data.length).contiguous = true := by
        unfold Ring.advanceWrite; rw [if_pos hE, hc]; rfl
      have hz' : (r.advanceWrite p.data.length).storageSize = 0 := by unfold Ring.storageSize; rw [Ring.advanceWrite_storage]; exact hz
      have c0' := storage_zero_contents _ hinv hz'
      have hp0 : p.data = [] := by rw [c0, c0'] at hcon; simpa using hcon.symm
      have hqc := hl.contents
      rw [c0] at hqc
      have hpad : pad = [] ∧ flat A = [] ∧ flat B = [] := by
        have := hqc.symm; simp only [List.append_eq_nil_iff] at this; exact ⟨this.2.1, this.1, this.2.2⟩
      have hpd : padding = 0 := by rw [← hl.padding, hpad.1]; rfl
      subst hpd
      refine ⟨q ++ [p], [], [], Layout.ofContig _ hinv _ hc' ?_, by simp⟩
      rw [c0', flat_append, hl.split, flat_append, hpad.2.1, hpad.2.2, hflat, hp0]; rfl
    · have e : r.advanceWrite p.data.length = { r with writeOffset := r.writeOffset + p.data.length } := by
        unfold Ring.advanceWrite; rw [if_neg hE]
      refine ⟨A, B ++ [p], pad, ⟨by rw [hl.split, List.append_assoc], ?_, ?_, hl.padding, ?_⟩, id⟩
      · rw [hcon, hl.contents, flat_append, hflat]; simp [List.append_assoc]
      · rw [← hl.window, e]; unfold Ring.readSize Ring.storageSize; simp [hc]
      · rw [e]; intro hx; simp [hc] at hx

/-- Layout after the padding was pushed. -/
theorem padding_layout (r : Ring α) (h : r.Inv) {q A B : List (Packet α μ)} {padding : Nat} {pad : List α} (hl : Layout r padding q A B pad)
    (n : Nat) (hn : n ≤ r.storageSize) (hp : paddingFor r n ≠ 0) :
    paddingFor r n = r.writeSize ∧ r.contiguous = true ∧
    ∃ pad', Layout (r.advanceWrite (paddingFor r n)) (paddingFor r n) q q [] pad' := by
  unfold paddingFor at *
  cases hcond : (decide (r.writeSize < n) && writerAtEnd r) with
  | false => rw [hcond] at hp; simp at hp
  | true =>
    rw [hcond] at hp
    simp only [↓reduceIte] at hp ⊢
    rw [Bool.and_eq_true] at hcond
    obtain ⟨c1, c2⟩ := hcond
    simp only [decide_eq_true_eq] at c1
    unfold writerAtEnd at c2
    simp only [decide_eq_true_eq] at c2
    have hc : r.contiguous = true := by
      cases hc : r.contiguous with
      | true => rfl
      | false =>
        have h2 := h.wrapped hc
        have hws : r.writeSize = r.readOffset - r.writeOffset := by unfold Ring.writeSize; simp [hc]
        have := h.ro
        have := h.roEnd (by omega)
        omega
    refine ⟨trivial, hc, slice r.storage r.writeOffset r.writeSize, ?_⟩
    obtain ⟨h0, hq⟩ := hl.contigAll h hc
    have hinv := Ring.advanceWrite_inv r h r.writeSize (Nat.le_refl _)
    have hcon := Ring.advanceWrite_contents r h r.writeSize (Nat.le_refl _)
    have hlen : (slice r.storage r.writeOffset r.writeSize).length = r.writeSize := by
      rw [length_slice]; unfold Ring.storageSize at c2; omega
    have e : r.advanceWrite r.writeSize = { r with writeOffset := 0, contiguous := false } := by
      unfold Ring.advanceWrite; rw [if_pos c2, hc]; rfl
    refine ⟨by simp, by rw [hcon, hq]; simp [flat_nil], ?_, hlen, ?_⟩
    · have : (r.advanceWrite r.writeSize).readSize = (r.advanceWrite r.writeSize).dataSize := by
        rw [e]; unfold Ring.readSize Ring.dataSize Ring.storageSize; simp
      rw [this, ← Ring.length_contents _ hinv, hcon, hq, List.length_append]
    · rw [e]; intro hx; simp at hx

/-- Layout after the first packet was removed. -/
theorem pop_layout (r : Ring α) (h : r.Inv) {padding : Nat} {q A B : List (Packet α μ)} {pad : List α} {p : Packet α μ}
    (hl : Layout r padding (p :: q) (p :: A) B pad) :
    p.data.length ≤ r.readSize ∧ slice r.storage r.readOffset p.data.length = p.data ∧ (r.advanceRead p.data.length).Inv ∧
    ∃ A' B' pad', Layout (r.advanceRead p.data.length) padding q A' B' pad' := by
  have hw := hl.window
  rw [flat_cons, List.length_append] at hw
  have hn : p.data.length ≤ r.readSize := by omega
  have hinv := Ring.advanceRead_inv r h _ hn
  have hcon := Ring.advanceRead_contents r h _ hn
  have hlc := hl.contents
  rw [flat_cons, List.append_assoc] at hlc
  have hq : q = A ++ B := by have := hl.split; simpa using this
  rw [hlc, List.drop_left] at hcon
  refine ⟨hn, ?_, hinv, ?_⟩
  · rw [Ring.slice_read r h _ hn, hlc, List.take_left]
  · have hds := Ring.advanceRead_dataSize r h _ hn
    by_cases hE : r.readOffset + p.data.length = r.storageSize
    · cases hc : r.contiguous with
      | true =>
        -- only with an empty storage
        have h1 := h.contig hc
        have hrs := readSize_contig r hc
        have e1 : r.dataSize = r.writeOffset - r.readOffset := by unfold Ring.dataSize; simp [hc]
        have := h.wo
        have hz := h.woEnd (by omega)
        have hz' : (r.advanceRead p.data.length).storageSize = 0 := by unfold Ring.storageSize; rw [Ring.advanceRead_storage]; exact hz
        have c0' := storage_zero_contents _ hinv hz'
        rw [c0'] at hcon
        have hx : flat A = [] ∧ pad = [] ∧ flat B = [] := by
          have := hcon.symm; simp only [List.append_eq_nil_iff] at this; exact ⟨this.1, this.2.1, this.2.2⟩
        refine ⟨A, B, [], ⟨hq, by rw [c0', hx.1, hx.2.2]; rfl, ?_, by rw [← hl.padding, hx.2.1], fun _ => rfl⟩⟩
        have h9 := Ring.readSize_le _ hinv
        have h8 := Ring.dataSize_le _ hinv
        rw [hx.1]; simp only [List.length_nil]; omega
      | false =>
        have hrs := readSize_wrapped r hc
        have hx : flat A = [] ∧ pad = [] := by
          constructor <;> apply List.eq_nil_of_length_eq_zero <;> omega
        have hc' : (r.advanceRead p.data.length).contiguous = true := by
          unfold Ring.advanceRead; rw [if_pos hE, hc]; rfl
        have hp0 : padding = 0 := by rw [← hl.padding, hx.2]; rfl
        subst hp0
        refine ⟨q, [], [], Layout.ofContig _ hinv q hc' ?_⟩
        rw [hcon, hx.1, hx.2, hq, flat_append, hx.1]; rfl
    · have e : r.advanceRead p.data.length = { r with readOffset := r.readOffset + p.data.length } := by
        unfold Ring.advanceRead; rw [if_neg hE]
      refine ⟨A, B, pad, ⟨hq, hcon, ?_, hl.padding, ?_⟩⟩
      · have : (r.advanceRead p.data.length).readSize = r.readSize - p.data.length := by
          rw [e]; unfold Ring.readSize Ring.storageSize; simp only; split <;> omega
        omega
      · rw [e]; exact hl.contig

/-- Skipping the padding: afterwards the first packet lies in the read window. -/
theorem skipPadding_ok (cap : Nat) (s : Sys α μ) (a : Spec.St α μ) (hr : Rep cap s a) (hrd : s.reader = none) (p : Packet α μ)
    (ps : List (Packet α μ)) (hq : a.q = p :: ps) :
    ∃ s', skipPadding s = some s' ∧ Rep cap s' a ∧ s'.reader = none ∧ s'.queue = s.queue ∧
      ∃ A B pad, Layout s'.ring s'.padding a.q (p :: A) B pad := by
  obtain ⟨A, B, pad, hl, _⟩ := hr.layout
  have har := reader_none hr hrd
  -- from a contiguous state the layout follows
  have hcl : ∀ (r : Ring α) (padding : Nat), r.Inv → r.contiguous = true → padding = 0 → r.contents = flat a.q →
      ∃ A B pad, Layout r padding a.q (p :: A) B pad := by
    intro r padding hi hc h0 hcon
    subst h0
    have := Layout.ofContig r hi a.q hc hcon
    rw [hq] at this ⊢
    exact ⟨ps, [], [], this⟩
  unfold skipPadding
  by_cases hcond : s.ring.readSize = s.padding ∧ readerAtEnd s.ring = true
  · rw [if_pos hcond]
    obtain ⟨c1, c2⟩ := hcond
    unfold readerAtEnd at c2
    simp only [decide_eq_true_eq] at c2
    have hA : flat A = [] := by
      apply List.eq_nil_of_length_eq_zero
      have := hl.window; have := hl.padding; omega
    have hpop : s.ring.pop s.padding = some (s.ring.advanceRead s.padding) := by
      unfold Ring.pop; rw [if_pos (by omega)]
    rw [hpop]
    have hn : s.padding ≤ s.ring.readSize := by omega
    have hinv := Ring.advanceRead_inv _ hr.inv _ hn
    have hcon := Ring.advanceRead_contents _ hr.inv _ hn
    have hcon' : (s.ring.advanceRead s.padding).contents = flat a.q := by
      rw [hcon, hl.contents, hA, List.nil_append, ← hl.padding, List.drop_left, hl.split, flat_append, hA]; rfl
    have hE : s.ring.readOffset + s.padding = s.ring.storageSize := by omega
    have hlay : ∃ A B pad, Layout (s.ring.advanceRead s.padding) 0 a.q (p :: A) B pad := by
      cases hc : s.ring.contiguous with
      | false =>
        apply hcl _ _ hinv _ rfl hcon'
        unfold Ring.advanceRead; rw [if_pos hE, hc]; rfl
      | true =>
        -- only with an empty storage
        have h0 := (hl.contigAll hr.inv hc).1
        have hz : s.ring.storageSize = 0 := hr.inv.roEnd (by omega)
        have hz' : (s.ring.advanceRead s.padding).storageSize = 0 := by unfold Ring.storageSize; rw [Ring.advanceRead_storage]; exact hz
        have hrs : (s.ring.advanceRead s.padding).readSize = 0 := by
          have := Ring.readSize_le _ hinv; have := Ring.dataSize_le _ hinv; omega
        have c0 := storage_zero_contents _ hinv hz'
        rw [hcon'] at c0
        refine ⟨ps, [], [], ⟨by rw [hq]; simp, by rw [hcon', hq]; simp [flat_nil], ?_, rfl, fun _ => rfl⟩⟩
        rw [← hq, c0, hrs]; rfl
    refine ⟨_, rfl, ?_, hrd, rfl, hlay⟩
    refine ⟨hinv, by unfold Ring.storageSize; rw [Ring.advanceRead_storage]; exact hr.cap, hr.queue, hr.eod, ?_,
      writer_advanceRead s a hr.inv _ hn hr.writer, ?_⟩
    · obtain ⟨A', B', pad', hl'⟩ := hlay
      exact ⟨p :: A', B', pad', hl', fun _ => by simp⟩
    · simp only [hrd, har]
  · rw [if_neg hcond]
    refine ⟨s, rfl, hr, hrd, rfl, ?_⟩
    cases hc : s.ring.contiguous with
    | true =>
      obtain ⟨h0, hcon⟩ := hl.contigAll hr.inv hc
      exact hcl _ _ hr.inv hc h0 hcon
    | false =>
      have hend : readerAtEnd s.ring = true := by
        unfold readerAtEnd; rw [readSize_wrapped _ hc]
        have := hr.inv.ro; simp only [decide_eq_true_eq]; omega
      cases A with
      | nil =>
        exfalso; apply hcond
        refine ⟨?_, hend⟩
        have := hl.window; have := hl.padding
        simp only [flat_nil, List.length_nil] at *; omega
      | cons p' A =>
        have := hl.split
        rw [hq] at this
        simp only [List.cons_append, List.cons.injEq] at this
        obtain ⟨rfl, rfl⟩ := this
        exact ⟨A, B, pad, hl⟩

theorem drain_ok (r : Ring α) (h : r.Inv) :
    (drain 2 r).Inv ∧ (drain 2 r).contents = [] ∧ (drain 2 r).storage = r.storage ∧ (drain 2 r).writeOffset = r.writeOffset ∧
    (drain 2 r).contiguous = true ∨ ((drain 2 r).Inv ∧ (drain 2 r).contents = [] ∧ (drain 2 r).storage = r.storage ∧
      (drain 2 r).writeOffset = r.writeOffset ∧ r.storageSize = 0) := by
  have zero : ∀ r' : Ring α, r'.Inv → r'.readSize = 0 → r'.contents = [] ∧ (r'.contiguous = true ∨ r'.storageSize = 0) := by
    intro r' hi hz
    have := Ring.readSize_zero r' hi hz
    refine ⟨List.eq_nil_of_length_eq_zero (by rw [Ring.length_contents r' hi, this]), ?_⟩
    cases hc : r'.contiguous with
    | true => exact Or.inl rfl
    | false =>
      right
      have := readSize_wrapped r' hc
      have := hi.ro
      exact hi.roEnd (by omega)
  have fin : ∀ r' : Ring α, r'.Inv → r'.readSize = 0 → r'.storage = r.storage → r'.writeOffset = r.writeOffset →
      (r'.Inv ∧ r'.contents = [] ∧ r'.storage = r.storage ∧ r'.writeOffset = r.writeOffset ∧ r'.contiguous = true) ∨
      (r'.Inv ∧ r'.contents = [] ∧ r'.storage = r.storage ∧ r'.writeOffset = r.writeOffset ∧ r.storageSize = 0) := by
    intro r' hi hz hs hw
    obtain ⟨c1, c2⟩ := zero r' hi hz
    rcases c2 with c2 | c2
    · exact Or.inl ⟨hi, c1, hs, hw, c2⟩
    · refine Or.inr ⟨hi, c1, hs, hw, ?_⟩
      unfold Ring.storageSize at *; rw [← hs]; exact c2
  unfold drain
  by_cases h1 : r.readSize = 0
  · rw [if_pos h1]; exact fin r h h1 rfl rfl
  · rw [if_neg h1]
    have i1 := Ring.advanceRead_inv r h r.readSize (Nat.le_refl _)
    unfold drain
    by_cases h2 : (r.advanceRead r.readSize).readSize = 0
    · rw [if_pos h2]; exact fin _ i1 h2 (Ring.advanceRead_storage _ _) (Ring.advanceRead_writeOffset _ _)
    · rw [if_neg h2]
      unfold drain
      have i2 := Ring.advanceRead_inv _ i1 (r.advanceRead r.readSize).readSize (Nat.le_refl _)
      refine fin _ i2 ?_ (by rw [Ring.advanceRead_storage, Ring.advanceRead_storage]) (by rw [Ring.advanceRead_writeOffset, Ring.advanceRead_writeOffset])
      -- the second window covers all the data
      have hc : (r.advanceRead r.readSize).contiguous = true := by
        cases hc : r.contiguous with
        | false =>
          have := readSize_wrapped r hc
          have := h.ro
          unfold Ring.advanceRead; rw [if_pos (by omega), hc]; rfl
        | true =>
          exfalso; apply h2
          have e := readSize_contig r hc
          have d := Ring.advanceRead_dataSize r h r.readSize (Nat.le_refl _)
          have := Ring.readSize_le _ i1
          omega
      have e := readSize_contig _ hc
      have d := Ring.advanceRead_dataSize _ i1 (r.advanceRead r.readSize).readSize (Nat.le_refl _)
      have := Ring.readSize_le _ i2
      omega

theorem step_sim (discard : Bool) (cap : Nat) (s : Sys α μ) (a : Spec.St α μ) (hr : Rep cap s a) (op : Op α μ) :
    (step discard s op = none ∧ disabled s op = true) ∨
    ∃ s' out a', step discard s op = some (s', out) ∧ Rep cap s' a' ∧ Spec.Step discard cap a op out a' := by
  have hwn := writer_none hr
  have hrn := reader_none hr
  have hweq := hr.writer
  have hreq := hr.reader
  cases op with
  | process p =>
    by_cases h1 : s.ring.storageSize < p.data.length
    · right
      refine ⟨s, .tooBig, a, by simp only [step]; rw [if_pos h1], hr, .tooBig a p (by rw [← hr.cap]; exact h1)⟩
    · cases hw : s.writer with
      | some w => left; simp only [step, disabled, hw]; rw [if_neg h1]; exact ⟨rfl, rfl⟩
      | none =>
        right
        have haw := hwn hw
        simp only [step, hw]
        rw [if_neg h1]
        by_cases h2 : s.ring.freeSize < paddingFor s.ring p.data.length + p.data.length
        · rw [if_pos h2]
          cases discard with
          | true => exact ⟨s, .dropped, a, rfl, hr, .dropped a p rfl haw⟩
          | false => exact ⟨s, .waiting, a, rfl, hr, .full a p rfl haw⟩
        · rw [if_neg h2]
          obtain ⟨A, B, pad, hl, hne⟩ := hr.layout
          by_cases h3 : paddingFor s.ring p.data.length ≠ 0
          · rw [if_pos h3]
            obtain ⟨e1, e2, pad', hl'⟩ := padding_layout s.ring hr.inv hl p.data.length (by omega) h3
            have hfit := Ring.writeSize_fits _ hr.inv
            have hn : paddingFor s.ring p.data.length ≤ s.ring.writeSize := by omega
            have hpush : s.ring.push (paddingFor s.ring p.data.length) = some (s.ring.advanceWrite (paddingFor s.ring p.data.length)) := by
              unfold Ring.push; rw [if_pos (by omega)]
            rw [hpush]
            have hinv := Ring.advanceWrite_inv _ hr.inv _ hn
            refine ⟨_, _, { a with w := some p }, rfl, ?_, .process a p haw⟩
            refine ⟨hinv, by unfold Ring.storageSize; rw [Ring.advanceWrite_storage]; exact hr.cap, hr.queue, hr.eod, ⟨a.q, [], pad', hl', ?_⟩, ?_, ?_⟩
            · intro hx
              -- the reader holds a packet, so the queue is not empty
              cases har : a.r with
              | none => exact absurd har hx
              | some p0 =>
                rw [har] at hreq
                cases hrd : s.reader with
                | none => rw [hrd] at hreq; exact hreq.elim
                | some x =>
                  rw [hrd] at hreq
                  obtain ⟨_, _, _, ps, hps⟩ := hreq
                  rw [hps]; simp
            · refine ⟨rfl, rfl, ?_, by simp⟩
              -- room for the packet after the padding
              have hc := e2
              have hE : s.ring.writeOffset + s.ring.writeSize = s.ring.storageSize := by
                have e : s.ring.writeSize = s.ring.storageSize - s.ring.writeOffset := by unfold Ring.writeSize; simp [hc]
                have := hr.inv.wo; omega
              have e : s.ring.advanceWrite (paddingFor s.ring p.data.length) = { s.ring with writeOffset := 0, contiguous := false } := by
                unfold Ring.advanceWrite; rw [if_pos (by omega), hc]; rfl
              have e3 : s.ring.dataSize = s.ring.writeOffset - s.ring.readOffset := by unfold Ring.dataSize; simp [hc]
              have e4 := hr.inv.contig hc
              have e5 := hr.inv.wo
              unfold Ring.freeSize at h2
              simp only
              rw [e]
              unfold Ring.writeSize
              simp only [Bool.false_eq_true, ↓reduceIte]
              omega
            · cases hrd : s.reader with
              | none => simp only [hrn hrd]
              | some x =>
                obtain ⟨o, n, md⟩ := x
                rw [hrd] at hreq
                cases har : a.r with
                | none => rw [har] at hreq; exact hreq.elim
                | some p0 =>
                  rw [har] at hreq
                  obtain ⟨g1, g2⟩ := hreq
                  exact ⟨by rw [g1]; exact (Ring.advanceWrite_readOffset _ _).symm, g2⟩
          · rw [if_neg h3]
            refine ⟨_, _, { a with w := some p }, rfl, ?_, .process a p haw⟩
            refine ⟨hr.inv, hr.cap, hr.queue, hr.eod, ⟨A, B, pad, hl, hne⟩, ⟨rfl, rfl, ?_, by simp⟩, hr.reader⟩
            -- the packet fits into the window
            have h3' : paddingFor s.ring p.data.length = 0 := by
              rcases Nat.eq_zero_or_pos (paddingFor s.ring p.data.length) with h | h
              · exact h
              · exact absurd (Nat.pos_iff_ne_zero.mp h) h3
            show p.data.length ≤ s.ring.writeSize
            by_cases hlt : s.ring.writeSize < p.data.length
            · exfalso
              unfold Ring.freeSize at h2
              cases hc : s.ring.contiguous with
              | true =>
                have e : s.ring.writeSize = s.ring.storageSize - s.ring.writeOffset := by unfold Ring.writeSize; simp [hc]
                have h4 := hr.inv.wo
                have hend : writerAtEnd s.ring = true := by unfold writerAtEnd; simp only [decide_eq_true_eq]; omega
                unfold paddingFor at h3'
                rw [hend] at h3'
                simp only [Bool.and_true, decide_eq_true_eq] at h3'
                rw [if_pos hlt] at h3'
                have := hr.inv.woEnd (by omega)
                omega
              | false =>
                have e : s.ring.writeSize = s.ring.readOffset - s.ring.writeOffset := by unfold Ring.writeSize; simp [hc]
                have e2 : s.ring.dataSize = s.ring.storageSize - s.ring.readOffset + s.ring.writeOffset := by unfold Ring.dataSize; simp [hc]
                have := hr.inv.wrapped hc
                omega
            · omega
  | copy =>
    cases hw : s.writer with
    | none => left; exact ⟨by simp only [step, hw], by simp only [disabled, hw]; try rfl⟩
    | some w =>
      obtain ⟨off, p, cp⟩ := w
      cases cp with
      | true => left; exact ⟨by simp only [step, hw], by simp only [disabled, hw]; try rfl⟩
      | false =>
        right
        rw [hw] at hweq
        cases haw : a.w with
        | none => rw [haw] at hweq; exact hweq.elim
        | some p' =>
          rw [haw] at hweq
          obtain ⟨e1, e2, e3, e4⟩ := hweq
          subst e1; subst e2
          obtain ⟨c1, c2⟩ := Ring.splice_contents s.ring hr.inv p.data e3
          have hfit : s.ring.writeOffset + p.data.length ≤ s.ring.storage.length := by
            have := Ring.writeSize_fits s.ring hr.inv; unfold Ring.storageSize at this; omega
          have hsl := length_splice s.ring.storage s.ring.writeOffset p.data hfit
          have hws : ({ s.ring with storage := splice s.ring.storage s.ring.writeOffset p.data } : Ring α).writeSize = s.ring.writeSize := by
            unfold Ring.writeSize Ring.storageSize; simp only [hsl]
          have hrs : ({ s.ring with storage := splice s.ring.storage s.ring.writeOffset p.data } : Ring α).readSize = s.ring.readSize := by
            unfold Ring.readSize Ring.storageSize; simp only [hsl]
          obtain ⟨A, B, pad, hl, hne⟩ := hr.layout
          refine ⟨_, .done, a, by simp only [step, hw]; rfl, ?_, .copy a p haw⟩
          refine ⟨c2, ?_, hr.queue, hr.eod, ⟨A, B, pad, ⟨hl.split, by simp only; rw [c1]; exact hl.contents, by simp only; rw [hrs]; exact hl.window, hl.padding, hl.contig⟩, hne⟩, ?_, hreq⟩
          · unfold Ring.storageSize; simp only [hsl]; exact hr.cap
          · rw [haw]; exact ⟨rfl, rfl, by rw [hws]; exact e3, fun _ => slice_splice_self _ _ _ hfit⟩
  | pushed =>
    cases hw : s.writer with
    | none => left; exact ⟨by simp only [step, hw], by simp only [disabled, hw]; try rfl⟩
    | some w =>
      obtain ⟨off, p, cp⟩ := w
      cases cp with
      | false => left; exact ⟨by simp only [step, hw], by simp only [disabled, hw]; try rfl⟩
      | true =>
        right
        rw [hw] at hweq
        cases haw : a.w with
        | none => rw [haw] at hweq; exact hweq.elim
        | some p' =>
          rw [haw] at hweq
          obtain ⟨e1, e2, e3, e4⟩ := hweq
          subst e1; subst e2
          have hfit := Ring.writeSize_fits s.ring hr.inv
          have hpush : s.ring.push p.data.length = some (s.ring.advanceWrite p.data.length) := by
            unfold Ring.push; rw [if_pos (by omega)]
          obtain ⟨A, B, pad, hl, hne⟩ := hr.layout
          obtain ⟨A', B', pad', hl', hne'⟩ := push_layout s.ring hr.inv hl p e3 (e4 rfl)
          refine ⟨_, .accepted, { a with q := a.q ++ [p], w := none }, by simp only [step, hw, hpush]; rfl, ?_, .accepted a p haw⟩
          refine ⟨Ring.advanceWrite_inv _ hr.inv _ e3, by unfold Ring.storageSize; rw [Ring.advanceWrite_storage]; exact hr.cap,
            by simp only; rw [hr.queue]; simp, hr.eod, ⟨A', B', pad', hl', fun h => hne' (hne h)⟩, trivial, ?_⟩
          cases hrd : s.reader with
          | none => simp only [hrn hrd]
          | some x =>
            obtain ⟨o, n, md⟩ := x
            rw [hrd] at hreq
            cases har : a.r with
            | none => rw [har] at hreq; exact hreq.elim
            | some p0 =>
              rw [har] at hreq
              obtain ⟨g1, g2, g3, ps, g4⟩ := hreq
              exact ⟨by rw [g1]; exact (Ring.advanceWrite_readOffset _ _).symm, g2, g3, ps ++ [p], by simp only; rw [g4]; rfl⟩
  | read =>
    cases hrd : s.reader with
    | some x => left; exact ⟨by simp only [step, hrd], by simp only [disabled, hrd]; try rfl⟩
    | none =>
      right
      have har := hrn hrd
      cases hq : a.q with
      | nil =>
        have hsq : s.queue = [] := by rw [hr.queue, hq]; rfl
        cases he : s.eod with
        | true => exact ⟨s, .gotEod, a, by simp only [step, hrd, hsq, he]; rfl, hr, .eod a har hq (by rw [← hr.eod, he])⟩
        | false => exact ⟨s, .waiting, a, by simp only [step, hrd, hsq, he]; rfl, hr, .wait a har hq (by rw [← hr.eod, he])⟩
      | cons p ps =>
        have hsq : s.queue = (p.data.length, p.metadata) :: ps.map (fun p => (p.data.length, p.metadata)) := by rw [hr.queue, hq]; rfl
        obtain ⟨s', k1, k2, k3, k4, A, B, pad, hl⟩ := skipPadding_ok cap s a hr hrd p ps hq
        rw [hq] at hl
        obtain ⟨l1, l2, _, _⟩ := pop_layout s'.ring k2.inv hl
        refine ⟨{ s' with reader := some ⟨s'.ring.readOffset, p.data.length, p.metadata⟩ }, .offered p, { a with r := some p }, ?_, ?_, .offer a p ps har hq⟩
        · simp only [step, hrd, hsq, k1]; rw [if_pos l1, l2]
        · refine ⟨k2.inv, k2.cap, k2.queue, k2.eod, ⟨p :: A, B, pad, by simp only; rw [hq]; exact hl, fun _ => by simp⟩, k2.writer, ⟨rfl, rfl, rfl, ps, hq⟩⟩
  | consumed ok =>
    cases hrd : s.reader with
    | none => left; exact ⟨by simp only [step, hrd], by simp only [disabled, hrd]; try rfl⟩
    | some x =>
      obtain ⟨o, n, md⟩ := x
      right
      rw [hrd] at hreq
      cases har : a.r with
      | none => rw [har] at hreq; exact hreq.elim
      | some p =>
        rw [har] at hreq
        obtain ⟨g1, g2, g3, ps, g4⟩ := hreq
        obtain ⟨A, B, pad, hl, hne⟩ := hr.layout
        have hA := hne (by rw [har]; simp)
        cases A with
        | nil => exact absurd rfl hA
        | cons p' A =>
          have hsp := hl.split
          rw [g4] at hsp
          simp only [List.cons_append, List.cons.injEq] at hsp
          obtain ⟨rfl, hps⟩ := hsp
          rw [g4] at hl
          obtain ⟨l1, l2, l3, A', B', pad', l4⟩ := pop_layout s.ring hr.inv hl
          subst g1; subst g2
          cases ok with
          | false =>
            refine ⟨{ s with reader := none }, .seen p.data, { a with r := none }, ?_, ?_, .notConsumed a p har⟩
            · simp only [step, hrd, Bool.false_eq_true, ↓reduceIte]; rw [l2]
            · exact ⟨hr.inv, hr.cap, hr.queue, hr.eod, ⟨p :: A, B, pad, by simp only; rw [g4]; exact hl, fun _ => by simp⟩, hr.writer, trivial⟩
          | true =>
            have hpop : s.ring.pop p.data.length = some (s.ring.advanceRead p.data.length) := by
              have := Ring.readSize_fits _ hr.inv
              unfold Ring.pop; rw [if_pos (by omega)]
            refine ⟨{ s with ring := s.ring.advanceRead p.data.length, queue := s.queue.tail, reader := none }, .seen p.data,
              { a with q := ps, r := none }, ?_, ?_, .consumed a p ps har g4⟩
            · simp only [step, hrd, ↓reduceIte]; rw [hpop, l2]
            · refine ⟨l3, by unfold Ring.storageSize; rw [Ring.advanceRead_storage]; exact hr.cap, by simp only; rw [hr.queue, g4]; rfl, hr.eod,
                ⟨A', B', pad', l4, fun h => by simp at h⟩, writer_advanceRead s a hr.inv _ l1 hr.writer, trivial⟩
  | endOfData =>
    right
    exact ⟨{ s with eod := true }, .done, { a with eod := true }, rfl,
      ⟨hr.inv, hr.cap, hr.queue, rfl, hr.layout, hr.writer, hr.reader⟩, .endOfData a⟩
  | clear =>
    cases hrd : s.reader with
    | some x => left; exact ⟨by simp only [step, hrd], by simp only [disabled, hrd]; try rfl⟩
    | none =>
      right
      have har := hrn hrd
      have key : (drain 2 s.ring).Inv ∧ (drain 2 s.ring).contents = [] ∧ (drain 2 s.ring).storage = s.ring.storage ∧
          (drain 2 s.ring).writeOffset = s.ring.writeOffset ∧ s.ring.writeSize ≤ (drain 2 s.ring).writeSize ∧
          Layout (μ := μ) (drain 2 s.ring) 0 [] [] [] [] := by
        have hmono : s.ring.writeSize ≤ (drain 2 s.ring).writeSize := by
          have i1 := Ring.advanceRead_inv _ hr.inv s.ring.readSize (Nat.le_refl _)
          unfold drain
          split
          · exact Nat.le_refl _
          · unfold drain
            split
            · exact Ring.advanceRead_writeSize _ hr.inv _ (Nat.le_refl _)
            · unfold drain
              exact Nat.le_trans (Ring.advanceRead_writeSize _ hr.inv _ (Nat.le_refl _)) (Ring.advanceRead_writeSize _ i1 _ (Nat.le_refl _))
        rcases drain_ok s.ring hr.inv with ⟨d1, d2, d3, d4, d5⟩ | ⟨d1, d2, d3, d4, d5⟩
        · exact ⟨d1, d2, d3, d4, hmono, Layout.ofContig _ d1 [] d5 d2⟩
        · refine ⟨d1, d2, d3, d4, hmono, ⟨rfl, d2, ?_, rfl, fun _ => rfl⟩⟩
          have h1 := Ring.readSize_le _ d1
          have h2 := Ring.dataSize_le _ d1
          unfold Ring.storageSize at h2 d5
          rw [d3] at h2
          simp only [flat_nil, List.length_nil]; omega
      obtain ⟨d1, d2, d3, d4, d5, d6⟩ := key
      refine ⟨_, .done, { a with q := [], eod := false }, by simp only [step, hrd]; rfl, ?_, .clear a har⟩
      refine ⟨d1, by unfold Ring.storageSize; rw [d3]; exact hr.cap, rfl, rfl, ⟨[], [], [], d6, fun h => absurd har h⟩, ?_, ?_⟩
      · cases hw : s.writer with
        | none => simp only [hwn hw]
        | some w =>
          obtain ⟨off, p, cp⟩ := w
          rw [hw] at hweq
          cases haw : a.w with
          | none => rw [haw] at hweq; exact hweq.elim
          | some p' =>
            rw [haw] at hweq
            obtain ⟨e1, e2, e3, e4⟩ := hweq
            exact ⟨by rw [e1]; exact d4.symm, e2, Nat.le_trans e3 d5, fun h => by simp only; rw [d3]; exact e4 h⟩
      · simp only [hrd, har]

theorem create_rep (storage : List α) : Rep storage.length (Sys.create storage : Sys α μ) Spec.St.init := by
  refine ⟨Ring.create_inv _, rfl, rfl, rfl, ⟨[], [], [], ?_, fun h => absurd rfl h⟩, trivial, trivial⟩
  exact Layout.ofContig _ (Ring.create_inv _) [] rfl (Ring.create_contents _)

theorem simulate (discard : Bool) (cap : Nat) (ops : List (Op α μ)) :
    ∀ (s : Sys α μ) (a : Spec.St α μ), Rep cap s a → ∀ s' t, runFrom discard s ops = some (s', t) →
      ∃ a', Spec.Trace discard cap a t a' ∧ Rep cap s' a' := by
  induction ops with
  | nil =>
    intro s a hr s' t h
    simp only [runFrom, Option.some.injEq, Prod.mk.injEq] at h
    obtain ⟨rfl, rfl⟩ := h
    exact ⟨a, .nil a, hr⟩
  | cons op ops ih =>
    intro s a hr s' t h
    simp only [runFrom] at h
    rcases step_sim discard cap s a hr op with ⟨hs, _⟩ | ⟨s1, out, a1, hs, r1, st1⟩
    · rw [hs] at h; cases h
    · rw [hs] at h
      simp only at h
      cases hrun : runFrom discard s1 ops with
      | none => rw [hrun] at h; cases h
      | some y =>
        obtain ⟨s2, t2⟩ := y
        rw [hrun] at h
        simp only [Option.some.injEq, Prod.mk.injEq] at h
        obtain ⟨rfl, rfl⟩ := h
        obtain ⟨a2, tr, r2⟩ := ih s1 a1 r1 s2 t2 hrun
        exact ⟨a2, .cons st1 tr, r2⟩

theorem trace_exact (discard : Bool) (cap : Nat) (a a' : Spec.St α μ) (t : List (Event α μ)) (h : Spec.Trace discard cap a t a')
    (hc : .clear ∉ t.map (·.op)) : a.q ++ Spec.acceptedPackets a.w t = Spec.consumedPackets a.r t ++ a'.q := by
  induction h with
  | nil s => simp [Spec.acceptedPackets, Spec.consumedPackets]
  | @cons s s' s'' e t hst ht ih =>
    obtain ⟨op, out⟩ := e
    have hc' : .clear ∉ t.map (·.op) := fun h => hc (by simp only [List.map_cons, List.mem_cons]; exact Or.inr h)
    have ih := ih hc'
    simp only at hst
    cases hst with
    | tooBig p h => simpa [Spec.acceptedPackets, Spec.consumedPackets] using ih
    | dropped p hd h => simpa [Spec.acceptedPackets, Spec.consumedPackets] using ih
    | full p hd h => simpa [Spec.acceptedPackets, Spec.consumedPackets] using ih
    | process p h => simpa [Spec.acceptedPackets, Spec.consumedPackets] using ih
    | copy p h => simpa [Spec.acceptedPackets, Spec.consumedPackets] using ih
    | accepted p h => simpa [Spec.acceptedPackets, Spec.consumedPackets, h, List.append_assoc] using ih
    | offer p ps h hq => simpa [Spec.acceptedPackets, Spec.consumedPackets] using ih
    | eod => simpa [Spec.acceptedPackets, Spec.consumedPackets] using ih
    | wait => simpa [Spec.acceptedPackets, Spec.consumedPackets] using ih
    | consumed p ps h hq =>
      simp only [Spec.acceptedPackets, Spec.consumedPackets, h, hq, Option.toList_some, List.cons_append, List.nil_append, List.cons.injEq, true_and]
      exact ih
    | notConsumed p h =>
      simp only [Spec.acceptedPackets, Spec.consumedPackets] at ih ⊢
      rw [ih]
      -- the packet offered but not taken is not used before the next offer
      congr 1
      have aux : ∀ (t : List (Event α μ)) (m m' : Spec.St α μ) (x : Option (Packet α μ)), Spec.Trace discard cap m t m' → m.r = none →
          Spec.consumedPackets none t = Spec.consumedPackets x t := by
        intro t
        induction t with
        | nil => intros; rfl
        | cons e t iht =>
          intro m m' x htr hm
          obtain ⟨op, out⟩ := e
          cases htr with
          | cons h1 h2 =>
            simp only at h1
            cases h1 with
            | consumed p ps h hq => rw [hm] at h; cases h
            | notConsumed p h => rw [hm] at h; cases h
            | offer p ps h hq => simp only [Spec.consumedPackets]
            | _ => simp only [Spec.consumedPackets]; exact iht _ m' x h2 hm
      exact aux t _ s'' s.r ht rfl
    | endOfData => simpa [Spec.acceptedPackets, Spec.consumedPackets] using ih
    | clear h => exact absurd List.mem_cons_self hc

end
end Verif.PacketBuffer

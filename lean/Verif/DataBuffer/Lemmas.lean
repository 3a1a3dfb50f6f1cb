import Verif.Ring.Lemmas
import Verif.DataBuffer.Spec
set_option linter.unusedSectionVars false
namespace Verif.DataBuffer
open Verif.Ring
section
variable {α ε : Type}

/-- Representation invariant. -/
structure Rep (c : Config) (cap : Nat) (s : Sys α ε) (a : Spec.St α ε) : Prop where
  inv : s.ring.Inv
  cap : s.ring.storageSize = cap
  contents : s.ring.contents = a.q
  wAligned : s.ring.writeOffset % c.inputPacketSize = 0
  rAligned : s.ring.readOffset % c.outputPacketSize = 0
  eod : s.eod = a.eod
  exc : s.exc = a.exc
  excl : s.eod = true → s.exc = none
  writer : match s.writer, a.w with
    | none, none => True
    | some ⟨off, b, copied⟩, some b' => off = s.ring.writeOffset ∧ b = b' ∧ b.length ≤ s.ring.writeSize ∧
        b.length % c.inputPacketSize = 0 ∧ (copied = true → slice s.ring.storage off b.length = b)
    | _, _ => False
  reader : match s.reader, a.r with
    | none, none => True
    | some ⟨off, n⟩, some b => off = s.ring.readOffset ∧ n = b.length ∧ n ≤ s.ring.readSize ∧ n % c.outputPacketSize = 0 ∧ b = a.q.take n
    | _, _ => False

theorem Rep.len {c : Config} {cap : Nat} {s : Sys α ε} {a : Spec.St α ε} (h : Rep c cap s a) : s.ring.dataSize = a.q.length := by
  rw [← h.contents, Ring.length_contents _ h.inv]

theorem Rep.le {c : Config} {cap : Nat} {s : Sys α ε} {a : Spec.St α ε} (h : Rep c cap s a) : a.q.length ≤ cap := by
  rw [← h.len, ← h.cap]; exact Ring.dataSize_le _ h.inv

theorem div_mul_zero (n p : Nat) (hp : p ≠ 0) : n / p * p = 0 ↔ n < p := by
  constructor
  · intro h
    have := Nat.div_add_mod n p
    have := Nat.mod_lt n (Nat.pos_of_ne_zero hp)
    rw [Nat.mul_comm] at h; omega
  · intro h; rw [Nat.div_eq_of_lt h]; simp

theorem div_mul_mod (n p : Nat) : n / p * p % p = 0 := Nat.mul_mod_left _ _

/-- With aligned read offset the read window holds a whole packet iff the buffer does. -/
theorem readWindow (r : Ring α) (h : r.Inv) (p : Nat) (hp : p ≠ 0) (hs : r.storageSize % p = 0) (ha : r.readOffset % p = 0) :
    r.readSize < p ↔ r.dataSize < p := by
  have h1 := h.contig; have h2 := h.wrapped; have h3 := h.ro; have h4 := h.wo; have h5 := h.roEnd
  constructor
  · intro hlt
    cases hc : r.contiguous
    · have hw := h2 hc
      have hrs : r.readSize = r.storageSize - r.readOffset := by unfold Ring.readSize; simp [hc]
      have hm : (r.storageSize - r.readOffset) % p = 0 := Nat.sub_mod_eq_zero_of_mod_eq (by rw [hs, ha])
      rw [hrs] at hlt
      rw [Nat.mod_eq_of_lt hlt] at hm
      have hds : r.dataSize = r.storageSize - r.readOffset + r.writeOffset := by unfold Ring.dataSize; simp [hc]
      have := h5 (by omega)
      omega
    · have e1 : r.readSize = r.writeOffset - r.readOffset := by unfold Ring.readSize; simp [hc]
      have e2 : r.dataSize = r.writeOffset - r.readOffset := by unfold Ring.dataSize; simp [hc]
      omega
  · intro hlt
    have := Ring.readSize_le r h
    omega

/-- With aligned write offset the write window has room for a packet iff the buffer has. -/
theorem writeWindow (r : Ring α) (h : r.Inv) (p : Nat) (hp : p ≠ 0) (hs : r.storageSize % p = 0) (ha : r.writeOffset % p = 0) :
    r.writeSize < p ↔ r.freeSize < p := by
  have h1 := h.contig; have h2 := h.wrapped; have h3 := h.ro; have h4 := h.wo; have h6 := h.woEnd
  constructor
  · intro hlt
    cases hc : r.contiguous
    · have hw := h2 hc
      have e1 : r.writeSize = r.readOffset - r.writeOffset := by unfold Ring.writeSize; simp [hc]
      have e2 : r.dataSize = r.storageSize - r.readOffset + r.writeOffset := by unfold Ring.dataSize; simp [hc]
      unfold Ring.freeSize; omega
    · have hw := h1 hc
      have e1 : r.writeSize = r.storageSize - r.writeOffset := by unfold Ring.writeSize; simp [hc]
      have hm : (r.storageSize - r.writeOffset) % p = 0 := Nat.sub_mod_eq_zero_of_mod_eq (by rw [hs, ha])
      rw [e1] at hlt
      rw [Nat.mod_eq_of_lt hlt] at hm
      have := h6 (by omega)
      unfold Ring.freeSize; omega
  · intro hlt
    have := Ring.writeSize_le_free r h
    unfold Ring.freeSize at hlt; omega

theorem advanceWrite_aligned (r : Ring α) (n p : Nat) (ha : r.writeOffset % p = 0) (hn : n % p = 0) :
    (r.advanceWrite n).writeOffset % p = 0 := by
  unfold Ring.advanceWrite
  split
  · exact Nat.zero_mod _
  · show (r.writeOffset + n) % p = 0
    rw [Nat.add_mod, ha, hn]; simp

theorem advanceRead_aligned (r : Ring α) (n p : Nat) (ha : r.readOffset % p = 0) (hn : n % p = 0) :
    (r.advanceRead n).readOffset % p = 0 := by
  unfold Ring.advanceRead
  split
  · exact Nat.zero_mod _
  · show (r.readOffset + n) % p = 0
    rw [Nat.add_mod, ha, hn]; simp

/-- The in-flight writer is unaffected by the reader's pop. -/
theorem pop_rep (c : Config) (cap : Nat) (s : Sys α ε) (a : Spec.St α ε) (hr : Rep c cap s a) (n : Nat) (hn : n ≤ s.ring.readSize)
    (ha : n % c.outputPacketSize = 0) :
    s.ring.pop n = some (s.ring.advanceRead n) ∧
    Rep c cap { s with ring := s.ring.advanceRead n, reader := none } { a with q := a.q.drop n, r := none } := by
  have hfit := Ring.readSize_fits _ hr.inv
  refine ⟨by unfold Ring.pop; rw [if_pos (by omega)], ?_⟩
  refine ⟨Ring.advanceRead_inv _ hr.inv n hn, ?_, ?_, ?_, advanceRead_aligned _ _ _ hr.rAligned ha, hr.eod, hr.exc, hr.excl, ?_, trivial⟩
  · unfold Ring.storageSize; rw [Ring.advanceRead_storage]; exact hr.cap
  · simp only; rw [Ring.advanceRead_contents _ hr.inv n hn, hr.contents]
  · simp only; rw [Ring.advanceRead_writeOffset]; exact hr.wAligned
  · have := hr.writer
    cases hw : s.writer with
    | none =>
      rw [hw] at this
      cases haw : a.w with
      | none => trivial
      | some b => rw [haw] at this; exact this.elim
    | some w =>
      obtain ⟨off, b, cp⟩ := w
      rw [hw] at this
      cases haw : a.w with
      | none => rw [haw] at this; exact this.elim
      | some b' =>
        rw [haw] at this
        obtain ⟨e1, e2, e3, e4, e5⟩ := this
        refine ⟨by rw [e1]; exact (Ring.advanceRead_writeOffset _ _).symm, e2, Nat.le_trans e3 (Ring.advanceRead_writeSize _ hr.inv n hn), e4, ?_⟩
        intro h; simp only [Ring.advanceRead_storage]; exact e5 h

theorem step_sim (c : Config) (cap : Nat) (hv : c.Valid cap) (s : Sys α ε) (a : Spec.St α ε) (hr : Rep c cap s a) (op : Op α ε)
    (s' : Sys α ε) (out : Out α ε) (h : step c s op = some (s', out)) : ∃ a', Rep c cap s' a' ∧ Spec.Step c cap a op out a' := by
  obtain ⟨v1, v2, v3, v4, v5⟩ := hv
  have hlen := hr.len
  have hle := hr.le
  have hfree : s.ring.freeSize = cap - a.q.length := by unfold Ring.freeSize; rw [hr.cap, hlen]
  have hww := writeWindow s.ring hr.inv c.inputPacketSize v1 (by rw [hr.cap]; exact v2) hr.wAligned
  have hrw := readWindow s.ring hr.inv c.outputPacketSize v4 (by rw [hr.cap]; exact v5) hr.rAligned
  have hweq := hr.writer
  have hreq := hr.reader
  have hwn : s.writer = none → a.w = none := by
    intro hw; rw [hw] at hweq
    cases haw : a.w with
    | none => rfl
    | some b => rw [haw] at hweq; exact hweq.elim
  have hrn : s.reader = none → a.r = none := by
    intro hw; rw [hw] at hreq
    cases haw : a.r with
    | none => rfl
    | some b => rw [haw] at hreq; exact hreq.elim
  cases op with
  | process d =>
    cases hw : s.writer with
    | some w => simp only [step, hw] at h; cases h
    | none =>
      simp only [step, hw] at h
      have haw := hwn hw
      by_cases h1 : d.length % c.inputPacketSize ≠ 0
      · rw [if_pos h1] at h
        simp only [Option.some.injEq, Prod.mk.injEq] at h
        rw [← h.1, ← h.2]; exact ⟨a, hr, .misaligned a d haw h1⟩
      · rw [if_neg h1] at h
        by_cases h2 : (s.eod || s.exc.isSome) = true
        · rw [if_pos h2] at h
          simp only [Option.some.injEq, Prod.mk.injEq] at h
          rw [← h.1, ← h.2]
          refine ⟨a, hr, .processRefused a d haw ?_⟩
          rw [Bool.or_eq_true, hr.eod, hr.exc] at h2
          rcases h2 with h2 | h2
          · exact Or.inl h2
          · right; intro hx; rw [hx] at h2; cases h2
        · rw [if_neg h2] at h
          have hroom : (s.ring.writeSize / c.inputPacketSize * c.inputPacketSize = 0 ∨ s.ring.freeSize < c.requiredFreeSpace) ↔
              Spec.NoRoom c cap a.q := by
            unfold Spec.NoRoom; rw [div_mul_zero _ _ v1, hww, hfree]
          by_cases h3 : s.ring.writeSize / c.inputPacketSize * c.inputPacketSize = 0 ∨ s.ring.freeSize < c.requiredFreeSpace
          · rw [if_pos h3] at h
            by_cases h4 : c.discardOnOverflow = true
            · rw [if_pos h4] at h
              simp only [Option.some.injEq, Prod.mk.injEq] at h
              rw [← h.1, ← h.2]; exact ⟨a, hr, .overflow a d haw h4 (hroom.mp h3)⟩
            · rw [if_neg h4] at h
              simp only [Option.some.injEq, Prod.mk.injEq] at h
              rw [← h.1, ← h.2]; exact ⟨a, hr, .full a d haw (by simpa using h4) (hroom.mp h3)⟩
          · rw [if_neg h3] at h
            simp only [Option.some.injEq, Prod.mk.injEq] at h
            obtain ⟨rfl, rfl⟩ := h
            have hpk : s.ring.writeSize / c.inputPacketSize * c.inputPacketSize ≤ s.ring.writeSize := Nat.div_mul_le_self _ _
            have hfr := Ring.writeSize_le_free _ hr.inv
            have hbl : (d.take (min d.length (s.ring.writeSize / c.inputPacketSize * c.inputPacketSize))).length =
                min d.length (s.ring.writeSize / c.inputPacketSize * c.inputPacketSize) := by rw [List.length_take]; omega
            have hal : (d.take (min d.length (s.ring.writeSize / c.inputPacketSize * c.inputPacketSize))).length % c.inputPacketSize = 0 := by
              rw [hbl]
              rcases Nat.le_total d.length (s.ring.writeSize / c.inputPacketSize * c.inputPacketSize) with hm | hm
              · rw [Nat.min_eq_left hm]; omega
              · rw [Nat.min_eq_right hm]; exact div_mul_mod _ _
            have he : s.eod = false := by
              cases hx : s.eod with
              | false => rfl
              | true => exact absurd (by rw [hx]; rfl) h2
            have hx : s.exc = none := by
              cases hx : s.exc with
              | none => rfl
              | some e => exact absurd (by rw [hx, he]; rfl) h2
            refine ⟨{ a with w := some (d.take (min d.length (s.ring.writeSize / c.inputPacketSize * c.inputPacketSize))) }, ?_, ?_⟩
            · exact ⟨hr.inv, hr.cap, hr.contents, hr.wAligned, hr.rAligned, hr.eod, hr.exc, hr.excl,
                ⟨rfl, rfl, by rw [hbl]; exact Nat.le_trans (Nat.min_le_right _ _) hpk, hal, by simp⟩, hr.reader⟩
            · refine .process a d _ haw (by rw [← hr.eod]; exact he) (by rw [← hr.exc]; exact hx) (fun hn => h3 (hroom.mpr hn))
                (List.take_prefix _ _) hal ?_ ?_
              · intro hnil
                rw [hnil] at hbl
                simp only [List.length_nil] at hbl
                have : d.length = 0 := by
                  rcases Nat.eq_zero_or_pos d.length with h0 | h0
                  · exact h0
                  · have hX : ∀ X, 0 = min d.length X → X = 0 := by intro X hX; omega
                    exact absurd (Or.inl (hX _ hbl)) h3
                exact List.eq_nil_of_length_eq_zero this
              · rw [hbl]
                have := hr.cap
                omega
  | copy =>
    cases hw : s.writer with
    | none => simp only [step, hw] at h; cases h
    | some w =>
      obtain ⟨off, b, cp⟩ := w
      cases cp with
      | true => simp only [step, hw] at h; cases h
      | false =>
        simp only [step, hw, Option.some.injEq, Prod.mk.injEq] at h
        obtain ⟨rfl, rfl⟩ := h
        rw [hw] at hweq
        cases haw : a.w with
        | none => rw [haw] at hweq; exact hweq.elim
        | some b' =>
          rw [haw] at hweq
          obtain ⟨e1, e2, e3, e4, e5⟩ := hweq
          subst e1; subst e2
          obtain ⟨c1, c2⟩ := Ring.splice_contents s.ring hr.inv b e3
          have hfit : s.ring.writeOffset + b.length ≤ s.ring.storage.length := by
            have := Ring.writeSize_fits s.ring hr.inv; unfold Ring.storageSize at this; omega
          have hsl := length_splice s.ring.storage s.ring.writeOffset b hfit
          have hws : ({ s.ring with storage := splice s.ring.storage s.ring.writeOffset b } : Ring α).writeSize = s.ring.writeSize := by
            unfold Ring.writeSize Ring.storageSize; simp only [hsl]
          have hrs : ({ s.ring with storage := splice s.ring.storage s.ring.writeOffset b } : Ring α).readSize = s.ring.readSize := by
            unfold Ring.readSize Ring.storageSize; simp only [hsl]
          refine ⟨a, ⟨c2, ?_, by simp only; rw [c1, hr.contents], hr.wAligned, hr.rAligned, hr.eod, hr.exc, hr.excl, ?_, ?_⟩, .copy a b haw⟩
          · unfold Ring.storageSize; simp only [hsl]; exact hr.cap
          · rw [haw]; exact ⟨rfl, rfl, by rw [hws]; exact e3, e4, fun _ => slice_splice_self _ _ _ hfit⟩
          · simp only [hrs]; exact hreq
  | pushed =>
    cases hw : s.writer with
    | none => simp only [step, hw] at h; cases h
    | some w =>
      obtain ⟨off, b, cp⟩ := w
      cases cp with
      | false => simp only [step, hw] at h; cases h
      | true =>
        rw [hw] at hweq
        cases haw : a.w with
        | none => rw [haw] at hweq; exact hweq.elim
        | some b' =>
          rw [haw] at hweq
          obtain ⟨e1, e2, e3, e4, e5⟩ := hweq
          subst e1; subst e2
          have hfit := Ring.writeSize_fits s.ring hr.inv
          have hpush : s.ring.push b.length = some (s.ring.advanceWrite b.length) := by
            unfold Ring.push; rw [if_pos (by omega)]
          simp only [step, hw, hpush, Option.some.injEq, Prod.mk.injEq] at h
          obtain ⟨rfl, rfl⟩ := h
          have hrl := Ring.readSize_le s.ring hr.inv
          have hfr := Ring.writeSize_le_free _ hr.inv
          refine ⟨{ a with q := a.q ++ b, w := none }, ⟨Ring.advanceWrite_inv _ hr.inv _ e3, ?_, ?_, advanceWrite_aligned _ _ _ hr.wAligned e4,
            ?_, hr.eod, hr.exc, hr.excl, trivial, ?_⟩, .pushed a b haw ?_⟩
          · unfold Ring.storageSize; rw [Ring.advanceWrite_storage]; exact hr.cap
          · simp only; rw [Ring.advanceWrite_contents _ hr.inv _ e3, hr.contents, e5 rfl]
          · simp only; rw [Ring.advanceWrite_readOffset]; exact hr.rAligned
          · cases hre : s.reader with
            | none =>
              simp only
              have := hrn hre
              rw [this]; trivial
            | some x =>
              obtain ⟨o, n⟩ := x
              rw [hre] at hreq
              cases har : a.r with
              | none => rw [har] at hreq; exact hreq.elim
              | some y =>
                rw [har] at hreq
                obtain ⟨g1, g2, g3, g4, g5⟩ := hreq
                refine ⟨by rw [g1]; exact (Ring.advanceWrite_readOffset _ _).symm, g2, Nat.le_trans g3 (Ring.advanceWrite_readSize _ hr.inv _ e3), g4, ?_⟩
                simp only; rw [g5, List.take_append_of_le_length (by omega)]
          · have := hr.cap; omega
  | read =>
    cases hre : s.reader with
    | some x =>
      obtain ⟨o, n⟩ := x
      simp only [step, hre, Option.some.injEq, Prod.mk.injEq] at h
      obtain ⟨rfl, rfl⟩ := h
      rw [hre] at hreq
      cases har : a.r with
      | none => rw [har] at hreq; exact hreq.elim
      | some y => exact ⟨a, hr, .readRefused a y har⟩
    | none =>
      have har := hrn hre
      simp only [step, hre] at h
      by_cases h1 : s.ring.readSize / c.outputPacketSize * c.outputPacketSize = 0
      · rw [if_pos h1] at h
        have hq : a.q.length < c.outputPacketSize := by rw [← hlen]; exact hrw.mp ((div_mul_zero _ _ v4).mp h1)
        cases hx : s.exc with
        | some e =>
          simp only [hx, Option.some.injEq, Prod.mk.injEq] at h
          obtain ⟨rfl, rfl⟩ := h
          refine ⟨a, hr, .thrown a e har hq (by rw [← hr.exc]; exact hx) ?_⟩
          rw [← hr.eod]
          cases he : s.eod with
          | false => rfl
          | true => rw [hr.excl he] at hx; cases hx
        | none =>
          simp only [hx] at h
          cases he : s.eod with
          | true =>
            simp only [he, ↓reduceIte, Option.some.injEq, Prod.mk.injEq] at h
            obtain ⟨rfl, rfl⟩ := h
            exact ⟨a, hr, .eod a har hq (by rw [← hr.eod]; exact he) (by rw [← hr.exc]; exact hx)⟩
          | false =>
            simp only [he, Bool.false_eq_true, ↓reduceIte, Option.some.injEq, Prod.mk.injEq] at h
            obtain ⟨rfl, rfl⟩ := h
            exact ⟨a, hr, .wait a har hq (by rw [← hr.eod]; exact he) (by rw [← hr.exc]; exact hx)⟩
      · rw [if_neg h1] at h
        simp only [Option.some.injEq, Prod.mk.injEq] at h
        obtain ⟨rfl, rfl⟩ := h
        have hpk : s.ring.readSize / c.outputPacketSize * c.outputPacketSize ≤ s.ring.readSize := Nat.div_mul_le_self _ _
        have hsl := Ring.slice_read s.ring hr.inv _ hpk
        rw [hr.contents] at hsl
        have hrl := Ring.readSize_le s.ring hr.inv
        have hl : (slice s.ring.storage s.ring.readOffset (s.ring.readSize / c.outputPacketSize * c.outputPacketSize)).length =
            s.ring.readSize / c.outputPacketSize * c.outputPacketSize := by rw [hsl, List.length_take]; omega
        refine ⟨{ a with r := some (slice s.ring.storage s.ring.readOffset (s.ring.readSize / c.outputPacketSize * c.outputPacketSize)) },
          ⟨hr.inv, hr.cap, hr.contents, hr.wAligned, hr.rAligned, hr.eod, hr.exc, hr.excl, hr.writer, ⟨rfl, hl.symm, hpk, div_mul_mod _ _, hsl⟩⟩,
          .offer a _ har (by rw [hsl]; exact List.take_prefix _ _) ?_ (by rw [hl]; exact div_mul_mod _ _)⟩
        intro hnil; rw [hnil] at hl; exact h1 hl.symm
  | consumed k =>
    cases hre : s.reader with
    | none => simp only [step, hre] at h; cases h
    | some x =>
      obtain ⟨o, n⟩ := x
      rw [hre] at hreq
      cases har : a.r with
      | none => rw [har] at hreq; exact hreq.elim
      | some y =>
        rw [har] at hreq
        obtain ⟨g1, g2, g3, g4, g5⟩ := hreq
        have hseen : slice s.ring.storage o n = y := by
          rw [g1, Ring.slice_read s.ring hr.inv n g3, hr.contents, g5]
        have hkeep : Rep c cap { s with reader := none } { a with r := none } :=
          ⟨hr.inv, hr.cap, hr.contents, hr.wAligned, hr.rAligned, hr.eod, hr.exc, hr.excl, hr.writer, trivial⟩
        cases k with
        | none =>
          simp only [step, hre, Option.some.injEq, Prod.mk.injEq] at h
          obtain ⟨rfl, rfl⟩ := h
          rw [hseen]
          exact ⟨_, hkeep, .consumerThrew a y har⟩
        | some k =>
          simp only [step, hre] at h
          by_cases h1 : n < k
          · rw [if_pos h1] at h; cases h
          · rw [if_neg h1] at h
            by_cases h2 : k = 0
            · rw [if_pos h2] at h
              simp only [Option.some.injEq, Prod.mk.injEq] at h
              obtain ⟨rfl, rfl⟩ := h
              subst h2
              rw [hseen]
              refine ⟨{ a with q := a.q.drop 0, r := none }, ?_, .consumed a y 0 har (Nat.zero_le _) (Nat.zero_mod _)⟩
              rw [List.drop_zero]; exact hkeep
            · rw [if_neg h2] at h
              by_cases h3 : k % c.outputPacketSize ≠ 0
              · rw [if_pos h3] at h
                obtain ⟨p1, p2⟩ := pop_rep c cap s a hr n g3 g4
                rw [p1] at h
                simp only [Option.some.injEq, Prod.mk.injEq] at h
                obtain ⟨rfl, rfl⟩ := h
                rw [hseen, g2] at *
                exact ⟨_, p2, .consumedBroken a y k har (by omega) h3⟩
              · rw [if_neg h3] at h
                obtain ⟨p1, p2⟩ := pop_rep c cap s a hr k (by omega) (by omega)
                rw [p1] at h
                simp only [Option.some.injEq, Prod.mk.injEq] at h
                obtain ⟨rfl, rfl⟩ := h
                rw [hseen]
                exact ⟨_, p2, .consumed a y k har (by omega) (by omega)⟩
  | endOfData =>
    cases hx : s.exc with
    | some e =>
      simp only [step, hx, Option.isSome_some, ↓reduceIte, Option.some.injEq, Prod.mk.injEq] at h
      obtain ⟨rfl, rfl⟩ := h
      exact ⟨a, hr, .endOfDataRefused a (by rw [← hr.exc, hx]; simp)⟩
    | none =>
      simp only [step, hx, Option.isSome_none, Bool.false_eq_true, ↓reduceIte, Option.some.injEq, Prod.mk.injEq] at h
      obtain ⟨rfl, rfl⟩ := h
      refine ⟨{ a with eod := true }, ?_, .endOfData a (by rw [← hr.exc, hx])⟩
      exact ⟨hr.inv, hr.cap, hr.contents, hr.wAligned, hr.rAligned, rfl, by simp only; rw [← hr.exc, hx], fun _ => rfl, hr.writer, hr.reader⟩
  | setException e =>
    cases he : s.eod with
    | true =>
      simp only [step, he, ↓reduceIte, Option.some.injEq, Prod.mk.injEq] at h
      obtain ⟨rfl, rfl⟩ := h
      exact ⟨a, hr, .setExceptionRefused a e (by rw [← hr.eod, he])⟩
    | false =>
      simp only [step, he, Bool.false_eq_true, ↓reduceIte, Option.some.injEq, Prod.mk.injEq] at h
      obtain ⟨rfl, rfl⟩ := h
      refine ⟨{ a with exc := some e }, ?_, .setException a e (by rw [← hr.eod, he])⟩
      exact ⟨hr.inv, hr.cap, hr.contents, hr.wAligned, hr.rAligned, by simp only; rw [← hr.eod, he], rfl, fun hh => by simp at hh, hr.writer, hr.reader⟩
  | clear =>
    simp only [step] at h
    by_cases h1 : (s.reader.isSome || s.writer.isSome) = true
    · rw [if_pos h1] at h
      simp only [Option.some.injEq, Prod.mk.injEq] at h
      obtain ⟨rfl, rfl⟩ := h
      refine ⟨a, hr, .clearRefused a ?_⟩
      rw [Bool.or_eq_true] at h1
      rcases h1 with h1 | h1
      · left; intro hn
        rw [hn] at hreq
        cases hre : s.reader with
        | none => rw [hre] at h1; cases h1
        | some x => rw [hre] at hreq; exact hreq.elim
      · right; intro hn
        rw [hn] at hweq
        cases hre : s.writer with
        | none => rw [hre] at h1; cases h1
        | some x => rw [hre] at hweq; exact hweq.elim
    · rw [if_neg h1] at h
      simp only [Option.some.injEq, Prod.mk.injEq] at h
      obtain ⟨rfl, rfl⟩ := h
      have hre : s.reader = none := by
        cases hx : s.reader with
        | none => rfl
        | some x => exact absurd (by rw [hx]; rfl) h1
      have hwr : s.writer = none := by
        cases hx : s.writer with
        | none => rfl
        | some x => exact absurd (by rw [hx, hre]; rfl) h1
      refine ⟨Spec.St.init, ?_, .clear a (hrn hre) (hwn hwr)⟩
      refine ⟨Ring.clear_inv _, hr.cap, Ring.clear_contents _, Nat.zero_mod _, Nat.zero_mod _, rfl, rfl, fun hh => rfl, ?_, ?_⟩
      · simp only [hwr]; trivial
      · simp only [hre]; trivial

theorem simulate (c : Config) (cap : Nat) (hv : c.Valid cap) (ops : List (Op α ε)) :
    ∀ (s : Sys α ε) (a : Spec.St α ε), Rep c cap s a → ∀ s' t, runFrom c s ops = some (s', t) →
      ∃ a', Spec.Trace c cap a t a' ∧ Rep c cap s' a' := by
  induction ops with
  | nil =>
    intro s a hr s' t h
    simp only [runFrom, Option.some.injEq, Prod.mk.injEq] at h
    obtain ⟨rfl, rfl⟩ := h
    exact ⟨a, .nil a, hr⟩
  | cons op ops ih =>
    intro s a hr s' t h
    simp only [runFrom] at h
    cases hs : step c s op with
    | none => rw [hs] at h; cases h
    | some x =>
      obtain ⟨s1, out⟩ := x
      obtain ⟨a1, r1, st1⟩ := step_sim c cap hv s a hr op s1 out hs
      rw [hs] at h
      simp only at h
      cases hrun : runFrom c s1 ops with
      | none => rw [hrun] at h; cases h
      | some y =>
        obtain ⟨s2, t2⟩ := y
        rw [hrun] at h
        simp only [Option.some.injEq, Prod.mk.injEq] at h
        obtain ⟨rfl, rfl⟩ := h
        obtain ⟨a2, tr, r2⟩ := ih s1 a1 r1 s2 t2 hrun
        refine ⟨a2, .cons st1 r1.len ?_ tr, r2⟩
        simp only; rw [r1.eod, r1.exc]

theorem create_rep (c : Config) (storage : List α) : Rep c storage.length (Sys.create storage : Sys α ε) Spec.St.init :=
  ⟨Ring.create_inv _, rfl, Ring.create_contents _, Nat.zero_mod _, Nat.zero_mod _, rfl, rfl, fun _ => rfl, trivial, trivial⟩

/-- Every stored byte was accepted and not yet delivered. -/
theorem trace_lossless (c : Config) (cap : Nat) (a a' : Spec.St α ε) (t : List (Event α ε)) (h : Spec.Trace c cap a t a')
    (hc : .clear ∉ t.map (·.op)) (hk : ∀ e ∈ t, ∀ k, e.op = .consumed (some k) → k % c.outputPacketSize = 0)
    (hrq : ∀ b, a.r = some b → b <+: a.q) (d : List α) (hd : ∀ b, a.w = some b → b <+: d) :
    a.q ++ Spec.accepted d t = Spec.delivered t ++ a'.q := by
  induction h generalizing d with
  | nil s => simp [Spec.accepted, Spec.delivered]
  | @cons s s' s'' e t hst hds hfin ht ih =>
    obtain ⟨op, out, ds, fin⟩ := e
    have hc' : .clear ∉ t.map (·.op) := fun h => hc (by simp only [List.map_cons, List.mem_cons]; exact Or.inr h)
    have hk' : ∀ e ∈ t, ∀ k, e.op = .consumed (some k) → k % c.outputPacketSize = 0 :=
      fun e he k h => hk e (List.mem_cons_of_mem _ he) k h
    have ih := ih hc' hk'
    simp only at hst
    cases hst with
    | misaligned d' hw h => simpa [Spec.accepted, Spec.delivered] using ih hrq d hd
    | processRefused d' hw h => simpa [Spec.accepted, Spec.delivered] using ih hrq d hd
    | overflow d' hw _ h => simpa [Spec.accepted, Spec.delivered] using ih hrq d hd
    | full d' hw _ h => simpa [Spec.accepted, Spec.delivered] using ih hrq d hd
    | process d' b hw he hx hr hb ha hne hf =>
      have := ih hrq d' (by intro b' h; simp only [Option.some.injEq] at h; rw [← h]; exact hb)
      simpa [Spec.accepted, Spec.delivered] using this
    | copy b hw => simpa [Spec.accepted, Spec.delivered] using ih hrq d hd
    | pushed b hw hf =>
      have hbd := hd b hw
      have := ih (by intro b' h; exact (hrq b' h).trans (List.prefix_append _ _)) d (by intro b' h; simp at h)
      simp only [Spec.accepted, Spec.delivered]
      rw [← this, ← List.append_assoc, List.prefix_iff_eq_take.mp hbd]
      simp
    | readRefused b h => simpa [Spec.accepted, Spec.delivered] using ih hrq d hd
    | offer b h hp hne ha =>
      have := ih (by intro b' h; simp only [Option.some.injEq] at h; rw [← h]; exact hp) d hd
      simpa [Spec.accepted, Spec.delivered] using this
    | eod => simpa [Spec.accepted, Spec.delivered] using ih hrq d hd
    | thrown => simpa [Spec.accepted, Spec.delivered] using ih hrq d hd
    | wait => simpa [Spec.accepted, Spec.delivered] using ih hrq d hd
    | consumerThrew b h =>
      have := ih (by intro b' h; simp at h) d hd
      simpa [Spec.accepted, Spec.delivered] using this
    | consumed b k h hk1 ha =>
      have := ih (by intro b' h; simp at h) d hd
      simp only [Spec.accepted, Spec.delivered]
      rw [List.append_assoc, ← this]
      have hbp := hrq b h
      have : b.take k = s.q.take k := by
        rw [List.prefix_iff_eq_take.mp hbp, List.take_take, Nat.min_eq_left hk1]
      rw [this, ← List.append_assoc, List.take_append_drop]
    | consumedBroken b k h hk1 ha => exact absurd (hk _ List.mem_cons_self k rfl) ha
    | endOfData h => simpa [Spec.accepted, Spec.delivered] using ih hrq d hd
    | endOfDataRefused h => simpa [Spec.accepted, Spec.delivered] using ih hrq d hd
    | setException e h => simpa [Spec.accepted, Spec.delivered] using ih hrq d hd
    | setExceptionRefused e h => simpa [Spec.accepted, Spec.delivered] using ih hrq d hd
    | clear hr hw => exact absurd (by simp) hc
    | clearRefused h => exact absurd (by simp) hc

/-- Once end of data was set with no `Process` in progress, nothing is added any more. -/
theorem trace_eod (c : Config) (cap : Nat) (a a' : Spec.St α ε) (t : List (Event α ε)) (h : Spec.Trace c cap a t a')
    (hc : .clear ∉ t.map (·.op)) (he : a.eod = true) (hw : a.w = none) :
    a'.eod = true ∧ a'.w = none ∧ a'.q.length ≤ a.q.length ∧
    ∀ b, .offered b ∈ t.map (·.out) → b.length ≤ a.q.length ∧ b ≠ [] ∧ b.length % c.outputPacketSize = 0 := by
  induction h with
  | nil s => exact ⟨he, hw, Nat.le_refl _, by simp⟩
  | @cons s s' s'' e t hst hds hfin ht ih =>
    obtain ⟨op, out, ds, fin⟩ := e
    have hc' : .clear ∉ t.map (·.op) := fun h => hc (by simp only [List.map_cons, List.mem_cons]; exact Or.inr h)
    simp only at hst
    have key : s'.eod = true ∧ s'.w = none ∧ s'.q.length ≤ s.q.length ∧
        ∀ b, out = .offered b → b.length ≤ s.q.length ∧ b ≠ [] ∧ b.length % c.outputPacketSize = 0 := by
      cases hst with
      | process d b _ he' => rw [he] at he'; cases he'
      | pushed b h => rw [hw] at h; cases h
      | offer b h hp hne ha =>
        refine ⟨he, hw, Nat.le_refl _, fun b' hb => ?_⟩
        simp only [Out.offered.injEq] at hb
        rw [← hb]; exact ⟨hp.length_le, hne, ha⟩
      | consumed b k h => exact ⟨he, hw, by simp only [List.length_drop]; omega, fun _ h => by cases h⟩
      | consumedBroken b k h => exact ⟨he, hw, by simp only [List.length_drop]; omega, fun _ h => by cases h⟩
      | endOfData h => exact ⟨rfl, hw, Nat.le_refl _, fun _ h => by cases h⟩
      | clear => exact absurd List.mem_cons_self hc
      | _ => exact ⟨he, hw, Nat.le_refl _, fun _ h => by cases h⟩
    obtain ⟨k1, k2, k3, k4⟩ := key
    obtain ⟨i1, i2, i3, i4⟩ := ih hc' k1 k2
    refine ⟨i1, i2, Nat.le_trans i3 k3, fun b hb => ?_⟩
    simp only [List.map_cons, List.mem_cons] at hb
    rcases hb with hb | hb
    · exact k4 b hb.symm
    · obtain ⟨j1, j2⟩ := i4 b hb
      exact ⟨Nat.le_trans j1 k3, j2⟩

theorem trace_append (c : Config) (cap : Nat) (t1 t2 : List (Event α ε)) (a a' : Spec.St α ε) (h : Spec.Trace c cap a (t1 ++ t2) a') :
    ∃ m, Spec.Trace c cap a t1 m ∧ Spec.Trace c cap m t2 a' := by
  induction t1 generalizing a with
  | nil => exact ⟨a, .nil a, h⟩
  | cons e t1 ih =>
    cases h with
    | cons h1 h2 h3 h4 =>
      obtain ⟨m, m1, m2⟩ := ih _ h4
      exact ⟨m, .cons h1 h2 h3 m1, m2⟩

end
end Verif.DataBuffer

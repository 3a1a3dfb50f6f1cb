import Verif.Stream.Buffered
/-
Property C36: a `BufferedStream` is transparent.
-/
namespace Verif.Stream
open Spec

/-- The representation invariant. -/
structure Buf.Inv (e : Env) (s : Buf) : Prop where
  len : s.buffer.length = e.cap
  empty : s.size = 0 → s.file.pos = s.offset ∧ s.inOffset < e.align
  size_le : s.size ≤ e.cap
  filled : 0 < s.size → s.offset + s.size ≤ s.file.content.length ∧ s.inOffset ≤ s.size ∧ s.buffer.take s.size = (s.file.content.drop s.offset).take s.size

/-- Under which conditions the code is transparent: no alignment, or full reads underneath and a position that is not beyond the end. -/
def Spec.Regular (e : Env) (len pos : Nat) : Prop := e.align = 1 ∨ ((∀ i, e.cap ≤ e.lim i + 1) ∧ pos ≤ len)

namespace Buf

theorem align_le {e : Env} (he : EnvOk e) : e.align ≤ e.cap := Nat.le_of_dvd he.1 (Nat.dvd_of_mod_eq_zero he.2.2)

theorem file_seek_begin (e : Env) (f : File) (q : Nat) :
    ((e.strict = true → q ≤ f.content.length) → f.seek e q .begin = .ok { f with pos := q }) ∧
    (e.strict = true ∧ q > f.content.length → ∃ x, f.seek e q .begin = .error x) := by
  have ho : origin f.content.length f.pos .begin + (q : Int) = q := by simp [origin]
  unfold File.seek
  rw [ho]
  constructor
  · intro h
    rw [if_neg (by omega), if_neg (by rintro ⟨h1, h2⟩; have := h h1; omega)]
    simp
  · rintro ⟨h1, h2⟩
    rw [if_neg (by omega), if_pos ⟨h1, by omega⟩]
    exact ⟨_, rfl⟩

theorem seekStream_ok {e : Env} (he : EnvOk e) {s : Buf} (hl : s.buffer.length = e.cap) {q : Nat} (h : e.strict = true → q ≤ s.file.content.length) :
    ∃ s', s.seekStream e q = .ok s' ∧ Inv e s' ∧ s'.file.content = s.file.content ∧ s'.tell = q ∧ s'.size = 0 ∧ s'.inOffset < e.align ∧ s'.offset ≤ q := by
  have hd := Nat.mul_div_le q e.align
  have hm := Nat.div_add_mod q e.align
  have hlt := Nat.mod_lt q he.2.1
  have hs := (file_seek_begin e s.file (e.align * (q / e.align))).1 (fun hs => by have := h hs; omega)
  unfold seekStream
  rw [hs]
  refine ⟨_, rfl, ⟨hl, fun _ => ⟨rfl, ?_⟩, Nat.zero_le _, fun h => absurd h (by simp)⟩, rfl, ?_, rfl, ?_, ?_⟩
  · simp only []; omega
  · simp only [tell]; omega
  · simp only []; omega
  · simp only []; omega

theorem copy_ok {e : Env} {s : Buf} (hi : Inv e s) (hs : 0 < s.size) (hio : s.inOffset < s.size) {want : Nat} (hw : 0 < want) :
    ∃ k s', s.copy want = some ((s.file.content.drop s.tell).take k, s') ∧ 0 < k ∧ k ≤ want ∧ s.tell + k ≤ s.file.content.length ∧ Inv e s' ∧ s'.file.content = s.file.content ∧
      s'.tell = s.tell + k := by
  obtain ⟨f1, f2, f3⟩ := hi.filled hs
  have hav : s.available = s.size - s.inOffset := by unfold available; rw [if_pos f2]
  have hle := hi.size_le
  refine ⟨min want (s.size - s.inOffset), { s with inOffset := s.inOffset + min want (s.size - s.inOffset) }, ?_, by omega, by omega, by unfold tell; omega, ?_, rfl, by unfold tell; simp only []; omega⟩
  · unfold copy
    rw [hav, if_pos (by rw [hi.len]; omega)]
    congr 2
    have h1 : (s.buffer.drop s.inOffset).take (min want (s.size - s.inOffset)) = ((s.buffer.take s.size).drop s.inOffset).take (min want (s.size - s.inOffset)) := by
      rw [List.drop_take, List.take_take]
      congr 1; omega
    rw [h1, f3, List.drop_take, List.take_take, List.drop_drop]
    unfold tell
    congr 1; omega
  · exact ⟨hi.len, fun h => absurd h (by simp only []; omega), hle, fun _ => ⟨f1, by simp only []; omega, f3⟩⟩

theorem refill_ok {e : Env} (he : EnvOk e) {s : Buf} (hi : Inv e s) (hr : Regular e s.file.content.length s.tell) (hneed : s.size = 0 ∨ s.inOffset = s.size) :
    ∃ s', s.refill e = .ok s' ∧ Inv e s' ∧ s'.file.content = s.file.content ∧ s'.tell = s.tell ∧
      (s'.size = 0 ∨ s'.inOffset = s'.size → s.file.content.length ≤ s.tell) := by
  have h1 : ∃ s1, (if s.size ≠ 0 then s.seekStream e s.tell else .ok s) = .ok s1 ∧ Inv e s1 ∧ s1.file.content = s.file.content ∧ s1.tell = s.tell ∧ s1.size = 0 := by
    by_cases h0 : s.size = 0
    · rw [if_neg (by omega)]
      exact ⟨s, rfl, hi, rfl, rfl, h0⟩
    · rw [if_pos h0]
      obtain ⟨f1, f2, f3⟩ := hi.filled (by omega)
      obtain ⟨s', g1, g2, g3, g4, g5, _⟩ := seekStream_ok he hi.len (q := s.tell) (fun _ => by unfold tell; omega)
      exact ⟨s', g1, g2, g3, g4, g5⟩
  obtain ⟨s1, g1, g2, g3, g4, g5⟩ := h1
  obtain ⟨p1, p2⟩ := g2.empty g5
  have hal := align_le he
  unfold refill
  rw [g1]
  simp only []
  generalize hb : (s1.file.read e e.cap).1 = b
  have hb' : b = (s1.file.content.drop s1.offset).take (min e.cap (e.lim s1.file.reads + 1)) := by rw [← hb, ← p1]; rfl
  have hbl : b.length = min (min e.cap (e.lim s1.file.reads + 1)) (s1.file.content.length - s1.offset) := by rw [hb', List.length_take, List.length_drop]
  have hc : (s1.file.read e e.cap).2.content = s1.file.content := rfl
  have hp : (s1.file.read e e.cap).2.pos = s1.file.pos + b.length := by rw [← hb]; rfl
  have hcap := he.1
  -- the position is not beyond what was read, unless nothing was read
  have hin : 0 < b.length → s1.inOffset ≤ b.length := by
    intro hpos
    rcases hr with h | ⟨h2, h3⟩
    · omega
    · have := h2 s1.file.reads
      rw [← g4, ← g3] at h3
      unfold tell at h3
      omega
  refine ⟨_, rfl, ⟨?_, ?_, ?_, ?_⟩, ?_, ?_, ?_⟩
  · simp only [List.length_append, List.length_drop, g2.len]; omega
  · intro h
    simp only [] at h ⊢
    rw [hp]
    exact ⟨by omega, p2⟩
  · simp only []; omega
  · intro h
    simp only [] at h ⊢
    rw [hc]
    refine ⟨by omega, hin h, ?_⟩
    rw [List.take_left' rfl]
    rw [hb']
    rw [List.take_eq_take_iff, List.length_take, List.length_drop]
    omega
  · rw [hc, g3]
  · rw [← g4]; rfl
  · intro h
    rw [← g4, ← g3]
    unfold tell
    simp only [] at h
    by_cases h0 : b.length = 0
    · omega
    · rcases h with h | h
      · omega
      · rcases hr with h1 | ⟨h2, h3⟩
        · omega
        · have := h2 s1.file.reads
          omega

theorem take_add' (l : List Nat) (p k m : Nat) : (l.drop p).take k ++ (l.drop (p + k)).take m = (l.drop p).take (k + m) := by
  rw [List.take_add, List.drop_drop]

theorem readLoop_ok {e : Env} (he : EnvOk e) : ∀ (rounds : Nat) (s : Buf) (want : Nat), Inv e s → Regular e s.file.content.length s.tell →
    ∃ m s', s.readLoop e rounds want = some (.ok ((s.file.content.drop s.tell).take m, s')) ∧ Inv e s' ∧ s'.file.content = s.file.content ∧ s'.tell = s.tell + m ∧
      m ≤ min want (s.file.content.length - s.tell) ∧ (want < rounds → m = min want (s.file.content.length - s.tell))
  | 0, s, want, hi, hr => ⟨0, s, by simp [readLoop], hi, rfl, rfl, by omega, by omega⟩
  | rounds + 1, s, want, hi, hr => by
    have tail : ∀ s1 : Buf, Inv e s1 → s1.file.content = s.file.content → s1.tell = s.tell → 0 < s1.size → s1.inOffset < s1.size → 0 < want →
        ∃ m s', (match s1.copy want with
          | none => none
          | some (b, s2) => match s2.readLoop e rounds (want - b.length) with
            | some (.ok (b', s3)) => some (.ok (b ++ b', s3))
            | r => r) = some (.ok ((s.file.content.drop s.tell).take m, s')) ∧ Inv e s' ∧ s'.file.content = s.file.content ∧ s'.tell = s.tell + m ∧
          m ≤ min want (s.file.content.length - s.tell) ∧ (want < rounds + 1 → m = min want (s.file.content.length - s.tell)) := by
      intro s1 hi1 hc1 ht1 hsz hio hw
      obtain ⟨k, s2, c1, c2, c3, c4, c5, c6, c7⟩ := copy_ok hi1 hsz hio hw
      rw [c1]
      have hk : ((s1.file.content.drop s1.tell).take k).length = k := by rw [List.length_take, List.length_drop]; omega
      simp only [hk]
      obtain ⟨m, s3, r1, r2, r3, r4, r5, r6⟩ := readLoop_ok he rounds s2 (want - k) c5 (by
        rcases hr with h | ⟨h1, h2⟩
        · exact Or.inl h
        · exact Or.inr ⟨h1, by rw [c6, c7]; omega⟩)
      rw [r1]
      simp only []
      refine ⟨k + m, s3, ?_, r2, by rw [r3, c6, hc1], by omega, ?_, ?_⟩
      · rw [c6, c7, take_add', hc1, ht1]
      · rw [c6, c7, hc1, ht1] at r5
        rw [hc1, ht1] at c4
        omega
      · intro h
        have := r6 (by omega)
        rw [c6, c7, hc1, ht1] at this
        rw [hc1, ht1] at c4
        omega
    rw [readLoop]
    by_cases hw : want = 0
    · rw [if_pos hw]
      exact ⟨0, s, by simp, hi, rfl, rfl, by omega, by omega⟩
    · rw [if_neg hw]
      by_cases hneed : s.size = 0 ∨ s.inOffset = s.size
      · rw [if_pos hneed]
        obtain ⟨s', g1, g2, g3, g4, g5⟩ := refill_ok he hi hr hneed
        rw [g1]
        simp only []
        by_cases hstop : s'.size = 0 ∨ s'.inOffset = s'.size
        · rw [if_pos hstop]
          have := g5 hstop
          exact ⟨0, s', by simp, g2, g3, by omega, by omega, by omega⟩
        · rw [if_neg hstop]
          have := (g2.filled (by omega)).2.1
          exact tail s' g2 g3 g4 (by omega) (by omega) (by omega)
      · rw [if_neg hneed]
        have := (hi.filled (by omega)).2.1
        exact tail s hi rfl rfl (by omega) (by omega) (by omega)

theorem strict_tell {e : Env} {s : Buf} (hi : Inv e s) (hs : 0 < s.size) : s.tell ≤ s.file.content.length := by
  obtain ⟨f1, f2, _⟩ := hi.filled hs
  unfold tell; omega

theorem write_ok {e : Env} (he : EnvOk e) {s : Buf} (hi : Inv e s) (hr : Regular e s.file.content.length s.tell) (d : List Nat) :
    ∃ s', s.write e d = .ok (d.length, s') ∧ Inv e s' ∧ s'.tell = s.tell + d.length ∧
      s'.file.content = (s.file.content ++ List.replicate (s.tell - s.file.content.length) 0).take s.tell ++ d ++ s.file.content.drop (s.tell + d.length) := by
  have h1 : ∃ f, (if s.inOffset ≠ s.size ∨ s.size ≠ 0 then s.file.seek e s.tell .begin else .ok s.file) = .ok f ∧ f.content = s.file.content ∧ f.pos = s.tell := by
    by_cases h : s.inOffset ≠ s.size ∨ s.size ≠ 0
    · rw [if_pos h]
      refine ⟨_, (file_seek_begin e s.file s.tell).1 (fun _ => ?_), rfl, rfl⟩
      by_cases hs : s.size = 0
      · obtain ⟨p1, p2⟩ := hi.empty hs
        rcases hr with h1 | ⟨_, h1⟩
        · omega
        · exact h1
      · exact strict_tell hi (by omega)
    · rw [if_neg h]
      have hs : s.size = 0 := by omega
      obtain ⟨p1, p2⟩ := hi.empty hs
      exact ⟨s.file, rfl, rfl, by unfold tell; omega⟩
  obtain ⟨f, g1, g2, g3⟩ := h1
  have hcont : (f.write d).content = (s.file.content ++ List.replicate (s.tell - s.file.content.length) 0).take s.tell ++ d ++ s.file.content.drop (s.tell + d.length) := by
    simp only [File.write, overwrite, g2, g3]
    congr 1
    rw [List.drop_append, List.drop_replicate, show s.tell - s.file.content.length - (s.tell + d.length - s.file.content.length) = 0 by omega]
    simp
  have hlen : s.tell + d.length ≤ (f.write d).content.length := by
    rw [hcont]
    simp only [List.length_append, List.length_take, List.length_drop, List.length_replicate]
    omega
  obtain ⟨s', k1, k2, k3, k4, _⟩ := seekStream_ok he (s := { s with file := f.write d }) hi.len (q := s.tell + d.length) (fun _ => hlen)
  refine ⟨s', ?_, k2, k4, by rw [k3]; exact hcont⟩
  unfold write
  rw [g1]
  simp only []
  rw [k1]

theorem seekAbs_ok {e : Env} (he : EnvOk e) {s : Buf} (hi : Inv e s) (off : Int) (hr : e.align = 1 ∨ off ≤ s.file.content.length) :
    (∃ s' q, s.seekAbs e off = .ok s' ∧ Inv e s' ∧ s'.file.content = s.file.content ∧ s'.tell = q ∧ (q : Int) = off ∧ (e.strict = true → q ≤ s.file.content.length)) ∨
    (∃ x, s.seekAbs e off = .error x ∧ (off < 0 ∨ (e.strict = true ∧ off > s.file.content.length))) := by
  unfold seekAbs
  by_cases h0 : off < 0
  · rw [if_pos h0]
    exact Or.inr ⟨_, rfl, Or.inl h0⟩
  · rw [if_neg h0]
    by_cases h1 : s.offset ≤ off.toNat ∧ off.toNat - s.offset < s.size
    · have hsb : s.seekInBuffer off.toNat = some { s with inOffset := off.toNat - s.offset } := by unfold seekInBuffer; rw [if_pos h1]
      rw [hsb]
      obtain ⟨f1, f2, f3⟩ := hi.filled (by omega)
      refine Or.inl ⟨_, off.toNat, rfl, ⟨hi.len, fun h => absurd h (by simp only []; omega), hi.size_le, fun _ => ⟨f1, by simp only []; omega, f3⟩⟩, rfl, by unfold tell; simp only []; omega, by omega, fun _ => by omega⟩
    · have hsb : s.seekInBuffer off.toNat = none := by unfold seekInBuffer; rw [if_neg h1]
      rw [hsb]
      by_cases h2 : e.strict = true ∧ off > s.file.content.length
      · right
        have hal : e.align = 1 := by
          rcases hr with h | h
          · exact h
          · omega
        obtain ⟨x, hx⟩ := (file_seek_begin e s.file (e.align * (off.toNat / e.align))).2 ⟨h2.1, by rw [hal, Nat.one_mul, Nat.div_one]; omega⟩
        refine ⟨x, ?_, Or.inr h2⟩
        simp only [seekStream, hx]
      · left
        have h3 : e.strict = true → off.toNat ≤ s.file.content.length := fun hs => by
          have : ¬ off > s.file.content.length := fun hh => h2 ⟨hs, hh⟩
          omega
        obtain ⟨s', k1, k2, k3, k4, _⟩ := seekStream_ok he hi.len (q := off.toNat) h3
        exact ⟨s', off.toNat, k1, k2, k3, k4, by omega, h3⟩

/-- Which seeks are within the bounds of the theorem. -/
def Spec.OpOk (e : Env) (len pos : Nat) : Op → Prop
  | .seek off m => e.align = 1 ∨ origin len pos m + off ≤ (len : Int)
  | _ => True

/-- C36, one call: no undefined behaviour, the call acts on the bytes and the position exactly as specified for the unbuffered stream, and the invariant is kept. -/
theorem buffered_step_partial {e : Env} (he : EnvOk e) {s : Buf} (hi : Inv e s) (hr : Regular e s.file.content.length s.tell) (op : Op)
    (hop : Spec.OpOk e s.file.content.length s.tell op) :
    ∃ s' o, s.step e op = some (s', o) ∧ BufStep e.strict s.file.content s.tell op s'.file.content s'.tell o ∧ Inv e s' ∧ Regular e s'.file.content.length s'.tell := by
  cases op with
  | read n rounds =>
    obtain ⟨m, s', h1, h2, h3, h4, h5, h6⟩ := readLoop_ok he rounds s n hi hr
    refine ⟨s', .bytes ((s.file.content.drop s.tell).take m), ?_, ?_, h2, ?_⟩
    · simp only [step, h1]
    · rw [h3, h4]
      refine .read _ _ _ _ _ ?_ ?_
      · rw [List.length_take, List.length_drop]; exact h5
      · intro h; rw [List.length_take, List.length_drop]; exact h6 h
    · rw [h3, h4]
      rcases hr with h | ⟨h7, h8⟩
      · exact Or.inl h
      · exact Or.inr ⟨h7, by omega⟩
  | write d =>
    obtain ⟨s', h1, h2, h3, h4⟩ := write_ok he hi hr d
    refine ⟨s', .num d.length, ?_, ?_, h2, ?_⟩
    · simp only [step, h1]
    · rw [h3, h4]; exact .write _ _ _
    · rcases hr with h | ⟨h7, h8⟩
      · exact Or.inl h
      · refine Or.inr ⟨h7, ?_⟩
        rw [h3, h4]
        simp only [List.length_append, List.length_take, List.length_drop, List.length_replicate]
        omega
  | tell => exact ⟨s, .num s.tell, rfl, .tell _ _, hi, hr⟩
  | seek off m =>
    have habs : ∀ q : Int, q = origin s.file.content.length s.tell m + off → s.seek e off m = s.seekAbs e q →
        ∃ s' o, s.step e (.seek off m) = some (s', o) ∧ BufStep e.strict s.file.content s.tell (.seek off m) s'.file.content s'.tell o ∧ Inv e s' ∧ Regular e s'.file.content.length s'.tell := by
      intro q hq hseek
      have hop' : e.align = 1 ∨ q ≤ s.file.content.length := by rw [hq]; exact hop
      rcases seekAbs_ok he hi q hop' with ⟨s', p, h1, h2, h3, h4, h5, h6⟩ | ⟨x, h1, h2⟩
      · refine ⟨s', .unit, ?_, ?_, h2, ?_⟩
        · simp only [step, hseek, h1]
        · rw [h3, h4]; exact .seek _ _ _ _ _ (by omega) h6
        · rw [h3, h4]
          rcases hr with h | ⟨h7, h8⟩
          · exact Or.inl h
          · rcases hop' with h | h
            · exact Or.inl h
            · exact Or.inr ⟨h7, by omega⟩
      · refine ⟨s, .err x, ?_, ?_, hi, hr⟩
        · simp only [step, hseek, h1]
        · exact .seekBad _ _ _ _ _ (by rw [← hq]; exact h2)
    cases m with
    | begin => exact habs off (by simp [origin]) rfl
    | current => exact habs (off + s.tell) (by simp [origin]; omega) rfl
    | end_ =>
      by_cases hbad : origin s.file.content.length s.file.pos .end_ + off < 0 ∨ (e.strict = true ∧ origin s.file.content.length s.file.pos .end_ + off > s.file.content.length)
      · have : ∃ x, s.file.seek e off .end_ = .error x := by
          unfold File.seek
          by_cases h1 : origin s.file.content.length s.file.pos .end_ + off < 0
          · rw [if_pos h1]; exact ⟨_, rfl⟩
          · rw [if_neg h1]
            rcases hbad with h | h
            · exact absurd h h1
            · rw [if_pos h]; exact ⟨_, rfl⟩
        obtain ⟨x, hx⟩ := this
        refine ⟨s, .err x, ?_, .seekBad _ _ _ _ _ hbad, hi, hr⟩
        simp only [step, seek, hx]
      · have hq1 : ¬ origin s.file.content.length s.file.pos .end_ + off < 0 := fun h => hbad (Or.inl h)
        have hq2 : ¬ (e.strict = true ∧ origin s.file.content.length s.file.pos .end_ + off > s.file.content.length) := fun h => hbad (Or.inr h)
        have hf : s.file.seek e off .end_ = .ok { s.file with pos := (origin s.file.content.length s.file.pos .end_ + off).toNat } := by
          unfold File.seek
          rw [if_neg hq1, if_neg hq2]
        generalize hqd : (origin s.file.content.length s.file.pos .end_ + off).toNat = q at hf
        have hqo : (q : Int) = origin s.file.content.length s.tell .end_ + off := by
          rw [← hqd]; simp only [origin] at hq1 ⊢; omega
        have hqs : e.strict = true → q ≤ s.file.content.length := by
          intro hs
          have : ¬ origin s.file.content.length s.file.pos .end_ + off > s.file.content.length := fun h => hq2 ⟨hs, h⟩
          simp only [origin] at this hqo
          omega
        have hfin : ∀ s' : Buf, s.seek e off .end_ = .ok s' → Inv e s' → s'.file.content = s.file.content → s'.tell = q →
            ∃ s' o, s.step e (.seek off .end_) = some (s', o) ∧ BufStep e.strict s.file.content s.tell (.seek off .end_) s'.file.content s'.tell o ∧ Inv e s' ∧
              Regular e s'.file.content.length s'.tell := by
          intro s' h1 h2 h3 h4
          refine ⟨s', .unit, ?_, ?_, h2, ?_⟩
          · simp only [step, h1]
          · rw [h3, h4]; exact .seek _ _ _ _ _ hqo hqs
          · rw [h3, h4]
            rcases hr with h | ⟨h7, h8⟩
            · exact Or.inl h
            · rcases hop with h | h
              · exact Or.inl h
              · exact Or.inr ⟨h7, by omega⟩
        by_cases hib : s.offset ≤ q ∧ q - s.offset < s.size
        · obtain ⟨f1, f2, f3⟩ := hi.filled (by omega)
          have hback := (file_seek_begin e { s.file with pos := q } s.offset).1 (fun _ => by simp only []; omega)
          refine hfin ⟨{ s.file with pos := s.offset }, s.buffer, s.size, s.offset, q - s.offset⟩ ?_ ?_ rfl ?_
          · simp only [seek, hf, seekInBuffer]
            rw [if_pos hib]
            simp only []
            rw [hback]
          · exact ⟨hi.len, fun h => absurd h (by simp only []; omega), hi.size_le, fun _ => ⟨f1, by simp only []; omega, f3⟩⟩
          · unfold tell; simp only []; omega
        · obtain ⟨s', k1, k2, k3, k4, _⟩ := seekStream_ok he (s := { s with file := { s.file with pos := q } }) hi.len (q := q) hqs
          refine hfin s' ?_ k2 k3 k4
          simp only [seek, hf, seekInBuffer]
          rw [if_neg hib]
          simp only []
          exact k1

theorem inv_create {e : Env} (he : EnvOk e) (content : List Nat) : Inv e (create e content) := by
  refine ⟨by simp [create], fun _ => ⟨rfl, he.2.1⟩, Nat.zero_le _, fun h => absurd h (by simp [create])⟩

/-- A run of the model. -/
def run (e : Env) : Buf → List Op → Option (List Mem.Out × Buf)
  | s, [] => some ([], s)
  | s, op :: ops => match s.step e op with
    | none => none
    | some (s', o) => (run e s' ops).map (fun r => (o :: r.1, r.2))

/-- A run of the specification: every step as the unbuffered stream would do it (and, for an alignment above 1, no seek beyond the end). -/
inductive Spec.BufRun (e : Env) : List Nat → Nat → List Op → List Mem.Out → List Nat → Nat → Prop
  | nil (c p) : BufRun e c p [] [] c p
  | cons (c p op c' p' o ops os c'' p'') : BufStep e.strict c p op c' p' o → BufRun e c' p' ops os c'' p'' → BufRun e c p (op :: ops) (o :: os) c'' p''

/-- C36 for histories, alignment 1 (the default): for every content, buffer size, kind of stream underneath and pattern of short reads, every history of calls gives
the results, bytes and positions of the unbuffered stream. -/
theorem buffered_transparent {e : Env} (he : EnvOk e) (ha : e.align = 1) (content : List Nat) (ops : List Op) :
    ∃ os s', run e (create e content) ops = some (os, s') ∧ Spec.BufRun e content 0 ops os s'.file.content s'.tell := by
  have key : ∀ (ops : List Op) (s : Buf), Inv e s → ∃ os s', run e s ops = some (os, s') ∧ Spec.BufRun e s.file.content s.tell ops os s'.file.content s'.tell := by
    intro ops
    induction ops with
    | nil => exact fun s _ => ⟨[], s, rfl, .nil _ _⟩
    | cons op ops ih =>
      intro s hi
      obtain ⟨s1, o, h1, h2, h3, _⟩ := buffered_step_partial he hi (Or.inl ha) op (by cases op <;> first | exact Or.inl ha | trivial)
      obtain ⟨os, s', h4, h5⟩ := ih s1 h3
      refine ⟨o :: os, s', ?_, .cons _ _ _ _ _ _ _ _ _ _ h2 h5⟩
      rw [run, h1]
      simp only [h4, Option.map_some]
  exact key ops (create e content) (inv_create he content)

/-- C36 refuted for an alignment above 1: after seeking beyond the end (to 7 in a stream of 5 bytes), reading returns two bytes of stale buffer contents. -/
theorem buffered_violated :
    (run ⟨false, fun _ => 100, 8, 4⟩ (create ⟨false, fun _ => 100, 8, 4⟩ [11, 12, 13, 14, 15]) [.read 5 9, .seek 7 .begin, .read 2 9, .tell]).map (fun r => r.1) =
      some [.bytes [11, 12, 13, 14, 15], .unit, .bytes [14, 15], .num 9] := by decide +kernel

/-! Non-vacuity: a history over a stream with reads of at most two bytes, and one with alignment 4. -/
example : (run ⟨true, fun _ => 1, 4, 1⟩ (create ⟨true, fun _ => 1, 4, 1⟩ [1, 2, 3, 4, 5]) [.read 3 9, .seek (-1) .current, .read 9 20, .seek 1 .begin, .write [7], .read 2 9]).map (fun r => r.1) =
    some [.bytes [1, 2, 3], .unit, .bytes [3, 4, 5], .unit, .num 1, .bytes [3, 4]] := by decide +kernel

example : EnvOk ⟨true, fun _ => 100, 8, 4⟩ ∧ Regular ⟨true, fun _ => 100, 8, 4⟩ 5 3 ∧
    (run ⟨true, fun _ => 100, 8, 4⟩ (create ⟨true, fun _ => 100, 8, 4⟩ [1, 2, 3, 4, 5]) [.seek 3 .begin, .read 9 20, .read 9 20, .tell]).map (fun r => r.1) =
    some [.unit, .bytes [4, 5], .bytes [], .num 5] := by
  refine ⟨by simp [EnvOk], Or.inr ⟨fun i => by simp, by omega⟩, by decide +kernel⟩

end Buf
end Verif.Stream

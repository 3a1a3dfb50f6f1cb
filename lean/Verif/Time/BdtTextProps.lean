import Verif.Time.IsoProps

/-! C91: the text of a broken-down time in a format. -/

namespace Verif.Time

open Verif.Str

/-! ### Specification -/

/-- The fields of a format: the letters, the value and the width. -/
def formatFields (b : Bdt) : List (List Char × Int × Nat) :=
  [("dd".toList, b.mday, 2), ("MM".toList, b.month, 2), ("YYYY".toList, b.year, 4), ("yyyy".toList, b.year, 4),
    ("hh".toList, b.hour, 2), ("mm".toList, b.min, 2), ("ss".toList, b.sec, 2), ("lll".toList, b.ms, 3)]

/-- `s` is the decimal numeral of `v`, filled with zeros to the width `w` and no further. -/
structure Prints (w : Nat) (v : Int) (s : List Char) : Prop where
  num : Numeral s v
  wide : w ≤ s.length
  short : w < s.length → s.head? ≠ some '0'

/-- `out` is `format` with the fields replaced, from the left to the right; all the rest is copied. -/
inductive Replaced (b : Bdt) : List Char → List Char → Prop
  | nil : Replaced b [] []
  | field {p : List Char} {v : Int} {w : Nat} {text rest out : List Char} : (p, v, w) ∈ formatFields b → Prints w v text → Replaced b rest out →
      Replaced b (p ++ rest) (text ++ out)
  | copy {c : Char} {rest out : List Char} : (∀ p v w, (p, v, w) ∈ formatFields b → ¬ p <+: c :: rest) → Replaced b rest out → Replaced b (c :: rest) (c :: out)

/-- No letter of a field is repeated more often than the field has letters. -/
def NoLongRun (format : List Char) : Prop :=
  ∀ c n, (c, n) ∈ [('d', 3), ('M', 3), ('Y', 5), ('y', 5), ('h', 3), ('m', 3), ('s', 3), ('l', 4)] → ¬ List.replicate n c <:+: format

/-- The values that a valid time has. -/
structure Printable (b : Bdt) : Prop where
  nonneg : 0 ≤ b.mday ∧ 0 ≤ b.month ∧ 0 ≤ b.year ∧ 0 ≤ b.hour ∧ 0 ≤ b.min ∧ 0 ≤ b.sec ∧ 0 ≤ b.ms
  small : b.mday ≤ 32767 ∧ b.month ≤ 32767 ∧ b.year ≤ 32767 ∧ b.hour ≤ 32767 ∧ b.min ≤ 32767 ∧ b.sec ≤ 32767 ∧ b.ms ≤ 32767

/-! ### Proof -/

theorem prints_field {v : Int} (h0 : 0 ≤ v) (h1 : v ≤ 32767) {w : Nat} (hw : 1 ≤ w) : Prints w v (padZero w (digits s16 v)) := by
  obtain ⟨hn, hz⟩ := numeral_digits s16_ok (by decide) h0 h1
  refine ⟨hn.pad w, ?_, fun hlt h => ?_⟩
  · unfold padZero; rw [List.length_append, List.length_replicate]; omega
  · unfold padZero at h hlt
    rw [List.length_append, List.length_replicate] at hlt
    have e : w - (digits s16 v).length = 0 := by omega
    rw [e, List.replicate_zero, List.nil_append] at h
    have := hz h
    rw [this, List.length_singleton] at hlt
    omega

theorem field_mem (b : Bdt) {k : Nat} {p : List Char} (h : bdtPatterns[k]? = some p) :
    ∃ v w, (p, v, w) ∈ formatFields b ∧ (Printable b → Prints w v (fieldText b k)) := by
  match k, h with
  | 0, h => cases h; exact ⟨b.mday, 2, by simp [formatFields], fun h => prints_field h.nonneg.1 h.small.1 (by decide)⟩
  | 1, h => cases h; exact ⟨b.month, 2, by simp [formatFields], fun h => prints_field h.nonneg.2.1 h.small.2.1 (by decide)⟩
  | 2, h => cases h; exact ⟨b.year, 4, by simp [formatFields], fun h => prints_field h.nonneg.2.2.1 h.small.2.2.1 (by decide)⟩
  | 3, h => cases h; exact ⟨b.year, 4, by simp [formatFields], fun h => prints_field h.nonneg.2.2.1 h.small.2.2.1 (by decide)⟩
  | 4, h => cases h; exact ⟨b.hour, 2, by simp [formatFields], fun h => prints_field h.nonneg.2.2.2.1 h.small.2.2.2.1 (by decide)⟩
  | 5, h => cases h; exact ⟨b.min, 2, by simp [formatFields], fun h => prints_field h.nonneg.2.2.2.2.1 h.small.2.2.2.2.1 (by decide)⟩
  | 6, h => cases h; exact ⟨b.sec, 2, by simp [formatFields], fun h => prints_field h.nonneg.2.2.2.2.2.1 h.small.2.2.2.2.2.1 (by decide)⟩
  | 7, h => cases h; exact ⟨b.ms, 3, by simp [formatFields], fun h => prints_field h.nonneg.2.2.2.2.2.2 h.small.2.2.2.2.2.2 (by decide)⟩
  | k + 8, h => simp [bdtPatterns] at h

theorem mem_field (b : Bdt) {p : List Char} {v : Int} {w : Nat} (h : (p, v, w) ∈ formatFields b) : ∃ k : Nat, bdtPatterns[k]? = some p := by
  simp only [formatFields, List.mem_cons, Prod.mk.injEq, List.not_mem_nil, or_false] at h
  rcases h with h | h | h | h | h | h | h | h
  · exact ⟨0, by rw [h.1]; rfl⟩
  · exact ⟨1, by rw [h.1]; rfl⟩
  · exact ⟨2, by rw [h.1]; rfl⟩
  · exact ⟨3, by rw [h.1]; rfl⟩
  · exact ⟨4, by rw [h.1]; rfl⟩
  · exact ⟨5, by rw [h.1]; rfl⟩
  · exact ⟨6, by rw [h.1]; rfl⟩
  · exact ⟨7, by rw [h.1]; rfl⟩

/-- Each pattern repeats one letter, and no two the same. -/
theorem pattern_shape {k : Nat} {p : List Char} (h : bdtPatterns[k]? = some p) :
    ∃ c n, p = List.replicate n c ∧ 1 ≤ n ∧ (c, n + 1) ∈ [('d', 3), ('M', 3), ('Y', 5), ('y', 5), ('h', 3), ('m', 3), ('s', 3), ('l', 4)] ∧
      ['d', 'M', 'Y', 'y', 'h', 'm', 's', 'l'][k]? = some c := by
  match k, h with
  | 0, h => cases h; exact ⟨'d', 2, by decide⟩
  | 1, h => cases h; exact ⟨'M', 2, by decide⟩
  | 2, h => cases h; exact ⟨'Y', 4, by decide⟩
  | 3, h => cases h; exact ⟨'y', 4, by decide⟩
  | 4, h => cases h; exact ⟨'h', 2, by decide⟩
  | 5, h => cases h; exact ⟨'m', 2, by decide⟩
  | 6, h => cases h; exact ⟨'s', 2, by decide⟩
  | 7, h => cases h; exact ⟨'l', 3, by decide⟩
  | k + 8, h => simp [bdtPatterns] at h

theorem letter_inj {k k' : Nat} {c : Char} (h : ['d', 'M', 'Y', 'y', 'h', 'm', 's', 'l'][k]? = some c) (h' : ['d', 'M', 'Y', 'y', 'h', 'm', 's', 'l'][k']? = some c) :
    k = k' := by
  have hn : (['d', 'M', 'Y', 'y', 'h', 'm', 's', 'l'] : List Char).Nodup := by decide
  obtain ⟨hk, e⟩ := List.getElem?_eq_some_iff.mp h
  exact (List.getElem?_inj hk hn).mp (h.trans h'.symm)

/-- A hit: pattern `k` at the position `p`. -/
theorem hit_iff {format : List Char} {k p : Nat} : (k, p) ∈ allReports bdtPatterns format ↔ ∃ w, bdtPatterns[k]? = some w ∧ w <+: format.drop p ∧ p ≤ format.length := by
  rw [mem_allReports]
  constructor
  · rintro ⟨x, y, w, rfl, rfl, _, h1, _⟩
    refine ⟨w, h1, ?_, by simp⟩
    rw [List.append_assoc, List.drop_left]
    exact List.prefix_append _ _
  · rintro ⟨w, h1, ⟨y, hy⟩, hp⟩
    obtain ⟨c, n, e, hn, _, hc⟩ := pattern_shape h1
    refine ⟨format.take p, y, w, ?_, by rw [List.length_take]; omega, ?_, h1, fun k' hk' h2 => ?_⟩
    · rw [List.append_assoc, hy, List.take_append_drop]
    · intro h0
      rw [e] at h0
      have := congrArg List.length h0
      rw [List.length_replicate, List.length_nil] at this
      omega
    · obtain ⟨c', n', e', hn', _, hc'⟩ := pattern_shape h2
      have : c = c' := by
        have := e.symm.trans e'
        match n, n', hn, hn' with
        | n + 1, n' + 1, _, _ =>
          rw [List.replicate_succ, List.replicate_succ] at this
          injection this
      subst this
      have := letter_inj hc hc'
      omega

/-- Letters of a hit. -/
theorem hit_letter {format : List Char} {n p i : Nat} {c : Char} (h : List.replicate n c <+: format.drop p) (hi : i < n) : format[p + i]? = some c := by
  obtain ⟨y, hy⟩ := h
  have : (format.drop p)[i]? = some c := by
    rw [← hy, List.getElem?_append_left (by rw [List.length_replicate]; exact hi), List.getElem?_replicate, if_pos hi]
  rwa [List.getElem?_drop] at this

theorem run_infix {format : List Char} {c : Char} : ∀ (n p : Nat), (∀ i, i < n → format[p + i]? = some c) → p ≤ format.length → List.replicate n c <+: format.drop p := by
  intro n
  induction n with
  | zero => intro p _ _; exact List.nil_prefix
  | succ n ih =>
    intro p h hp
    have h0 := h 0 (by omega)
    rw [Nat.add_zero] at h0
    obtain ⟨hlt, e⟩ := List.getElem?_eq_some_iff.mp h0
    rw [List.drop_eq_getElem_cons hlt, e, List.replicate_succ]
    obtain ⟨y, hy⟩ := ih (p + 1) (fun i hi => by rw [Nat.add_assoc, Nat.add_comm 1 i]; exact h (i + 1) (by omega)) (by omega)
    exact ⟨y, by rw [List.cons_append, hy]⟩

/-- Two hits do not overlap. -/
theorem hits_apart {format : List Char} (hr : NoLongRun format) {k p k' p' : Nat} {w : List Char} (h : (k, p) ∈ allReports bdtPatterns format)
    (h' : (k', p') ∈ allReports bdtPatterns format) (hw : bdtPatterns[k]? = some w) (hlt : p < p') : p + w.length ≤ p' := by
  obtain ⟨w1, e1, h1, hp⟩ := hit_iff.mp h
  rw [hw] at e1
  cases e1
  obtain ⟨w2, e2, h2, hp'⟩ := hit_iff.mp h'
  obtain ⟨c, n, e, hn, hm, hc⟩ := pattern_shape hw
  obtain ⟨c', n', e', hn', hm', hc'⟩ := pattern_shape e2
  subst e e'
  rw [List.length_replicate]
  rcases Nat.lt_or_ge p' (p + n) with hov | h
  · exfalso
    have a1 := hit_letter h1 (i := p' - p) (by omega)
    have a2 := hit_letter h2 (i := 0) (by omega)
    rw [Nat.add_zero] at a2
    rw [show p + (p' - p) = p' by omega, a2] at a1
    injection a1 with a1
    subst a1
    have hk := letter_inj hc hc'
    subst hk
    rw [hw] at e2
    have hnn : n = n' := by
      have := congrArg List.length (Option.some.inj e2)
      rwa [List.length_replicate, List.length_replicate] at this
    subst hnn
    refine hr c' (n + 1) hm ?_
    have : List.replicate (n + 1) c' <+: format.drop p := by
      refine run_infix (n + 1) p (fun i hi => ?_) hp
      rcases Nat.lt_or_ge i n with h | h
      · exact hit_letter h1 h
      · have := hit_letter h2 (i := p + i - p') (by omega)
        rwa [show p' + (p + i - p') = p + i by omega] at this
    exact this.isInfix.trans (List.drop_suffix p format).isInfix
  · exact h

/-- The hits come in the order of their ends, at each end the longer ones first. -/
theorem reports_sorted (ps : List (List Char)) (text : List Char) :
    (allReports ps text).Pairwise fun a b => ∃ w w', ps[a.1]? = some w ∧ ps[b.1]? = some w' ∧
      (a.2 + w.length < b.2 + w'.length ∨ (a.2 + w.length = b.2 + w'.length ∧ a.2 < b.2)) := by
  have hend : ∀ i, i < text.length → ∀ a ∈ endingAt ps (text.take (i + 1)) (i + 1), ∃ w, ps[a.1]? = some w ∧ a.2 + w.length = i + 1 := by
    intro i hi a ha
    unfold endingAt at ha
    obtain ⟨l, hl, e⟩ := List.mem_filterMap.mp ha
    obtain ⟨k, hk, rfl⟩ := Option.map_eq_some_iff.mp e
    rw [mem_downFrom] at hl
    refine ⟨_, (lastIndex_some.mp hk).1, ?_⟩
    rw [List.length_drop, List.length_take]
    simp only []
    omega
  have hdown : ∀ e, (downFrom e).Pairwise (· > ·) := by
    intro e
    induction e with
    | zero => exact List.Pairwise.nil
    | succ e ih =>
      rw [downFrom, List.pairwise_cons]
      exact ⟨fun l hl => by rw [mem_downFrom] at hl; omega, ih⟩
  unfold allReports
  rw [List.pairwise_flatMap]
  constructor
  · intro i hi
    rw [List.mem_range] at hi
    have h1 : (endingAt ps (text.take (i + 1)) (i + 1)).Pairwise fun a b => a.2 < b.2 := by
      unfold endingAt
      rw [List.pairwise_filterMap]
      refine List.Pairwise.imp_of_mem ?_ (hdown (i + 1))
      intro a b ha hb hab x hx y hy
      rw [mem_downFrom] at ha hb
      obtain ⟨k, _, rfl⟩ := Option.map_eq_some_iff.mp hx
      obtain ⟨k', _, rfl⟩ := Option.map_eq_some_iff.mp hy
      simp only []
      omega
    refine List.Pairwise.imp_of_mem ?_ h1
    intro a b ha hb hab
    obtain ⟨w, h2, h3⟩ := hend i hi a ha
    obtain ⟨w', h2', h3'⟩ := hend i hi b hb
    exact ⟨w, w', h2, h2', Or.inr ⟨by omega, hab⟩⟩
  · refine List.Pairwise.imp_of_mem ?_ List.pairwise_lt_range
    intro i j hi hj hij a ha b hb
    rw [List.mem_range] at hi hj
    obtain ⟨w, h2, h3⟩ := hend i hi a ha
    obtain ⟨w', h2', h3'⟩ := hend j hj b hb
    exact ⟨w, w', h2, h2', Or.inl (by omega)⟩

/-- Copying up to the next hit. -/
theorem replaced_copy {b : Bdt} {format out : List Char} : ∀ (n last : Nat), last + n ≤ format.length →
    (∀ p, last ≤ p → p < last + n → ∀ k, (k, p) ∉ allReports bdtPatterns format) → Replaced b (format.drop (last + n)) out →
    Replaced b (format.drop last) ((format.drop last).take n ++ out) := by
  intro n
  induction n with
  | zero => intro last _ _ h; simpa using h
  | succ n ih =>
    intro last hl hno h
    have hlt : last < format.length := by omega
    have := ih (last + 1) (by omega) (fun p h1 h2 => hno p (by omega) (by omega)) (by rwa [show last + 1 + n = last + (n + 1) by omega])
    rw [List.drop_eq_getElem_cons hlt, List.take_succ_cons, List.cons_append]
    refine Replaced.copy (fun p v w hm hp => ?_) this
    obtain ⟨k, hk⟩ := mem_field b hm
    refine hno last (by omega) (by omega) k (hit_iff.mpr ⟨p, hk, ?_, by omega⟩)
    rwa [List.drop_eq_getElem_cons hlt]

theorem replaceHits_spec {b : Bdt} (hb : Printable b) {format : List Char} (hits : List (Nat × Nat)) : ∀ (last : Nat) (out : List Char),
    last ≤ format.length →
    (∀ k p, (k, p) ∈ hits ↔ (k, p) ∈ allReports bdtPatterns format ∧ last ≤ p) →
    hits.Pairwise (fun a c => a.2 + (bdtPatterns.getD a.1 []).length ≤ c.2 ∧ a.2 < c.2) →
    ∃ out', replaceHits b format hits last out = .ok (out ++ out') ∧ Replaced b (format.drop last) out' := by
  induction hits with
  | nil =>
    intro last out hl hm _
    refine ⟨format.drop last, rfl, ?_⟩
    have := replaced_copy (b := b) (format := format) (out := []) (format.length - last) last (by omega) (fun p h1 _ k h => by
      have := (hm k p).mpr ⟨h, h1⟩; cases this) (by rw [show last + (format.length - last) = format.length by omega, List.drop_length]; exact Replaced.nil)
    rwa [List.append_nil, List.take_of_length_le (by rw [List.length_drop]; omega)] at this
  | cons hit hits ih =>
    obtain ⟨k, p⟩ := hit
    intro last out hl hm hp
    rw [List.pairwise_cons] at hp
    obtain ⟨hin, hlp⟩ := (hm k p).mp List.mem_cons_self
    obtain ⟨w, hw, hpre, hple⟩ := hit_iff.mp hin
    have hgd : bdtPatterns.getD k [] = w := by rw [List.getD_eq_getElem?_getD, hw]; rfl
    obtain ⟨rest, hrest⟩ := hpre
    have hlen : p + w.length ≤ format.length := by
      have := congrArg List.length hrest
      rw [List.length_append, List.length_drop] at this
      omega
    have hwpos : 1 ≤ w.length := by
      obtain ⟨c, n, e, hn, _⟩ := pattern_shape hw
      rw [e, List.length_replicate]; exact hn
    obtain ⟨out', e1, e2⟩ := ih (p + w.length) (out ++ (format.drop last).take (p - last) ++ fieldText b k) hlen (fun k' p' => by
      constructor
      · intro h
        have h1 := hp.1 (k', p') h
        rw [hgd] at h1
        exact ⟨((hm k' p').mp (List.mem_cons_of_mem _ h)).1, h1.1⟩
      · rintro ⟨h1, h2⟩
        rcases List.mem_cons.mp ((hm k' p').mpr ⟨h1, by omega⟩) with h3 | h3
        · injection h3 with _ h4; omega
        · exact h3) hp.2
    refine ⟨(format.drop last).take (p - last) ++ (fieldText b k ++ out'), ?_, ?_⟩
    · rw [replaceHits, if_neg (by omega), hgd, e1]
      simp only [List.append_assoc]
    · refine replaced_copy (p - last) last (by omega) (fun q h1 h2 k' h => ?_) ?_
      · rcases List.mem_cons.mp ((hm k' q).mpr ⟨h, h1⟩) with h3 | h3
        · injection h3 with _ h4; omega
        · have := (hp.1 _ h3).2; simp only [] at this; omega
      · rw [show last + (p - last) = p by omega, ← hrest]
        obtain ⟨v, wd, hv, hpr⟩ := field_mem b hw
        have : rest = format.drop (p + w.length) := by
          rw [← List.drop_drop, ← hrest, List.drop_left]
        rw [this]
        exact Replaced.field hv (hpr hb) e2

/-- C91, as far as it holds.  If no letter is repeated more often than its field has letters, each field of the format is replaced by its
number in the right width and everything else is copied. -/
theorem bdtToString_replaced_partial {matcher : Trie Char} (hm : IsMatcher matcher) {b : Bdt} (hb : Printable b) {format : List Char} (hf : format ≠ [])
    (hr : NoLongRun format) : ∃ out, bdtToString matcher b format = .ok out ∧ Replaced b format out := by
  unfold bdtToString
  rw [if_neg hf, matcher_search hm]
  simp only []
  obtain ⟨out, e1, e2⟩ := replaceHits_spec hb (format := format) (allReports bdtPatterns format) 0 [] (by omega) (fun k p => by simp) (by
    refine List.Pairwise.imp_of_mem ?_ (reports_sorted bdtPatterns format)
    rintro ⟨k, p⟩ ⟨k', p'⟩ ha hc ⟨w, w', hw, hw', h⟩
    simp only [] at hw hw' h
    have hgd : bdtPatterns.getD k [] = w := by rw [List.getD_eq_getElem?_getD, hw]; rfl
    simp only [hgd]
    have hlt : p < p' := by
      rcases h with h | h
      · rcases Nat.lt_trichotomy p p' with h1 | h1 | h1
        · exact h1
        · subst h1
          exfalso
          obtain ⟨c, n, e, hn, _, hcc⟩ := pattern_shape hw
          obtain ⟨c', n', e', hn', _, hcc'⟩ := pattern_shape hw'
          obtain ⟨x, ex, h2, _⟩ := hit_iff.mp ha
          obtain ⟨y, ey, h3, _⟩ := hit_iff.mp hc
          rw [hw] at ex; cases ex
          rw [hw'] at ey; cases ey
          subst e e'
          have a1 := hit_letter h2 (i := 0) (by omega)
          have a2 := hit_letter h3 (i := 0) (by omega)
          rw [a1] at a2
          injection a2 with a2
          subst a2
          have := letter_inj hcc hcc'
          subst this
          rw [hw] at hw'
          rw [Option.some.inj hw'] at h
          omega
        · have := hits_apart hr hc ha hw' h1
          omega
      · exact h.2
    exact ⟨hits_apart hr ha hc hw hlt, hlt⟩)
  exact ⟨out, by rw [e1, List.nil_append], by simpa using e2⟩

/-- C91: without a format. -/
theorem bdtToString_default (matcher : Trie Char) {b : Bdt} (hb : Printable b) : ∃ d mo y h mi s l,
    bdtToString matcher b [] = .ok (d ++ '/' :: (mo ++ '/' :: (y ++ ' ' :: (h ++ ':' :: (mi ++ ':' :: (s ++ '.' :: l)))))) ∧
    Prints 2 b.mday d ∧ Prints 2 b.month mo ∧ Prints 4 b.year y ∧ Prints 2 b.hour h ∧ Prints 2 b.min mi ∧ Prints 2 b.sec s ∧ Prints 3 b.ms l := by
  obtain ⟨n1, n2, n3, n4, n5, n6, n7⟩ := hb.nonneg
  obtain ⟨s1, s2, s3, s4, s5, s6, s7⟩ := hb.small
  exact ⟨_, _, _, _, _, _, _, rfl, prints_field n1 s1 (by decide), prints_field n2 s2 (by decide), prints_field n3 s3 (by decide), prints_field n4 s4 (by decide),
    prints_field n5 s5 (by decide), prints_field n6 s6 (by decide), prints_field n7 s7 (by decide)⟩

theorem noLongRun_example : NoLongRun "dd.MM.YYYY hh:mm, m s d".toList := by
  have h : ∀ x ∈ [('d', 3), ('M', 3), ('Y', 5), ('y', 5), ('h', 3), ('m', 3), ('s', 3), ('l', 4)],
      List.isInfixOf_internal (List.replicate x.2 x.1) "dd.MM.YYYY hh:mm, m s d".toList = false := by decide +kernel
  intro c n hm hi
  have := h (c, n) hm
  rw [List.isInfixOf_internal_iff_isInfix.mpr hi] at this
  cases this

example : Printable ⟨-0, 5, 7, 13, 0, 9, 2, 39, 2024⟩ := ⟨by decide, by decide⟩

/-- C91 is violated by three days: the second hit starts before the end of the first, and memory outside of the format is read. -/
theorem bdt_overlap_violated {matcher : Trie Char} (hm : IsMatcher matcher) (b : Bdt) : bdtToString matcher b "ddd".toList = .undefined := by
  unfold bdtToString
  rw [if_neg (by decide), matcher_search hm]
  have : allReports bdtPatterns "ddd".toList = [(0, 0), (0, 1)] := by decide +kernel
  rw [this]
  rfl

end Verif.Time

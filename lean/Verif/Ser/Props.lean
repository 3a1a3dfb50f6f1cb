import Verif.Ser.Lemmas

/-!
# C112: what was serialized is read back
-/

namespace Verif.Ser

variable {E : Env} {less : Less E}

/-- With a name in front: only empty values and optionals differ from the plain form -/
theorem ser_named (n : Str) (t : Ty) (v : t.Val E) (h : t ≠ .empty) (hn : ¬ t.nullable) :
    t.ser E (some n) v = .name n :: t.ser E none v := by
  cases t <;> first | rfl | exact absurd rfl h | exact absurd trivial hn

theorem ser_named_ptr (n : Str) (fs : Fields) (v : (Ty.ptr fs).Val E) :
    Ty.ser E (some n) (.ptr fs) v = .name n :: Ty.ser E none (.ptr fs) v := by
  cases v <;> rfl

theorem ser_named_poly (n : Str) (cs : Classes) (v : (Ty.poly cs).Val E) :
    Ty.ser E (some n) (.poly cs) v = .name n :: Ty.ser E none (.poly cs) v := by
  cases v <;> rfl

theorem ok_ne_empty {t : Ty} (h : t.Ok E) : t ≠ .empty := by
  rintro rfl
  exact h

mutual
theorem clean_dflt : (t : Ty) → (v : t.Val E) → t.Clean E v (t.dflt E)
  | .pair a b, v => ⟨clean_dflt a v.1, clean_dflt b v.2⟩
  | .obj fs, v => clean_dfltF fs v
  | .int .., _ => trivial
  | .bool, _ => trivial
  | .str, _ => trivial
  | .bytes, _ => trivial
  | .double, _ => trivial
  | .empty, _ => trivial
  | .rep _, _ => trivial
  | .opt _, _ => trivial
  | .vec _, _ => trivial
  | .set _, _ => trivial
  | .map .., _ => trivial
  | .strMap _, _ => trivial
  | .variant _, _ => trivial
  | .ptr _, _ => trivial
  | .poly _, _ => trivial
theorem clean_dfltF : (fs : Fields) → (v : fs.Val E) → fs.Clean E v (fs.dflt E)
  | .nil, _ => trivial
  | .cons _ t fs, v => ⟨clean_dflt t v.1, clean_dfltF fs v.2⟩
  | .opt _ _ fs, v => ⟨fun _ => rfl, clean_dfltF fs v.2⟩
end

mutual
theorem clean_direct : (t : Ty) → t.Direct → (v old : t.Val E) → t.Clean E v old
  | .pair a b, h, v, old => ⟨clean_direct a h.1 v.1 old.1, clean_direct b h.2 v.2 old.2⟩
  | .obj fs, h, v, old => clean_directF fs h v old
  | .int .., _, _, _ => trivial
  | .bool, _, _, _ => trivial
  | .str, _, _, _ => trivial
  | .bytes, _, _, _ => trivial
  | .double, _, _, _ => trivial
  | .empty, _, _, _ => trivial
  | .rep _, _, _, _ => trivial
  | .opt _, _, _, _ => trivial
  | .vec _, _, _, _ => trivial
  | .set _, _, _, _ => trivial
  | .map .., _, _, _ => trivial
  | .strMap _, _, _, _ => trivial
  | .variant _, _, _, _ => trivial
  | .ptr _, _, _, _ => trivial
  | .poly _, _, _, _ => trivial
theorem clean_directF : (fs : Fields) → fs.Direct → (v old : fs.Val E) → fs.Clean E v old
  | .nil, _, _, _ => trivial
  | .cons _ t fs, h, v, old => ⟨clean_direct t h.1 v.1 old.1, clean_directF fs h.2 v.2 old.2⟩
  | .opt _ _ _, h, _, _ => absurd h id
end

/-- The alternative of the value, default-constructed -/
def dfltAt (E : Env) : (as : Alts) → as.Val E → as.Val E
  | .one t, _ => t.dflt E
  | .cons t _, .inl _ => .inl (t.dflt E)
  | .cons _ as, .inr v => .inr (dfltAt E as v)

theorem which_lt : (as : Alts) → (v : as.Val E) → as.which E v < as.count
  | .one _, _ => Nat.one_pos
  | .cons _ _, .inl _ => Nat.succ_pos _
  | .cons _ as, .inr v => Nat.succ_lt_succ (which_lt as v)

theorem setIndex_which : (as : Alts) → (v old : as.Val E) → as.setIndex E (as.which E v) old = dfltAt E as v
  | .one _, _, _ => rfl
  | .cons _ _, .inl _, .inl _ => rfl
  | .cons _ _, .inl _, .inr _ => rfl
  | .cons _ as, .inr v, .inl _ => by
    simp only [Alts.which, Alts.setIndex, dfltAt]
    refine (if_pos (which_lt as v)).trans ?_
    exact congrArg Sum.inr (setIndex_which as v _)
  | .cons _ as, .inr v, .inr o => by
    simp only [Alts.which, Alts.setIndex, dfltAt]
    rw [setIndex_which as v o]

theorem readPair_two {α β : Type} (f : Doc → α → Option α) (g : Doc → β → Option β) (old : α × β) {x y a b}
    (h : f x old.1 = some a) (k : g y old.2 = some b) : readPair f g old [x, y] = some (a, b) := by
  rw [readPair, h, Option.bind_some, k, Option.map_some]

/-- Written as `d` and read back from it -/
structure Good (less : Less E) (t : Ty) (v : t.Val E) (d : Doc) : Prop where
  writes : Pushes (t.ser E none v) d
  reads : ∀ old, t.Clean E v old → t.deser E less (some d) old = some v
  isVal : ¬ t.nullable → isNull d = false

/-- A named value: one property, or none when a missing one reads as the value -/
def GoodNamed (less : Less E) (n : Str) (t : Ty) (v : t.Val E) (o : Option Doc) : Prop :=
  PushesMems (t.ser E (some n) v) (o.toList.map fun d => (n, d)) ∧
    ∀ old, t.Clean E v old → t.deser E less o old = some v

theorem good_named (n : Str) (t : Ty) (ht : t.Ok E) (v : t.Val E) (hv : t.Fits E less v)
    (h : ∀ v, t.Fits E less v → ∃ d, Good less t v d) : ∃ o, GoodNamed less n t v o := by
  obtain ⟨d, hd⟩ := h v hv
  cases t with
  | opt t =>
    cases v with
    | none => exact ⟨none, PushesMems.nil, fun _ _ => rfl⟩
    | some x =>
      refine ⟨some d, ?_, hd.reads⟩
      have e : Ty.ser E (some n) (.opt t) (some x) = .name n :: Ty.ser E none (.opt t) (some x) :=
        ser_named n t x (ok_ne_empty ht.1) ht.2
      rw [e]
      exact hd.writes.mem n
  | ptr fs => exact ⟨some d, by rw [ser_named_ptr]; exact hd.writes.mem n, hd.reads⟩
  | poly cs => exact ⟨some d, by rw [ser_named_poly]; exact hd.writes.mem n, hd.reads⟩
  | empty => exact absurd ht id
  | _ => exact ⟨some d, by rw [ser_named n _ v (fun e => nomatch e) id]; exact hd.writes.mem n, hd.reads⟩

theorem good_empty (n : Str) (v : Ty.empty.Val E) : GoodNamed less n .empty v none :=
  ⟨PushesMems.nil, fun _ _ => rfl⟩

mutual
theorem good : (t : Ty) → t.Ok E → (v : t.Val E) → t.Fits E less v → ∃ d, Good less t v d
  | .int s b, ht, v, hv => by
    refine ⟨_, pushes_int _, fun _ _ => ?_, fun _ => rfl⟩
    exact congrArg some (narrow_ser s b ht v hv)
  | .bool, _, v, _ => ⟨_, pushes_bool v, fun _ _ => rfl, fun _ => rfl⟩
  | .str, _, v, _ => ⟨_, pushes_str v, fun _ _ => rfl, fun _ => rfl⟩
  | .bytes, _, v, _ => ⟨_, pushes_bytes v, fun _ _ => rfl, fun _ => rfl⟩
  | .double, _, v, hv => ⟨_, pushes_float _, fun _ _ => congrArg some (sixDigits_exact v hv), fun _ => rfl⟩
  | .empty, ht, _, _ => absurd ht id
  | .rep k, ht, v, _ => by
    refine ⟨_, pushes_str (E.toText k v), fun _ _ => ?_, fun _ => rfl⟩
    show readRep E k (E.toText k v) = some v
    rw [readRep]
    by_cases h : E.toText k v = []
    · rw [if_pos h, ← (ht v).1 h]
      rfl
    · rw [if_neg h]
      exact (ht v).2 h
  | .opt t, ht, none, _ => ⟨_, pushes_null, fun _ _ => rfl, fun h => absurd trivial h⟩
  | .opt t, ht, some v, hv => by
    obtain ⟨d, h⟩ := good t ht.1 v hv
    refine ⟨d, h.writes, fun _ _ => ?_, fun h => absurd trivial h⟩
    show (if isNull d then some none else (t.deser E less (some d) (t.dflt E)).map some) = _
    rw [h.isVal ht.2, h.reads _ (clean_dflt t v)]
    rfl
  | .pair a b, ht, v, hv => by
    obtain ⟨x, hx⟩ := good a ht.1 v.1 hv.1
    obtain ⟨y, hy⟩ := good b ht.2 v.2 hv.2
    refine ⟨_, pushes_pair hx.writes hy.writes, fun old ho => ?_, fun _ => rfl⟩
    exact readPair_two (fun d => a.deser E less (some d)) (fun d => b.deser E less (some d)) old (hx.reads _ ho.1) (hy.reads _ ho.2)
  | .vec t, ht, v, hv => by
    obtain ⟨ds, hp, hr⟩ := pushes_flatMap (t.ser E none) (fun d => t.deser E less (some d) (t.dflt E)) v (fun x hx => by
      obtain ⟨d, h⟩ := good t ht x (hv x hx)
      exact ⟨d, h.writes, h.reads _ (clean_dflt t x)⟩)
    exact ⟨_, hp.list, fun _ _ => hr, fun _ => rfl⟩
  | .set t, ht, v, hv => by
    obtain ⟨ds, hp, hr⟩ := pushes_flatMap (t.ser E none) (fun d => t.deser E less (some d) (t.dflt E)) v (fun x hx => by
      obtain ⟨d, h⟩ := good t ht x (hv.1 x hx)
      exact ⟨d, h.writes, h.reads _ (clean_dflt t x)⟩)
    refine ⟨_, hp.list, fun _ _ => ?_, fun _ => rfl⟩
    show (readAll _ ds).map _ = _
    rw [hr]
    exact congrArg some (foldl_insertBy_sorted (less t) id v hv.2)
  | .map k w, ht, v, hv => by
    obtain ⟨ds, hp, hr⟩ := pushes_flatMap (fun p : k.Val E × w.Val E => .beginList :: k.ser E none p.1 ++ w.ser E none p.2 ++ [.endList])
      (fun d => (listOf d).bind (readPair (fun d => k.deser E less (some d)) (fun d => w.deser E less (some d))
        (k.dflt E, w.dflt E))) v (fun p hp => by
      obtain ⟨x, hx⟩ := good k ht.1 p.1 (hv.1 p hp).1
      obtain ⟨y, hy⟩ := good w ht.2 p.2 (hv.1 p hp).2
      refine ⟨_, pushes_pair hx.writes hy.writes, ?_⟩
      exact readPair_two (fun d => k.deser E less (some d)) (fun d => w.deser E less (some d)) (k.dflt E, w.dflt E)
        (hx.reads _ (clean_dflt k p.1)) (hy.reads _ (clean_dflt w p.2)))
    refine ⟨_, hp.list, fun _ _ => ?_, fun _ => rfl⟩
    show (readAll _ ds).map _ = _
    rw [hr]
    exact congrArg some (foldl_insertBy_sorted (less k) Prod.fst v hv.2)
  | .strMap w, ht, v, hv => by
    obtain ⟨ds, hp, hr⟩ := pushes_flatMap (fun p : Str × w.Val E => .beginList :: [.str p.1] ++ w.ser E none p.2 ++ [.endList])
      (fun d => (listOf d).bind (readPair (fun d _ => strOf d)
        (fun d => w.deser E less (some d)) (([] : Str), w.dflt E))) v (fun p hp => by
      obtain ⟨y, hy⟩ := good w ht p.2 (hv.1 p hp)
      refine ⟨_, pushes_pair (pushes_str p.1) hy.writes, ?_⟩
      show (w.deser E less (some y) (w.dflt E)).map _ = _
      rw [hy.reads _ (clean_dflt w p.2)]
      rfl)
    refine ⟨_, hp.list, fun _ _ => ?_, fun _ => rfl⟩
    show (readAll _ ds).map _ = _
    rw [hr]
    exact congrArg some (foldl_insertBy_sorted (less .str) Prod.fst v hv.2)
  | .variant as, ht, v, hv => by
    obtain ⟨o, hp, hr⟩ := goodA as ht.1 v hv
    refine ⟨_, ((pushes_int _).mem "index".toList |>.append hp).obj, fun old _ => ?_, fun _ => rfl⟩
    have hl : as.which E v < 2 ^ 63 := Nat.lt_trans (which_lt as v) ht.2
    show as.deserObj E less (find "obj".toList (("index".toList, _) :: o.toList.map fun d => ("obj".toList, d)))
      (as.setIndex E (narrow false 64 (toS64 (as.which E v))).toNat old) = _
    have hi : as.setIndex E (narrow false 64 (toS64 (as.which E v))).toNat old = dfltAt E as v := by
      rw [which_narrow _ hl]
      exact setIndex_which as v old
    have hf : find "obj".toList (("index".toList, Doc.int (toS64 (as.which E v))) :: o.toList.map fun d => ("obj".toList, d)) = o := by
      rw [find, if_neg (by decide)]
      cases o with
      | none => rfl
      | some d => exact if_pos rfl
    rw [hf]
    exact (congrArg _ hi).trans hr
  | .obj fs, ht, v, hv => by
    obtain ⟨ms, hp, _, hr⟩ := goodF fs ht v hv
    exact ⟨_, hp.obj, fun old ho => hr ms (fun _ _ => rfl) old ho, fun _ => rfl⟩
  | .ptr fs, ht, none, _ => ⟨_, pushes_null, fun _ _ => rfl, fun h => absurd trivial h⟩
  | .ptr fs, ht, some v, hv => by
    obtain ⟨ms, hp, _, hr⟩ := goodF fs ht v hv
    refine ⟨_, hp.obj, fun old ho => ?_, fun h => absurd trivial h⟩
    show (fs.deser E less (.map ms) (fs.dflt E)).map some = _
    rw [hr ms (fun _ _ => rfl) _ (clean_dfltF fs v)]
    rfl
  | .poly cs, ht, none, _ => ⟨_, pushes_null, fun _ _ => rfl, fun h => absurd trivial h⟩
  | .poly cs, ht, some v, hv => by
    obtain ⟨ms, c, hp, hf, _, hr⟩ := goodC cs ht v hv
    refine ⟨_, hp.obj, fun old ho => ?_, fun h => absurd trivial h⟩
    show ((find ".class".toList ms).bind _) = _
    rw [hf]
    show (cs.deser E less c (.map ms)).map some = _
    rw [hr]
    rfl
theorem goodA : (as : Alts) → as.Ok E → (v : as.Val E) → as.Fits E less v →
    ∃ o : Option Doc, PushesMems (as.serObj E v) (o.toList.map fun d => ("obj".toList, d)) ∧
      as.deserObj E less o (dfltAt E as v) = some v
  | .one t, ht, v, hv => by
    rcases ht with rfl | ht
    · exact ⟨none, PushesMems.nil, rfl⟩
    · obtain ⟨o, h⟩ := good_named "obj".toList t ht v hv (good t ht)
      exact ⟨o, h.1, h.2 _ (clean_dflt t v)⟩
  | .cons t _, ht, .inl v, hv => by
    rcases ht.1 with rfl | ht
    · exact ⟨none, PushesMems.nil, rfl⟩
    · obtain ⟨o, h⟩ := good_named "obj".toList t ht v hv (good t ht)
      refine ⟨o, h.1, ?_⟩
      show (t.deser E less o (t.dflt E)).map _ = _
      rw [h.2 _ (clean_dflt t v)]
      rfl
  | .cons _ as, ht, .inr v, hv => by
    obtain ⟨o, h, hr⟩ := goodA as ht.2 v hv
    refine ⟨o, h, ?_⟩
    show (as.deserObj E less o (dfltAt E as v)).map _ = _
    rw [hr]
    rfl
theorem goodF : (fs : Fields) → fs.Ok E → (v : fs.Val E) → fs.Fits E less v →
    ∃ ms, PushesMems (fs.ser E v) ms ∧ (∀ n, find n ms ≠ none → n ∈ fs.names) ∧
      ∀ all, (∀ n ∈ fs.names, find n all = find n ms) → ∀ old, fs.Clean E v old →
        fs.deser E less (.map all) old = some v
  | .nil, _, _, _ => ⟨[], PushesMems.nil, fun _ h => absurd rfl h, fun _ _ _ _ => rfl⟩
  | .cons n t fs, ht, v, hv => by
    obtain ⟨o, h⟩ := good_named n t ht.1 v.1 hv.1 (good t ht.1)
    obtain ⟨ms, hp, hn, hr⟩ := goodF fs ht.2.2 v.2 hv.2
    have h1 : ∀ m, m ≠ n → find m (o.toList.map fun d => (n, d)) = none := by
      intro m hm
      cases o with
      | none => rfl
      | some d => exact if_neg (Ne.symm hm)
    have h2 : find n (o.toList.map fun d => (n, d)) = o := by
      cases o with
      | none => rfl
      | some d => exact if_pos rfl
    have h3 : find n ms = none := by
      cases hc : find n ms with
      | none => rfl
      | some x => exact absurd (hn n (by rw [hc]; exact fun e => nomatch e)) ht.2.1
    refine ⟨_, h.1.append hp, ?_, ?_⟩
    · intro m hm
      by_cases e : m = n
      · exact e ▸ List.mem_cons_self ..
      · rw [find_append, h1 m e] at hm
        exact List.mem_cons_of_mem _ (hn m hm)
    · intro all ha old ho
      have e1 : find n all = o := by
        rw [ha n (List.mem_cons_self ..), find_append, h2, h3]
        cases o <;> rfl
      show (t.deser E less (find n all) old.1).bind _ = _
      rw [e1, h.2 _ ho.1]
      show (fs.deser E less (.map all) old.2).map _ = _
      rw [hr all ?_ _ ho.2]
      · rfl
      · intro m hm
        have e : m ≠ n := fun e => ht.2.1 (e ▸ hm)
        rw [ha m (List.mem_cons_of_mem _ hm), find_append, h1 m e]
        rfl
  | .opt n t fs, ht, v, hv => by
    obtain ⟨x, rest⟩ := v
    obtain ⟨ms, hp, hn, hr⟩ := goodF fs ht.2.2.2 rest hv.2
    have h3 : find n ms = none := by
      cases hc : find n ms with
      | none => rfl
      | some x => exact absurd (hn n (by rw [hc]; exact fun e => nomatch e)) ht.2.2.1
    cases x with
    | none =>
      refine ⟨ms, hp, fun m hm => List.mem_cons_of_mem _ (hn m hm), ?_⟩
      intro all ha old ho
      simp only [Fields.deser, mapOf, Option.bind]
      rw [ha n (List.mem_cons_self ..), h3]
      simp only []
      rw [hr all (fun m hm => ha m (List.mem_cons_of_mem _ hm)) _ ho.2, ho.1 rfl]
      rfl
    | some x =>
      obtain ⟨d, h⟩ := good t ht.1 x (hv.1 x rfl)
      refine ⟨_, (h.writes.mem n).append hp, ?_, ?_⟩
      · intro m hm
        by_cases e : m = n
        · exact e ▸ List.mem_cons_self ..
        · rw [List.singleton_append, find, if_neg (Ne.symm e)] at hm
          exact List.mem_cons_of_mem _ (hn m hm)
      · intro all ha old ho
        simp only [Fields.deser, mapOf, Option.bind]
        rw [ha n (List.mem_cons_self ..), List.singleton_append, find, if_pos rfl]
        simp only [h.isVal ht.2.1, h.reads _ (clean_dflt t x)]
        rw [hr all ?_ _ ho.2]
        · rfl
        · intro m hm
          have e : m ≠ n := fun e => ht.2.2.1 (e ▸ hm)
          rw [ha m (List.mem_cons_of_mem _ hm), List.singleton_append, find, if_neg (Ne.symm e)]
theorem goodC : (cs : Classes) → cs.Ok E → (v : cs.Val E) → cs.Fits E less v →
    ∃ ms c, PushesMems (cs.ser E v) ms ∧ find ".class".toList ms = some (.str c) ∧ c ∈ cs.names ∧
      cs.deser E less c (.map ms) = some v
  | .nil, _, v, _ => nomatch v
  | .cons n fs _, ht, .inl v, hv => by
    obtain ⟨ms, hp, hn, hr⟩ := goodF fs ht.1 v hv
    refine ⟨_, n, ((pushes_str n).mem ".class".toList).append hp, if_pos rfl, List.mem_cons_self .., ?_⟩
    rw [Classes.deser, if_pos rfl, hr _ ?_ _ (clean_dfltF fs v)]
    · rfl
    · intro m hm
      exact if_neg fun e : ".class".toList = m => ht.2.1 (e ▸ hm)
  | .cons n _ cs, ht, .inr v, hv => by
    obtain ⟨ms, c, hp, hf, hc, hr⟩ := goodC cs ht.2.2.2 v hv
    refine ⟨ms, c, hp, hf, List.mem_cons_of_mem _ hc, ?_⟩
    rw [Classes.deser, if_neg fun e : c = n => ht.2.2.1 (e ▸ hc), hr]
    rfl
end

/-- **C112.** The events of a value describe one document, and reading that document gives the value,
also into an object that already holds something, unless that object has a stale optional member -/
theorem roundtrip_partial (t : Ty) (ht : t.Ok E) (v old : t.Val E) (hv : t.Fits E less v) (hc : t.Clean E v old) :
    ∃ d, Describes (t.ser E none v) d ∧ t.deser E less (some d) old = some v := by
  obtain ⟨d, h⟩ := good t ht v hv
  exact ⟨d, h.writes.describes, h.reads old hc⟩

/-- Into a new object -/
theorem roundtrip_new (t : Ty) (ht : t.Ok E) (v : t.Val E) (hv : t.Fits E less v) :
    ∃ d, Describes (t.ser E none v) d ∧ t.deser E less (some d) (t.dflt E) = some v :=
  roundtrip_partial t ht v _ hv (clean_dflt t v)

/-- Into any object, when no composite with optional members is read in place -/
theorem roundtrip_any (t : Ty) (ht : t.Ok E) (hd : t.Direct) (v old : t.Val E) (hv : t.Fits E less v) :
    ∃ d, Describes (t.ser E none v) d ∧ t.deser E less (some d) old = some v :=
  roundtrip_partial t ht v old hv (clean_direct t hd v old)

/-- Two values that are written alike are equal -/
theorem ser_inj (t : Ty) (ht : t.Ok E) (v w : t.Val E) (hv : t.Fits E less v) (hw : t.Fits E less w)
    (h : t.ser E none v = t.ser E none w) : v = w := by
  obtain ⟨d, hd, hr⟩ := roundtrip_new t ht v hv
  obtain ⟨e, he, hs⟩ := roundtrip_new t ht w hw
  rw [h] at hd
  have : d = e := by
    have := hd.symm.trans he
    simpa using this
  rw [this, hs] at hr
  exact (Option.some.inj hr).symm

/-- An environment with one class of texts, for the examples -/
def demo : Env where
  C := fun _ => Nat
  dflt := fun _ => 0
  toText := fun _ n => List.replicate n 'i'
  ofText := fun _ s => some s.length

/-- Integers by size, everything else unordered -/
def demoLess : Less demo
  | .int _ _, (a : Int), (b : Int) => decide (a < b)
  | _, _, _ => false

/-- A composite with an optional member, a set, a variant with an empty alternative, a map and a pointer -/
def demoTy : Ty :=
  .obj (.cons "id".toList (.int false 64) (.opt "note".toList .str (.cons "tags".toList (.set (.int true 8))
    (.cons "alt".toList (.variant (.cons .empty (.cons (.opt .double) (.one (.rep 0)))))
      (.cons "kids".toList (.vec (.opt (.pair .bytes .bool)))
        (.cons "next".toList (.ptr (.cons "x".toList (.poly (.cons "A".toList .nil (.cons "B".toList (.cons "y".toList (.strMap .bool) .nil) .nil))) .nil)) .nil))))))

example : demoTy.Ok demo := by
  refine ⟨⟨by omega, by omega⟩, by decide, ?_⟩
  refine ⟨trivial, id, by decide, ⟨by omega, by omega⟩, by decide, ?_⟩
  refine ⟨⟨⟨.inl rfl, .inr ⟨trivial, id⟩, .inr fun x => ⟨fun h => ?_, fun _ => ?_⟩⟩, by decide⟩, by decide, ?_⟩
  · exact (List.length_replicate ..).symm.trans (congrArg List.length h)
  · exact congrArg some (List.length_replicate ..)
  refine ⟨⟨⟨trivial, trivial⟩, id⟩, by decide, ?_, by decide, trivial⟩
  exact ⟨⟨trivial, by decide, by decide, ⟨trivial, by decide, trivial⟩, by decide, by decide, trivial⟩, by decide, trivial⟩

/-- A value of it -/
def demoVal : demoTy.Val demo :=
  ((2 ^ 63 + 5 : Int), none, [(-3 : Int), (7 : Int)], .inr (.inl (some (-1500000 : Int))), [none, some (([1, 2] : List Nat), true)],
    some (some (.inr (.inl ([("k".toList, false)], ()))), ()), ())

example : demoTy.Fits demo demoLess demoVal := by
  refine ⟨⟨(by decide : (0 : Int) ≤ 2 ^ 63 + 5), (by decide : (2 ^ 63 + 5 : Int) < 2 ^ 64)⟩, ⟨fun x h => (by cases h), ⟨?_, ?_⟩, ⟨15, 5, by decide, by decide⟩, ?_, ?_, trivial⟩⟩
  · intro x h
    rcases List.mem_cons.mp h with rfl | h
    · exact ⟨by decide, by decide⟩
    · cases List.mem_singleton.mp h
      exact ⟨by decide, by decide⟩
  · exact List.pairwise_pair.mpr ⟨rfl, rfl⟩
  · intro x h
    rcases List.mem_cons.mp h with rfl | h
    · trivial
    · cases List.mem_singleton.mp h
      exact ⟨trivial, trivial⟩
  · exact ⟨⟨⟨fun _ _ => trivial, List.pairwise_singleton ..⟩, trivial⟩, trivial⟩

/-- Full statement, violated: an optional that holds a null pointer comes back as a null optional -/
theorem optional_null_pointer_violated :
    ∃ d, Describes (Ty.ser demo none (.opt (.ptr .nil)) (some none)) d ∧
      Ty.deser demo demoLess (.opt (.ptr .nil)) (some d) none = some none :=
  ⟨.null, rfl, rfl⟩

/-- Full statement, violated: an empty value in a pair leaves no trace, so the second element is read as the first -/
theorem empty_in_pair_violated :
    ∃ d, Describes (Ty.ser demo none (.pair .empty (.int true 32)) ((), (5 : Int))) d ∧
      Ty.deser demo demoLess (.pair .empty (.int true 32)) (some d) ((), (0 : Int)) = some ((), (0 : Int)) :=
  ⟨.list [.int 5], rfl, rfl⟩

/-- Full statement, violated: a composite whose optional member is null is read into an object that keeps its old member -/
theorem stale_member_violated :
    ∃ d, Describes (Ty.ser demo none (.obj (.opt "note".toList (.int true 32) .nil)) (none, ())) d ∧
      Ty.deser demo demoLess (.obj (.opt "note".toList (.int true 32) .nil)) (some d) (some (7 : Int), ()) =
        some (some (7 : Int), ()) :=
  ⟨.map [], rfl, rfl⟩

/-- Full statement, violated: doubles are written with six digits -/
theorem double_violated :
    ∃ d, Describes (Ty.ser demo none .double (1234567 : Int)) d ∧
      Ty.deser demo demoLess .double (some d) (0 : Int) = some (1234570 : Int) :=
  ⟨.float 1234570, by
    have : sixDigits 1234567 = 1234570 := by decide +kernel
    show Builder.run _ [.float (sixDigits 1234567)] = _
    rw [this]; rfl, rfl⟩

mutual
theorem pushes_inject : (d : Doc) → Pushes (inject d) d
  | .null => pushes_null
  | .bool _ => pushes_bool _
  | .int _ => pushes_int _
  | .float _ => pushes_float _
  | .str _ => pushes_str _
  | .bytes _ => pushes_bytes _
  | .list ds => (pushes_injectList ds).list
  | .map ms => (pushes_injectMap ms).obj
theorem pushes_injectList : (ds : List Doc) → PushesAll (injectList ds) ds
  | [] => PushesAll.nil
  | d :: ds => (pushes_inject d).all.append (pushes_injectList ds)
theorem pushes_injectMap : (ms : List (Str × Doc)) → PushesMems (injectMap ms) ms
  | [] => PushesMems.nil
  | (n, d) :: ms => ((pushes_inject d).mem n).append (pushes_injectMap ms)
end

/-- `InjectionSerializer` writes the document it was given -/
theorem inject_describes (d : Doc) : Describes (inject d) d := (pushes_inject d).describes

example : inject (.map [("a".toList, .list [.int 1, .null])]) =
    [.beginObj, .name "a".toList, .beginList, .int 1, .null, .endList, .endObj] := by decide

end Verif.Ser

import Verif.Ser.Props

/-!
# C113: a document is read as what it says, or rejected
-/

namespace Verif.Ser

variable {E : Env} {less : Less E}

/-- **C113.** A checked integer below 64 bits is the number in the document, or the document is rejected -/
theorem checked_exact (signed : Bool) (bits : Nat) (hb : 1 ≤ bits ∧ bits < 64) (d : Doc) (i : Int) :
    deserChecked signed bits d = some i ↔ ∃ j : Int, d = .int j ∧ (narrow true 64 j) = i ∧ InRange signed bits i := by
  have key : ∀ j, checkedCast signed bits j = some i ↔ j = i ∧ InRange signed bits i := by
    intro j
    have hr : (lowest signed bits ≤ j ∧ j < pastEnd signed bits) ↔ InRange signed bits j := by
      cases signed <;> simp [lowest, pastEnd, InRange]
    have hn : InRange signed bits j → narrow signed bits j = j := by
      intro h
      cases signed
      · simp only [InRange, Bool.false_eq_true, if_false] at h
        simp only [narrow, Bool.false_eq_true, if_false]
        exact Int.emod_eq_of_lt h.1 h.2
      · simp only [InRange, if_true] at h
        simp only [narrow, if_true]
        obtain ⟨b, rfl⟩ : ∃ b, bits = b + 1 := ⟨bits - 1, by omega⟩
        exact wrap_id b j h
    rw [checkedCast]
    by_cases h : InRange signed bits j
    · rw [if_pos (hr.mpr h), hn h]
      constructor
      · intro e
        cases e
        exact ⟨rfl, h⟩
      · rintro ⟨rfl, _⟩
        rfl
    · rw [if_neg fun c => h (hr.mp c)]
      constructor
      · intro e
        cases e
      · rintro ⟨rfl, h'⟩
        exact absurd h' h
  rw [deserChecked, if_neg (by omega)]
  cases d with
  | int j =>
    simp only [getInt, Option.map_some, Option.bind_some, key]
    constructor
    · exact fun h => ⟨j, rfl, h⟩
    · rintro ⟨_, e, h⟩
      cases e
      exact h
  | _ => simp [getInt]

example : deserChecked false 8 (.int 255) = some 255 ∧ deserChecked false 8 (.int 256) = none ∧
    deserChecked true 8 (.int (-128)) = some (-128) ∧ deserChecked true 8 (.int (-129)) = none := by decide +kernel

/-- **C113.** A 64-bit integer is the number in the document modulo 2^64, in the range of the type; other documents are rejected -/
theorem checked_64 (signed : Bool) (d : Doc) (i : Int) :
    deserChecked signed 64 d = some i ↔ ∃ j : Int, d = .int j ∧ InRange signed 64 i ∧ ∃ k : Int, j = i + k * 2 ^ 64 := by
  rw [deserChecked, if_pos rfl]
  have key : ∀ j, narrow signed 64 j = i ↔ InRange signed 64 i ∧ ∃ k : Int, j = i + k * 2 ^ 64 := by
    intro j
    cases signed
    · simp only [narrow, InRange, Bool.false_eq_true, if_false]
      constructor
      · rintro rfl
        exact ⟨⟨by omega, by omega⟩, j / 2 ^ 64, by omega⟩
      · rintro ⟨h, k, rfl⟩
        omega
    · simp only [narrow, InRange, if_true]
      constructor
      · rintro rfl
        exact ⟨⟨by omega, by omega⟩, (j + 2 ^ 63) / 2 ^ 64, by omega⟩
      · rintro ⟨h, k, rfl⟩
        omega
  cases d with
  | int j =>
    simp only [getInt, Option.map_some, Option.some.injEq, key]
    constructor
    · exact fun h => ⟨j, rfl, h⟩
    · rintro ⟨_, e, h⟩
      cases e
      exact h
  | _ => simp [getInt]

example : deserChecked false 64 (.int (-1)) = some 18446744073709551615 ∧ deserChecked true 64 (.int (-1)) = some (-1) := by decide +kernel

/-- Full statement, violated: a plain integer member takes the low bits of a number that does not fit -/
theorem unchecked_violated : Ty.deser demo demoLess (.int false 8) (some (.int 300)) (0 : Int) = some (44 : Int) := rfl

/-- A plain integer is exact when the number fits -/
theorem unchecked_partial (signed : Bool) (bits : Nat) (hb : 1 ≤ bits) (j old : Int) (h : InRange signed bits j) :
    Ty.deser E less (.int signed bits) (some (.int j)) old = some j := by
  have : narrow signed bits j = j := by
    cases signed
    · simp only [InRange, Bool.false_eq_true, if_false] at h
      simp only [narrow, Bool.false_eq_true, if_false]
      exact Int.emod_eq_of_lt h.1 h.2
    · simp only [InRange, if_true] at h
      simp only [narrow, if_true]
      obtain ⟨b, rfl⟩ : ∃ b, bits = b + 1 := ⟨bits - 1, by omega⟩
      exact wrap_id b j h
  exact congrArg some this

/-- The value of a hexadecimal digit -/
inductive Digit : Char → Nat → Prop
  | dec (c : Char) (k : Nat) (h : k < 10) (e : c.toNat = 48 + k) : Digit c k
  | lower (c : Char) (k : Nat) (h : k < 6) (e : c.toNat = 97 + k) : Digit c (10 + k)
  | upper (c : Char) (k : Nat) (h : k < 6) (e : c.toNat = 65 + k) : Digit c (10 + k)

/-- The text is the bytes in hexadecimal, two digits each -/
inductive HexText : Str → List Nat → Prop
  | nil : HexText [] []
  | cons (h l : Char) (a b : Nat) (s : Str) (bs : List Nat) (ha : Digit h a) (hb : Digit l b) (hs : HexText s bs) :
    HexText (h :: l :: s) ((16 * a + b) :: bs)

theorem or_table : ∀ n < 256, (97 ≤ n ||| 32 ∧ n ||| 32 ≤ 102) ↔ ((97 ≤ n ∧ n ≤ 102) ∨ (65 ≤ n ∧ n ≤ 70)) := by
  decide +kernel

theorem or_lower : ∀ n < 256, ((97 ≤ n ∧ n ≤ 102) → n ||| 32 = n) ∧ ((65 ≤ n ∧ n ≤ 70) → n ||| 32 = n + 32) := by
  decide +kernel

theorem xdigit_iff (c : Char) (hc : c.toNat < 256) (k : Nat) : xdigit c = some k ↔ Digit c k := by
  have h1 := or_table _ hc
  have h2 := or_lower _ hc
  rw [xdigit]
  constructor
  · intro h
    by_cases hd : 48 ≤ c.toNat ∧ c.toNat ≤ 57
    · rw [if_pos hd] at h
      cases h
      exact .dec c _ (by omega) (by omega)
    · rw [if_neg hd] at h
      by_cases hx : 97 ≤ c.toNat ||| 32 ∧ c.toNat ||| 32 ≤ 102
      · rw [if_pos hx] at h
        cases h
        rcases h1.mp hx with hl | hu
        · rw [h2.1 hl, Nat.add_comm]
          exact .lower c _ (by omega) (by omega)
        · rw [h2.2 hu, Nat.add_comm]
          exact .upper c _ (by omega) (by omega)
      · rw [if_neg hx] at h
        cases h
  · intro h
    cases h with
    | dec k hk e => rw [if_pos (by omega)]; congr 1; omega
    | lower k hk e =>
      rw [if_neg (by omega), if_pos (h1.mpr (by omega)), h2.1 (by omega)]; congr 1; omega
    | upper k hk e =>
      rw [if_neg (by omega), if_pos (h1.mpr (by omega)), h2.2 (by omega)]; congr 1; omega

theorem digit_lt {c k} (h : Digit c k) : k < 16 := by
  cases h <;> omega

theorem nibbles : ∀ a < 16, ∀ b < 16, (b ||| (a <<< 4) % 256) = 16 * a + b := by decide +kernel

theorem unhex_iff (s : Str) (hs : ∀ c ∈ s, c.toNat < 256) (bs : List Nat) : unhex s = some bs ↔ HexText s bs := by
  induction s using unhex.induct generalizing bs with
  | case1 =>
    rw [unhex]
    constructor
    · intro h; cases h; exact .nil
    · intro h; cases h; rfl
  | case2 c =>
    rw [unhex]
    constructor
    · intro h; cases h
    · intro h; cases h
  | case3 h l r ih =>
    have hh := xdigit_iff h (hs h (by simp))
    have hl := xdigit_iff l (hs l (by simp))
    have hr := ih fun c hc => hs c (by simp [hc])
    rw [unhex]
    simp only [Option.bind_eq_some_iff, Option.map_eq_some_iff]
    constructor
    · rintro ⟨a, ha, b, hb, t, ht, rfl⟩
      have da := (hh a).mp ha
      have db := (hl b).mp hb
      rw [nibbles a (digit_lt da) b (digit_lt db)]
      exact .cons h l a b r t da db ((hr t).mp ht)
    · intro hx
      cases hx with
      | cons _ _ a b _ t da db ht =>
        exact ⟨a, (hh a).mpr da, b, (hl b).mpr db, t, (hr t).mpr ht, by rw [nibbles a (digit_lt da) b (digit_lt db)]⟩

/-- Binary data given as text is accepted exactly when it is `hex=` and two digits for every byte -/
theorem bytes_text (s : Str) (hs : ∀ c ∈ s, c.toNat < 256) (bs old : List Nat) :
    Ty.deser E less .bytes (some (.str s)) old = some bs ↔ ∃ r, s = "hex=".toList ++ r ∧ HexText r bs := by
  show unpack s = some bs ↔ _
  rw [unpack]
  by_cases h : s.length < 4 ∨ s.take 4 ≠ ['h', 'e', 'x', '=']
  · rw [if_pos h]
    constructor
    · intro e; cases e
    · rintro ⟨r, rfl, _⟩
      exfalso
      rcases h with h | h
      · simp at h
        omega
      · exact h rfl
  · rw [if_neg h]
    have e : s = "hex=".toList ++ s.drop 4 := by
      have h2 : s.take 4 = ['h', 'e', 'x', '='] := Decidable.byContradiction fun c => h (.inr c)
      have := List.take_append_drop 4 s
      rw [h2] at this
      exact this.symm
    rw [unhex_iff _ fun c hc => hs c (List.mem_of_mem_drop hc)]
    constructor
    · exact fun hx => ⟨_, e, hx⟩
    · rintro ⟨r, hr, hx⟩
      have : s.drop 4 = r := by rw [hr]; rfl
      rw [this]
      exact hx

example : unpack "hex=00fFa1".toList = some [0, 255, 161] ∧ unpack "hex=00f".toList = none ∧ unpack "hex".toList = none ∧
    unpack "hex=0g".toList = none := by decide +kernel

/-- Only optional and empty members may be missing -/
theorem missing_rejected (t : Ty) (old : t.Val E) (h : t ≠ .empty) (ho : ∀ u, t ≠ .opt u) :
    t.deser E less none old = none := by
  cases t <;> first | rfl | exact absurd rfl h | exact absurd rfl (ho _)

/-- A missing optional member is read as null -/
theorem missing_optional (t : Ty) (old : (Ty.opt t).Val E) : Ty.deser E less (.opt t) none old = some none := rfl

theorem readPair_long {α β : Type} (f : Doc → α → Option α) (g : Doc → β → Option β) (old : α × β) (x y z : Doc)
    (ds : List Doc) : readPair f g old (x :: y :: z :: ds) = none := by
  rw [readPair]
  cases f x old.1 with
  | none => rfl
  | some u => cases g y old.2 <;> rfl

/-- A pair is read from two elements; more are rejected -/
theorem pair_too_long (a b : Ty) (x y z : Doc) (ds : List Doc) (old : (Ty.pair a b).Val E) :
    Ty.deser E less (.pair a b) (some (.list (x :: y :: z :: ds))) old = none :=
  readPair_long (fun d => a.deser E less (some d)) (fun d => b.deser E less (some d)) old x y z ds

/-- Full statement, violated: a pair with too few elements is accepted and keeps what the object held -/
theorem pair_too_short_violated :
    Ty.deser demo demoLess (.pair (.int true 32) (.int true 32)) (some (.list [.int 5])) ((1 : Int), (2 : Int)) =
      some ((5 : Int), (2 : Int)) := rfl

/-- Full statement, violated: an index that no alternative has is accepted; the object keeps its alternative -/
theorem variant_index_violated :
    Ty.deser demo demoLess (.variant (.cons (.int true 32) (.one .bool)))
        (some (.map [("index".toList, .int 7), ("obj".toList, .int 5)])) (.inl (3 : Int)) = some (.inl (5 : Int)) := rfl

/-- A class that the factory does not know is rejected -/
theorem unknown_class : (cs : Classes) → (c : Str) → (d : Doc) → c ∉ cs.names → cs.deser E less c d = none
  | .nil, _, _, _ => rfl
  | .cons n fs cs, c, d, h => by
    rw [Classes.deser, if_neg fun e : c = n => h (e ▸ List.mem_cons_self ..),
      unknown_class cs c d fun m => h (List.mem_cons_of_mem _ m)]
    rfl

/-- The value stored for a name in a document -/
def lookup (n : Str) (ms : List (Str × Doc)) : Option Doc := (ms.find? fun m => m.1 = n).map Prod.snd

theorem find_eq_lookup (n : Str) (ms : List (Str × Doc)) : find n ms = lookup n ms := by
  induction ms with
  | nil => rfl
  | cons m ms ih =>
    rw [find, lookup, List.find?_cons]
    by_cases h : m.1 = n
    · rw [if_pos h]
      simp [h]
    · rw [if_neg h, ih]
      simp [h, lookup]

/-- Members are found by name: the order of the properties and other properties do not matter -/
theorem order_irrelevant : (fs : Fields) → (ms ms' : List (Str × Doc)) → (old : fs.Val E) →
    (∀ n ∈ fs.names, lookup n ms = lookup n ms') → fs.deser E less (.map ms) old = fs.deser E less (.map ms') old
  | .nil, _, _, _, _ => rfl
  | .cons n t fs, ms, ms', old, h => by
    simp only [Fields.deser, mapOf, Option.bind_some]
    rw [find_eq_lookup, find_eq_lookup, h n (List.mem_cons_self ..),
      order_irrelevant fs ms ms' old.2 fun m hm => h m (List.mem_cons_of_mem _ hm)]
  | .opt n t fs, ms, ms', old, h => by
    simp only [Fields.deser, mapOf, Option.bind_some]
    rw [find_eq_lookup, find_eq_lookup, h n (List.mem_cons_self ..),
      order_irrelevant fs ms ms' old.2 fun m hm => h m (List.mem_cons_of_mem _ hm)]

example : Fields.deser demo demoLess (.cons "a".toList .bool (.cons "b".toList .str .nil))
    (.map [("b".toList, .str []), ("z".toList, .null), ("a".toList, .bool true)]) (false, [], ()) = some (true, [], ()) := rfl

/-- The human readable form of a map from strings: an object with sorted names is read as exactly its entries -/
theorem strMap_object (w : Ty) (ms : List (Str × Doc)) (vs : List (w.Val E)) (old : (Ty.strMap w).Val E)
    (hl : ms.length = vs.length) (h : ∀ p ∈ ms.zip vs, w.deser E less (some p.1.2) (w.dflt E) = some p.2)
    (hs : ms.Pairwise fun x y => less .str x.1 y.1 = true ∧ less .str y.1 x.1 = false) :
    Ty.deser E less (.strMap w) (some (.map ms)) old = some ((ms.map Prod.fst).zip vs) := by
  have hr : readAllKv (fun d => w.deser E less (some d) (w.dflt E)) ms = some ((ms.map Prod.fst).zip vs) := by
    clear hs
    induction ms generalizing vs with
    | nil => rfl
    | cons m ms ih =>
      obtain ⟨n, d⟩ := m
      cases vs with
      | nil => cases hl
      | cons v vs =>
        rw [readAllKv, h ((n, d), v) (List.mem_cons_self ..), Option.bind_some,
          ih vs (by simpa using hl) fun p hp => h p (List.mem_cons_of_mem _ hp)]
        rfl
  have hp : ((ms.map Prod.fst).zip vs).Pairwise fun x y => less .str x.1 y.1 = true ∧ less .str y.1 x.1 = false := by
    have h1 : ((ms.map Prod.fst).zip vs).map Prod.fst = ms.map Prod.fst :=
      List.map_fst_zip (by rw [List.length_map, hl]; exact Nat.le_refl _)
    have h2 : (ms.map Prod.fst).Pairwise fun x y => less .str x y = true ∧ less .str y x = false :=
      List.pairwise_map.mpr hs
    rw [← h1] at h2
    exact List.pairwise_map.mp h2
  show (readAllKv _ ms).map _ = _
  rw [hr]
  exact congrArg some (foldl_insertBy_sorted (less .str) Prod.fst _ hp)

/-- The value at a name in an object read as a map; names without a value are absent -/
example : Ty.deser demo (fun _ _ _ => false) (.strMap .bool) (some (.map [("a".toList, .bool true)])) [] =
    some [("a".toList, true)] := rfl

end Verif.Ser

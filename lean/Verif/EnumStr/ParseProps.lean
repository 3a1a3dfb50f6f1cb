import Verif.EnumStr.TableProps
/-
C127: from text to values.
-/
namespace Verif.EnumStr

/-! ### Names with bars -/

/-- A piece of a text with bars: blanks, a name (or nothing), blanks. -/
structure Spec.Piece where
  pre : Text
  name : Text
  post : Text

/-- The blanks are blanks, the name is empty or has no blanks and bars in it. -/
structure Spec.Piece.Good (p : Spec.Piece) : Prop where
  pre : ∀ c ∈ p.pre, Spec.Blank c
  post : ∀ c ∈ p.post, Spec.Blank c
  name : ∀ c ∈ p.name, ¬ Spec.Blank c ∧ c ≠ '|'

/-- The text of a piece. -/
def Spec.Piece.text (p : Spec.Piece) : Text := p.pre ++ p.name ++ p.post

theorem tail_head {tail : Text} (ht : tail = [] ∨ ∃ r, tail = '|' :: r) : ∀ c, tail.head? = some c → isWs c = false ∧ tokenChar c = false := by
  intro c hc
  rcases ht with rfl | ⟨r, rfl⟩
  · simp at hc
  · simp at hc; subst hc; decide

theorem blanks_then {l r : Text} (hl : ∀ c ∈ l, Spec.Blank c) (hr : ∀ c, r.head? = some c → isWs c = false) : (l ++ r).dropWhile isWs = r := by
  rw [drop_blanks hl, (drop_none hr).1]

theorem one_piece {p : Spec.Piece} (h : p.Good) {tail : Text} (ht : tail = [] ∨ ∃ r, tail = '|' :: r) :
    ((p.text ++ tail).dropWhile isWs).takeWhile tokenChar = p.name ∧
    (((p.text ++ tail).dropWhile isWs).dropWhile tokenChar).dropWhile isWs = tail ∧
    ((p.text ++ tail).dropWhile isWs = [] ↔ p.name = [] ∧ tail = []) := by
  have hth := tail_head ht
  unfold Spec.Piece.text
  by_cases hn : p.name = []
  · have e : (p.pre ++ p.name ++ p.post ++ tail).dropWhile isWs = tail := by
      rw [hn, List.append_nil]
      refine blanks_then ?_ (fun c hc => (hth c hc).1)
      intro c hc
      rcases List.mem_append.mp hc with hc | hc
      · exact h.pre c hc
      · exact h.post c hc
    rw [e]
    obtain ⟨a, b⟩ := drop_none (fun c hc => (hth c hc).2)
    rw [a, b, (drop_none (fun c hc => (hth c hc).1)).1]
    exact ⟨hn.symm, rfl, by simp [hn]⟩
  · have e : (p.pre ++ p.name ++ p.post ++ tail).dropWhile isWs = p.name ++ (p.post ++ tail) := by
      rw [List.append_assoc, List.append_assoc]
      refine blanks_then h.pre ?_
      intro c hc
      cases hx : p.name with
      | nil => exact absurd hx hn
      | cons d r =>
        rw [hx] at hc; simp at hc; subst hc
        exact not_blank (h.name d (by rw [hx]; simp)).1
    have e2 : ∀ c, (p.post ++ tail).head? = some c → tokenChar c = false := by
      intro c hc
      cases hx : p.post with
      | nil => rw [hx] at hc; exact (hth c hc).2
      | cons d r =>
        rw [hx] at hc; simp at hc; subst hc
        simp [tokenChar, (isWs_iff d).mpr (h.post d (by rw [hx]; simp))]
    obtain ⟨a, b⟩ := take_all (p := tokenChar) (l := p.name) (fun c hc => by
      obtain ⟨x, y⟩ := h.name c hc
      simp [tokenChar, not_blank x, y]) e2
    rw [e, a, b, blanks_then h.post (fun c hc => (hth c hc).1)]
    exact ⟨rfl, rfl, by simp [hn]⟩

theorem orLoop_nil (m : List (Text × Val)) (n : Nat) (has : Bool) (r : Val) : orLoop m (n + 1) [] has r = some (has, r) := by rw [orLoop]; simp

/-- The union of the values of the names; `none` when one is not known. -/
def unionOf (m : List (Text × Val)) : List Text → Val → Option Val
  | [], r => some r
  | n :: rest, r => match addName m n r with
    | none => none
    | some r' => unionOf m rest r'

theorem orLoop_pieces (m : List (Text × Val)) : ∀ (ps : List Spec.Piece), (∀ p ∈ ps, p.Good) → ∀ (n : Nat) (has : Bool) (r : Val),
    (Spec.bars (ps.map (fun p => p.text))).length < n →
    orLoop m n (Spec.bars (ps.map (fun p => p.text))) has r =
      (unionOf m (ps.map (fun p => p.name)) r).map (fun v => (has || decide (2 ≤ ps.length) || ps.any (fun p => decide (p.name ≠ [])), v))
  | [], _, n, has, r, hn => by
    cases n with
    | zero => simp at hn
    | succ n =>
      show orLoop m (n + 1) [] has r = _
      rw [orLoop_nil]; simp [unionOf]
  | [p], h, n, has, r, hn => by
    have hp := h p (by simp)
    obtain ⟨a, b, c⟩ := one_piece hp (tail := []) (Or.inl rfl)
    rw [List.append_nil] at a b c
    cases n with
    | zero => simp at hn
    | succ n =>
      show orLoop m (n + 1) p.text has r = _
      by_cases hz : p.text = []
      · rw [hz, orLoop_nil]
        have : p.name = [] := by
          have := hz
          unfold Spec.Piece.text at this
          simp at this
          exact this.2.1
        simp [this, unionOf, addName]
      · rw [orLoop, if_neg hz, a, b]
        simp only [if_true, List.map_cons, List.map_nil, unionOf]
        cases addName m p.name r with
        | none => rfl
        | some r' =>
          simp only [and_true] at c
          simp [c]
  | p :: q :: ps, h, n, has, r, hn => by
    have hp := h p (by simp)
    obtain ⟨a, b, c⟩ := one_piece hp (tail := '|' :: Spec.bars ((q :: ps).map (fun p => p.text))) (Or.inr ⟨_, rfl⟩)
    cases n with
    | zero => simp at hn
    | succ n =>
      have hlen : (Spec.bars ((q :: ps).map (fun p => p.text))).length < n := by
        have : Spec.bars ((p :: q :: ps).map (fun p => p.text)) = p.text ++ '|' :: Spec.bars ((q :: ps).map (fun p => p.text)) := rfl
        rw [this] at hn
        simp only [List.length_append, List.length_cons] at hn
        omega
      show orLoop m (n + 1) (p.text ++ '|' :: Spec.bars ((q :: ps).map (fun p => p.text))) has r = _
      rw [orLoop, if_neg (by simp), a, b]
      have hne : (p.text ++ '|' :: Spec.bars ((q :: ps).map (fun p => p.text))).dropWhile isWs ≠ [] := fun e => by
        have := (c.mp e).2
        cases this
      simp only [hne, ne_eq, not_false_eq_true, decide_true, Bool.or_true, List.drop_succ_cons, List.drop_zero, reduceCtorEq, if_false]
      show _ = (unionOf m (p.name :: (q :: ps).map (fun p => p.name)) r).map _
      have hu : unionOf m (p.name :: (q :: ps).map (fun p => p.name)) r = match addName m p.name r with
        | none => none
        | some r' => unionOf m ((q :: ps).map (fun p => p.name)) r' := rfl
      rw [hu]
      cases addName m p.name r with
      | none => rfl
      | some r' =>
        simp only []
        rw [orLoop_pieces m (q :: ps) (fun z hz => h z (by simp [List.mem_cons.mp hz])) n true r' hlen]
        simp

theorem unionOf_known {m : List (Text × Val)} {f : Text → Val} : ∀ (ns : List Text), (∀ n ∈ ns, n ≠ [] → findName m n = some (f n)) → ∀ r,
    unionOf m ns r = some (r ||| Spec.union ((ns.filter (fun n => n ≠ [])).map f)) := by
  intro ns
  induction ns with
  | nil => intro _ r; simp [unionOf, Spec.union]
  | cons n rest ih =>
    intro h r
    have ih' := ih (fun k hk => h k (by simp [hk]))
    rw [unionOf, addName]
    by_cases hn : n = []
    · rw [if_pos hn]
      simp only []
      rw [ih']
      simp [hn]
    · rw [if_neg hn, h n (by simp) hn]
      simp only [Option.map_some]
      rw [ih']
      simp [hn, Spec.union, BitVec.or_assoc]

theorem unionOf_unknown {m : List (Text × Val)} : ∀ (ns : List Text) (r : Val), (∃ n ∈ ns, n ≠ [] ∧ findName m n = none) → unionOf m ns r = none := by
  intro ns
  induction ns with
  | nil => intro r h; obtain ⟨n, hn, _⟩ := h; cases hn
  | cons n rest ih =>
    intro r h
    obtain ⟨k, hk, h1, h2⟩ := h
    rw [unionOf, addName]
    by_cases hn : n = []
    · rw [if_pos hn]
      rcases List.mem_cons.mp hk with rfl | hk
      · exact absurd hn h1
      · exact ih _ ⟨k, hk, h1, h2⟩
    · rw [if_neg hn]
      cases hf : findName m n with
      | none => rfl
      | some v =>
        rcases List.mem_cons.mp hk with rfl | hk
        · rw [hf] at h2; cases h2
        · exact ih _ ⟨k, hk, h1, h2⟩

theorem isDigit_iff (c : Char) : Str.isDigit c = true ↔ '0' ≤ c ∧ c ≤ '9' := by
  unfold Str.isDigit
  rw [Bool.and_eq_true, decide_eq_true_eq, decide_eq_true_eq]
  show _ ↔ '0'.val ≤ c.val ∧ c.val ≤ '9'.val
  rw [UInt32.le_iff_toNat_le, UInt32.le_iff_toNat_le]
  exact Iff.rfl

/-- What is in front of a text with bars, behind the blanks: no digit. -/
theorem front_not_digit : ∀ (ps : List Spec.Piece), ps ≠ [] → (∀ p ∈ ps, p.Good) → (∀ p, ps.head? = some p → ∀ c, p.name.head? = some c → ¬ ('0' ≤ c ∧ c ≤ '9')) →
    ∀ c r, (Spec.bars (ps.map (fun p => p.text))).dropWhile isWs = c :: r → Str.isDigit c = false := by
  intro ps hne h hd c r he
  cases ps with
  | nil => exact absurd rfl hne
  | cons p ps =>
    have hp := h p (by simp)
    have key : ∀ tail : Text, (tail = [] ∨ ∃ r, tail = '|' :: r) → (p.text ++ tail).dropWhile isWs = c :: r → Str.isDigit c = false := by
      intro tail ht he
      obtain ⟨a, b, d⟩ := one_piece hp ht
      rw [he] at a b
      cases hx : p.name with
      | nil =>
        rw [hx] at a
        by_cases htc : tokenChar c = true
        · rw [List.takeWhile_cons, if_pos htc] at a; cases a
        · have hor : isWs c = true ∨ c = '|' := by
            simp [tokenChar] at htc
            cases hw : isWs c with
            | true => exact Or.inl rfl
            | false => exact Or.inr (htc hw)
          rcases hor with hw | rfl
          · rcases (isWs_iff c).mp hw with rfl | rfl | rfl | rfl <;> decide
          · decide
      | cons x y =>
        rw [hx] at a
        have htc : tokenChar c = true := by
          cases htc : tokenChar c with
          | true => rfl
          | false => rw [List.takeWhile_cons, htc] at a; cases a
        rw [List.takeWhile_cons, if_pos htc] at a
        injection a with a _
        have := hd p rfl x (by rw [hx]; rfl)
        rw [a]
        cases hdd : Str.isDigit x with
        | false => rfl
        | true => exact absurd ((isDigit_iff x).mp hdd) this
    cases ps with
    | nil =>
      refine key [] (Or.inl rfl) ?_
      rw [List.append_nil]; exact he
    | cons q ps => exact key _ (Or.inr ⟨_, rfl⟩) he

theorem from_names {m : Map} {str : Text} (h : ∀ c r, str.dropWhile isWs = c :: r → Str.isDigit c = false) : enumFromString m str = readNames m.fromStr str := by
  unfold enumFromString
  cases hs : str.dropWhile isWs with
  | nil => rfl
  | cons c r => simp only [h c r hs]; rfl

/-- An enum class: as many names as values, the names are distinct identifiers. -/
structure Spec.Class (vs : List Val) (ns : List Text) : Prop where
  len : vs.length = ns.length
  nodup : ns.Nodup
  ident : ∀ n ∈ ns, Spec.Ident n

/-- A declared name that is the text of a single piece is the name of the piece. -/
theorem whole_is_name {vs : List Val} {ns : List Text} (hc : Spec.Class vs ns) : ∀ {ps : List Spec.Piece}, (∀ p ∈ ps, p.Good) → ∀ {v : Val},
    findName (build vs ns).fromStr (Spec.bars (ps.map (fun p => p.text))) = some v →
    ∃ p, ps = [p] ∧ p.pre = [] ∧ p.post = [] ∧ p.name = Spec.bars (ps.map (fun p => p.text)) := by
  intro ps hp v hf
  obtain ⟨i, hi, _⟩ := (find_declared hc.nodup).mp hf
  have hid := hc.ident _ (List.mem_of_getElem? hi)
  match ps, hp, hid with
  | [], _, hid => exact absurd rfl hid.nonempty
  | [p], hp, hid =>
    have hg := hp p (by simp)
    have hid' : Spec.Ident (p.pre ++ p.name ++ p.post) := hid
    have h1 : p.pre = [] := by
      cases hx : p.pre with
      | nil => rfl
      | cons c r => exact absurd (hg.pre c (by rw [hx]; simp)) (hid'.plain c (by rw [hx]; simp)).1
    have h2 : p.post = [] := by
      cases hx : p.post with
      | nil => rfl
      | cons c r => exact absurd (hg.post c (by rw [hx]; simp)) (hid'.plain c (by rw [hx]; simp)).1
    refine ⟨p, rfl, h1, h2, ?_⟩
    show p.name = p.pre ++ p.name ++ p.post
    rw [h1, h2]; simp
  | p :: q :: r, _, hid =>
    have hid' : Spec.Ident (p.text ++ '|' :: Spec.bars ((q :: r).map (fun p => p.text))) := hid
    exact absurd rfl (hid'.plain '|' (by simp)).2.2.2

/-- C127.  A text of declared names with bars between them, blanks and empty pieces allowed, is the union of the values - as soon as there is something in it. -/
theorem from_string_names {vs : List Val} {ns : List Text} (hc : Spec.Class vs ns) {ps : List Spec.Piece} (hp : ∀ p ∈ ps, p.Good) (f : Text → Val)
    (hf : ∀ p ∈ ps, p.name ≠ [] → Spec.Declared vs ns p.name (f p.name)) (hs : 2 ≤ ps.length ∨ ∃ p ∈ ps, p.name ≠ []) :
    enumFromString (build vs ns) (Spec.bars (ps.map (fun p => p.text))) =
      some (Spec.union (((ps.map (fun p => p.name)).filter (fun n => n ≠ [])).map f)) := by
  have hne : ps ≠ [] := by
    rintro rfl
    rcases hs with hs | ⟨p, hp, _⟩
    · simp at hs
    · cases hp
  rw [from_names (front_not_digit ps hne hp ?_)]
  · unfold readNames
    cases hw : findName (build vs ns).fromStr (Spec.bars (ps.map (fun p => p.text))) with
    | some v =>
      obtain ⟨p, rfl, h1, h2, h3⟩ := whole_is_name hc hp hw
      rw [← h3] at hw
      have hnn : p.name ≠ [] := by
        obtain ⟨i, hi, _⟩ := (find_declared hc.nodup).mp hw
        exact (hc.ident _ (List.mem_of_getElem? hi)).nonempty
      have := (find_declared hc.nodup).mpr (hf p (by simp) hnn)
      rw [hw] at this
      injection this with this
      simp [hnn, Spec.union, this]
    | none =>
      simp only []
      rw [orLoop_pieces _ ps hp _ _ _ (by omega)]
      rw [unionOf_known (f := f) (ps.map (fun p => p.name)) ?_]
      · have hb : (false || decide (2 ≤ ps.length) || ps.any (fun p => decide (p.name ≠ []))) = true := by
          rcases hs with hs | ⟨p, h1, h2⟩
          · simp [hs]
          · simp only [Bool.or_eq_true]
            right
            exact List.any_eq_true.mpr ⟨p, h1, by simp [h2]⟩
        simp only [Option.map_some, hb]
        simp
      · intro n hn hnn
        obtain ⟨p, h1, rfl⟩ := List.mem_map.mp hn
        exact (find_declared hc.nodup).mpr (hf p h1 hnn)
  · intro p hp0 c hc0
    have hpm : p ∈ ps := List.mem_of_head? hp0
    have hnn : p.name ≠ [] := by intro e; rw [e] at hc0; cases hc0
    obtain ⟨i, hi, _⟩ := hf p hpm hnn
    exact (hc.ident _ (List.mem_of_getElem? hi)).nodigit c hc0

/-- C127.  A text with bars in which one name is not declared is refused. (A first name that begins with a digit: `from_string_number`.) -/
theorem from_string_unknown {vs : List Val} {ns : List Text} (hc : Spec.Class vs ns) {ps : List Spec.Piece} (hp : ∀ p ∈ ps, p.Good)
    (hd : ∀ p, ps.head? = some p → ∀ c, p.name.head? = some c → ¬ ('0' ≤ c ∧ c ≤ '9'))
    (hu : ∃ p ∈ ps, p.name ≠ [] ∧ p.name ∉ ns) : enumFromString (build vs ns) (Spec.bars (ps.map (fun p => p.text))) = none := by
  obtain ⟨p, h1, h2, h3⟩ := hu
  have hun : findName (build vs ns).fromStr p.name = none := by
    cases hf : findName (build vs ns).fromStr p.name with
    | none => rfl
    | some v =>
      obtain ⟨i, hi, _⟩ := (find_declared hc.nodup).mp hf
      exact absurd (List.mem_of_getElem? hi) h3
  rw [from_names (front_not_digit ps (by rintro rfl; cases h1) hp hd)]
  unfold readNames
  cases hw : findName (build vs ns).fromStr (Spec.bars (ps.map (fun p => p.text))) with
  | some v =>
    obtain ⟨q, rfl, _, _, h6⟩ := whole_is_name hc hp hw
    rw [← h6] at hw
    rw [List.mem_singleton.mp h1] at hun
    rw [hun] at hw; cases hw
  | none =>
    simp only []
    rw [orLoop_pieces _ ps hp _ _ _ (by omega), unionOf_unknown _ _ ⟨p.name, List.mem_map.mpr ⟨p, h1, rfl⟩, h2, hun⟩]
    rfl

/-- C127.  Nothing but blanks is refused. -/
theorem from_string_blank {vs : List Val} {ns : List Text} (hc : Spec.Class vs ns) {s : Text} (hs : ∀ c ∈ s, Spec.Blank c) : enumFromString (build vs ns) s = none := by
  have hg : ∀ p ∈ [(⟨s, [], []⟩ : Spec.Piece)], p.Good := by
    intro p hp; rw [List.mem_singleton.mp hp]; exact ⟨hs, by simp, by simp⟩
  have he : Spec.bars ([(⟨s, [], []⟩ : Spec.Piece)].map (fun p => p.text)) = s := by simp [Spec.bars, Spec.Piece.text]
  have h1 := front_not_digit _ (by simp) hg (by intro p hp; cases hp; intro c hc; cases hc)
  rw [he] at h1
  rw [from_names h1]
  unfold readNames
  cases hw : findName (build vs ns).fromStr s with
  | some v =>
    obtain ⟨i, hi, _⟩ := (find_declared hc.nodup).mp hw
    have hid := hc.ident _ (List.mem_of_getElem? hi)
    cases s with
    | nil => exact absurd rfl hid.nonempty
    | cons c r => exact absurd (hs c (by simp)) (hid.plain c (by simp)).1
  | none =>
    simp only []
    have := orLoop_pieces (build vs ns).fromStr _ hg (s.length + 1) false 0 (by rw [he]; omega)
    rw [he] at this
    rw [this]
    simp [unionOf, addName]

/-! ### Numbers -/

theorem readDigits_fold (ds : Text) (h : ds.all Str.isDigit = true) : ∀ a : Nat,
    ((ds.foldl (fun a c => a * 10 + (c.toNat - 48)) a : Nat) : Int) = ds.foldl (fun (a : Int) c => a * 10 + Str.digitVal c) (a : Int) := by
  induction ds with
  | nil => intro a; rfl
  | cons c r ih =>
    intro a
    simp only [List.all_cons, Bool.and_eq_true] at h
    rw [List.foldl_cons, List.foldl_cons, ih h.2]
    congr 1
    have := h.1
    simp [Str.isDigit] at this
    simp only [Str.digitVal]
    omega

theorem readDigits_spec {ds : Text} (h : ds.all Str.isDigit = true) : (readDigits ds : Int) = Str.decimal ds := readDigits_fold ds h 0

/-- C127.  A number, with blanks around it: read when it fits 32 bits, refused when it does not or something else follows. -/
theorem from_string_number (m : Map) {pre ds post : Text} (hpre : ∀ c ∈ pre, Spec.Blank c) (hne : ds ≠ []) (hd : ∀ c ∈ ds, '0' ≤ c ∧ c ≤ '9')
    (hpost : ∀ c, post.head? = some c → ¬ ('0' ≤ c ∧ c ≤ '9')) :
    ((∀ c ∈ post, Spec.Blank c) → Str.decimal ds < 2 ^ 32 → ∃ v : Val, enumFromString m (pre ++ ds ++ post) = some v ∧ (v.toNat : Int) = Str.decimal ds) ∧
    (2 ^ 32 ≤ Str.decimal ds → enumFromString m (pre ++ ds ++ post) = none) ∧
    ((∃ c ∈ post, ¬ Spec.Blank c ∧ c.toNat ≠ 11 ∧ c.toNat ≠ 12) → enumFromString m (pre ++ ds ++ post) = none) := by
  have hall : ds.all Str.isDigit = true := List.all_eq_true.mpr (fun c hc => (isDigit_iff c).mpr (hd c hc))
  have hfront : (pre ++ ds ++ post).dropWhile isWs = ds ++ post := by
    rw [List.append_assoc]
    refine blanks_then hpre ?_
    intro c hc
    cases hx : ds with
    | nil => exact absurd hx hne
    | cons d r =>
      rw [hx] at hc; simp at hc; subst hc
      have hdd := (isDigit_iff d).mpr (hd d (by rw [hx]; simp))
      cases hw : isWs d with
      | false => rfl
      | true => rcases (isWs_iff d).mp hw with rfl | rfl | rfl | rfl <;> (exact absurd hdd (by decide))
  obtain ⟨a, b⟩ := take_all (p := Str.isDigit) (l := ds) (r := post) (fun c hc => (isDigit_iff c).mpr (hd c hc)) (fun c hc => by
    cases hx : Str.isDigit c with
    | false => rfl
    | true => exact absurd ((isDigit_iff c).mp hx) (hpost c hc))
  have hnum : enumFromString m (pre ++ ds ++ post) = readNumber (ds ++ post) := by
    unfold enumFromString
    rw [hfront]
    cases hx : ds with
    | nil => exact absurd hx hne
    | cons d r =>
      have hdd := (isDigit_iff d).mpr (hd d (by rw [hx]; simp))
      simp only [List.cons_append, hdd, if_true]
  have hspec := readDigits_spec hall
  rw [hnum]
  unfold readNumber
  rw [a, b]
  refine ⟨?_, ?_, ?_⟩
  · intro hb hlt
    have h1 : readDigits ds < 2 ^ 32 := by omega
    refine ⟨BitVec.ofNat 32 (readDigits ds), ?_, ?_⟩
    · rw [if_pos]
      simp only [Bool.and_eq_true, decide_eq_true_eq]
      refine ⟨h1, List.all_eq_true.mpr ?_⟩
      intro c hc
      simp [isSpace, (isWs_iff c).mpr (hb c hc)]
    · rw [BitVec.toNat_ofNat, Nat.mod_eq_of_lt h1]; exact hspec
  · intro hge
    rw [if_neg]
    simp only [Bool.and_eq_true, decide_eq_true_eq]
    rintro ⟨h1, _⟩
    omega
  · rintro ⟨c, hc, h1, h2, h3⟩
    rw [if_neg]
    simp only [Bool.and_eq_true, decide_eq_true_eq]
    rintro ⟨_, h4⟩
    have := List.all_eq_true.mp h4 c hc
    simp [isSpace, not_blank h1, h2, h3] at this

/-! ### There and back -/

/-- C127.  Every declared name is read back as its value. -/
theorem from_string_declared {vs : List Val} {ns : List Text} (hc : Spec.Class vs ns) {n : Text} {v : Val} (h : Spec.Declared vs ns n v) :
    enumFromString (build vs ns) n = some v := by
  have hid : Spec.Ident n := by obtain ⟨i, hi, _⟩ := h; exact hc.ident _ (List.mem_of_getElem? hi)
  have := from_string_names hc (ps := [⟨[], n, []⟩]) (by
    intro p hp; rw [List.mem_singleton.mp hp]
    exact ⟨by simp, by simp, fun c hcn => ⟨(hid.plain c hcn).1, (hid.plain c hcn).2.2.2⟩⟩) (fun _ => v) (by
    intro p hp _; rw [List.mem_singleton.mp hp]; exact h) (Or.inr ⟨⟨[], n, []⟩, by simp, hid.nonempty⟩)
  simpa [Spec.bars, Spec.Piece.text, hid.nonempty, Spec.union] using this

/-- C127 (in part: zero must be declared to come back).  The text of a value is read back as that value, declared or not. -/
theorem round_trip_partial {vs : List Val} {ns : List Text} (hc : Spec.Class vs ns) {v : Val} (h0 : v ≠ 0 ∨ v ∈ vs) :
    enumFromString (build vs ns) (enumToString (build vs ns) v) = some v := by
  have hne : ∀ n ∈ ns, n ≠ [] := fun n hn => (hc.ident n hn).nonempty
  by_cases hv : v ∈ vs
  · cases hf : (vs.zip ns).find? (fun e => decide (e.1 = v)) with
    | none =>
      obtain ⟨i, hi, he⟩ := List.mem_iff_getElem.mp hv
      have hl := hc.len
      have hz : (v, ns[i]'(by omega)) ∈ vs.zip ns := zip_declared.mpr ⟨i, List.getElem?_eq_getElem (by omega), by rw [List.getElem?_eq_getElem hi, he]⟩
      have := List.find?_eq_none.mp hf _ hz
      simp at this
    | some e =>
      have h1 := zip_declared.mp (List.mem_of_find?_eq_some hf)
      have h2 := List.find?_some hf
      simp only [decide_eq_true_eq] at h2
      have : enumToString (build vs ns) v = e.2 := by
        unfold enumToString
        rw [(build_spec vs ns).1 v, hf]
      rw [this]
      rw [h2] at h1
      exact from_string_declared hc h1
  · have hv0 : v ≠ 0 := by
      rcases h0 with h | h
      · exact h
      · exact absurd h hv
    by_cases hl : ∃ l : List Val, (∀ x ∈ l, x ∈ vs) ∧ Spec.union l = v
    · obtain ⟨l, h1, h2⟩ := hl
      obtain ⟨ps, a, b, c, _⟩ := to_string_flags hc.len hne hv h1 h2
      rw [c]
      have hps : ps ≠ [] := by
        rintro rfl
        exact hv0 b.symm
      have hid : ∀ p ∈ ps, Spec.Ident p.2 := by
        intro p hp
        obtain ⟨i, hi, _⟩ := a p hp
        exact hc.ident _ (List.mem_of_getElem? hi)
      have hval : ∀ p ∈ ps, ((findName (build vs ns).fromStr p.2).getD 0) = p.1 := by
        intro p hp
        rw [(find_declared hc.nodup).mpr (a p hp)]; rfl
      have key := from_string_names hc (ps := ps.map (fun p => ⟨[], p.2, []⟩)) (by
        intro q hq
        obtain ⟨p, hp, rfl⟩ := List.mem_map.mp hq
        exact ⟨by simp, by simp, fun c hcn => ⟨((hid p hp).plain c hcn).1, ((hid p hp).plain c hcn).2.2.2⟩⟩) (fun n => (findName (build vs ns).fromStr n).getD 0) (by
        intro q hq _
        obtain ⟨p, hp, rfl⟩ := List.mem_map.mp hq
        simp only []
        rw [hval p hp]
        exact a p hp) (by
        refine Or.inr ?_
        cases ps with
        | nil => exact absurd rfl hps
        | cons p ps => exact ⟨⟨[], p.2, []⟩, by simp, (hid p (by simp)).nonempty⟩)
      have e1 : (ps.map (fun p => (⟨[], p.2, []⟩ : Spec.Piece))).map (fun p => p.text) = ps.map (fun p => p.2) := by
        rw [List.map_map]
        refine List.map_congr_left ?_
        intro p _
        simp [Spec.Piece.text]
      have e2 : (((ps.map (fun p => (⟨[], p.2, []⟩ : Spec.Piece))).map (fun p => p.name)).filter (fun n => decide (n ≠ []))).map
          (fun n => (findName (build vs ns).fromStr n).getD 0) = ps.map (fun p => p.1) := by
        rw [List.map_map, List.filter_eq_self.mpr, List.map_map]
        · refine List.map_congr_left ?_
          intro p hp
          exact hval p hp
        · intro n hn
          obtain ⟨p, hp, rfl⟩ := List.mem_map.mp hn
          simpa using (hid p hp).nonempty
      rw [e1] at key
      rw [key, e2, b]
    · have hl' : ∀ l : List Val, (∀ x ∈ l, x ∈ vs) → Spec.union l ≠ v := fun l h1 h2 => hl ⟨l, h1, h2⟩
      obtain ⟨ds, a, b, c, d, _⟩ := to_string_number hc.len hne hl'
      rw [a]
      have hlt := v.isLt
      obtain ⟨w, h1, h2⟩ := (from_string_number (build vs ns) (pre := []) (ds := ds) (post := []) (by simp) b
        (fun x hx => (isDigit_iff x).mp (List.all_eq_true.mp c x hx)) (by simp)).1 (by simp) (by omega)
      simp only [List.nil_append, List.append_nil] at h1
      rw [h1]
      congr 1
      apply BitVec.eq_of_toNat_eq
      omega

/-- C127 is violated by zero when it is not declared: its text is empty, and the empty text is refused. -/
theorem zero_violated {vs : List Val} {ns : List Text} (hc : Spec.Class vs ns) (h : (0 : Val) ∉ vs) :
    enumToString (build vs ns) 0 = [] ∧ enumFromString (build vs ns) (enumToString (build vs ns) 0) = none := by
  have hne : ∀ n ∈ ns, n ≠ [] := fun n hn => (hc.ident n hn).nonempty
  have e : enumToString (build vs ns) 0 = [] := by
    unfold enumToString
    rw [not_declared h]
    simp only []
    cases hx : (build vs ns).toStr with
    | nil => rfl
    | cons e r =>
      have hw : wanted 0 0 e.1 = false := by simp [wanted]
      have : flagLoop 0 (e :: r) 0 [] = (0, []) := by
        rw [flagLoop, hw]; rfl
      rw [this]
      rfl
  refine ⟨e, ?_⟩
  rw [e]
  exact from_string_blank hc (by simp)

theorem addName_known {m : List (Text × Val)} {tok : Text} {r v : Val} (h : addName m tok r = some v) : v = r ∨ ∃ w, findName m tok = some w ∧ v = r ||| w := by
  unfold addName at h
  split at h
  · exact Or.inl (by injection h with h; exact h.symm)
  · obtain ⟨w, h1, h2⟩ := Option.map_eq_some_iff.mp h
    exact Or.inr ⟨w, h1, h2.symm⟩

theorem orLoop_sound (m : List (Text × Val)) : ∀ (n : Nat) (s : Text) (has : Bool) (r : Val) (b : Bool) (v : Val), orLoop m n s has r = some (b, v) →
    ∃ l : List Val, (∀ x ∈ l, ∃ k, findName m k = some x) ∧ v = r ||| Spec.union l := by
  intro n
  induction n with
  | zero => intro s has r b v h; cases h
  | succ n ih =>
    intro s has r b v h
    rw [orLoop] at h
    split at h
    · injection h with h; injection h with _ h
      exact ⟨[], by simp, by simp [Spec.union, h]⟩
    · split at h
      · cases h
      · next r' ha =>
        have hr := addName_known ha
        have key : ∃ l : List Val, (∀ x ∈ l, ∃ k, findName m k = some x) ∧ v = r' ||| Spec.union l := by
          split at h
          · injection h with h; injection h with _ h
            exact ⟨[], by simp, by simp [Spec.union, h]⟩
          · exact ih _ _ _ _ _ h
        obtain ⟨l, h1, h2⟩ := key
        rcases hr with rfl | ⟨w, hw, rfl⟩
        · exact ⟨l, h1, h2⟩
        · refine ⟨w :: l, ?_, by rw [h2, Spec.union, BitVec.or_assoc]⟩
          intro x hx
          rcases List.mem_cons.mp hx with rfl | hx
          · exact ⟨_, hw⟩
          · exact h1 x hx

/-- C127.  Whatever the text: what is read is a number written in it, or a union of declared values. -/
theorem from_string_sound {vs : List Val} {ns : List Text} (hd : ns.Nodup) {str : Text} {v : Val} (h : enumFromString (build vs ns) str = some v) :
    (∃ pre ds post : Text, str = pre ++ ds ++ post ∧ (∀ c ∈ pre, Spec.Blank c) ∧ ds ≠ [] ∧ ds.all Str.isDigit = true ∧ (v.toNat : Int) = Str.decimal ds) ∨
    ∃ l : List Val, (∀ x ∈ l, x ∈ vs) ∧ v = Spec.union l := by
  have names : readNames (build vs ns).fromStr str = some v → ∃ l : List Val, (∀ x ∈ l, x ∈ vs) ∧ v = Spec.union l := by
    intro h
    unfold readNames at h
    split at h
    · next w hw =>
      injection h with h; subst h
      obtain ⟨i, _, hi⟩ := (find_declared hd).mp hw
      exact ⟨[w], by simpa using List.mem_of_getElem? hi, by simp [Spec.union]⟩
    · split at h
      · next w hw =>
        injection h with h; subst h
        obtain ⟨l, h1, h2⟩ := orLoop_sound _ _ _ _ _ _ _ hw
        refine ⟨l, ?_, by rw [h2]; simp⟩
        intro x hx
        obtain ⟨k, hk⟩ := h1 x hx
        obtain ⟨i, _, hi⟩ := (find_declared hd).mp hk
        exact List.mem_of_getElem? hi
      · cases h
  unfold enumFromString at h
  split at h
  · exact Or.inr (names h)
  · next c r hs =>
    by_cases hcd : Str.isDigit c = true
    · rw [if_pos hcd] at h
      left
      refine ⟨str.takeWhile isWs, (c :: r).takeWhile Str.isDigit, (c :: r).dropWhile Str.isDigit, ?_, ?_, ?_, List.all_takeWhile, ?_⟩
      · rw [List.append_assoc, List.takeWhile_append_dropWhile, ← hs, List.takeWhile_append_dropWhile]
      · intro x hx
        have := List.all_eq_true.mp (List.all_takeWhile (p := isWs) (l := str)) x hx
        exact (isWs_iff x).mp this
      · rw [List.takeWhile_cons, if_pos hcd]; simp
      · unfold readNumber at h
        split at h
        · next hcond =>
          simp only [Bool.and_eq_true, decide_eq_true_eq] at hcond
          injection h with h
          rw [← h, BitVec.toNat_ofNat, Nat.mod_eq_of_lt hcond.1]
          exact readDigits_spec List.all_takeWhile
        · cases h
    · rw [if_neg hcd] at h
      exact Or.inr (names h)

/-- C127 is violated by blanks inside: the character behind them is dropped, whatever it is. "A B" is A, "A xB" is A|B; a lone bar is zero. -/
theorem blanks_violated :
    enumFromString (build [1, 2] ["A".toList, "B".toList]) "A B".toList = some 1 ∧
    enumFromString (build [1, 2] ["A".toList, "B".toList]) "A xB".toList = some 3 ∧
    enumFromString (build [1, 2] ["A".toList, "B".toList]) "|".toList = some 0 := by decide +kernel

/-- The hypotheses are met: a class with a name for two values at once. -/
theorem class_example : Spec.Class [1, 2, 8, 1] ["Read".toList, "Write".toList, "X".toList, "Get".toList] := by
  refine ⟨rfl, by decide +kernel, ?_⟩
  intro n hn
  simp only [List.mem_cons, List.not_mem_nil, or_false] at hn
  rcases hn with rfl | rfl | rfl | rfl
  · exact ⟨by decide, by simp [Spec.Blank], by simp⟩
  · exact ⟨by decide, by simp [Spec.Blank], by simp⟩
  · exact ⟨by decide, by simp [Spec.Blank], by simp⟩
  · exact ⟨by decide, by simp [Spec.Blank], by simp⟩

example : enumToString (build [1, 2, 8, 1] ["Read".toList, "Write".toList, "X".toList, "Get".toList]) 3 = "Read|Write".toList ∧
    enumToString (build [1, 2, 8, 1] ["Read".toList, "Write".toList, "X".toList, "Get".toList]) 1 = "Read".toList ∧
    enumToString (build [1, 2, 8, 1] ["Read".toList, "Write".toList, "X".toList, "Get".toList]) 5 = "5".toList ∧
    enumFromString (build [1, 2, 8, 1] ["Read".toList, "Write".toList, "X".toList, "Get".toList]) " Get |Write|\t".toList = some 3 ∧
    enumFromString (build [1, 2, 8, 1] ["Read".toList, "Write".toList, "X".toList, "Get".toList]) " 4294967295 ".toList = some (-1) := by decide +kernel

end Verif.EnumStr

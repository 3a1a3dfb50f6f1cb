import Verif.Diag.ThreadStat
import Verif.Str.IntsProps
/-!
The file is read whole, whatever the pieces; a line as the kernel writes it gives its fields, unless the name contains `)` or a number does not fit.
-/
namespace Verif.Diag.ThreadStat
open Verif.Str (isDigit decimal)

/-- Whatever the sizes of the pieces, the bytes of the file come out, all of them, in order; or nothing, if a call fails. -/
theorem consume_loop (env : Nat → Option Nat) : ∀ (fuel i : Nat) (file got : List Char) (size : Nat), got.length < size → file.length < fuel →
    (∀ j, env j ≠ none) → consumeLoop env fuel i file got size = some (some (got ++ file)) := by
  intro fuel
  induction fuel with
  | zero => intro i file got size _ h; omega
  | succ n ih =>
    intro i file got size h1 h2 he
    simp only [consumeLoop]
    cases hk : env i with
    | none => exact absurd hk (he i)
    | some k =>
      simp only []
      by_cases hz : min (k + 1) (min (size - got.length) file.length) = 0
      · rw [if_pos hz]
        have : file.length = 0 := by omega
        rw [List.length_eq_zero_iff.mp this, List.append_nil]
      · rw [if_neg hz]
        rw [ih]
        · rw [List.append_assoc, List.take_append_drop]
        · simp only [List.length_append, List.length_take]
          have : increment = 1024 := rfl
          split <;> omega
        · simp only [List.length_drop]; omega
        · exact he

theorem consume_whole (env : Nat → Option Nat) (file : List Char) (he : ∀ j, env j ≠ none) : consumeFile env (file.length + 1) file = some (some file) := by
  simp only [consumeFile]
  rw [consume_loop env _ 0 file [] increment (by simp [increment]) (by omega) he, List.nil_append]

/-- In every case the result is the whole file or nothing: no part of it. -/
theorem consume_all_or_nothing (env : Nat → Option Nat) : ∀ (fuel i : Nat) (file got : List Char) (size : Nat) (r : List Char), got.length < size →
    consumeLoop env fuel i file got size = some (some r) → r = got ++ file := by
  intro fuel
  induction fuel with
  | zero => intro i file got size r _ h; simp [consumeLoop] at h
  | succ n ih =>
    intro i file got size r h1 h
    simp only [consumeLoop] at h
    cases hk : env i with
    | none => rw [hk] at h; simp at h
    | some k =>
      rw [hk] at h
      simp only [] at h
      by_cases hz : min (k + 1) (min (size - got.length) file.length) = 0
      · rw [if_pos hz] at h
        have : file.length = 0 := by omega
        simp only [Option.some.injEq] at h
        rw [List.length_eq_zero_iff.mp this, List.append_nil, h]
      · rw [if_neg hz] at h
        rw [ih _ _ _ _ _ ?_ h, List.append_assoc, List.take_append_drop]
        simp only [List.length_append, List.length_take]
        have : increment = 1024 := rfl
        split <;> omega

theorem consume_result (env : Nat → Option Nat) (fuel : Nat) (file r : List Char) (h : consumeFile env fuel file = some (some r)) : r = file := by
  have := consume_all_or_nothing env fuel 0 file [] increment r (by simp [increment]) h
  simpa using this

example : consumeFile (fun i => some (i % 3)) 8 "1 (a) S".toList = some (some "1 (a) S".toList) ∧ consumeFile (fun i => if i = 2 then none else some 1) 8 "1 (a) S".toList = some none := by
  decide

/-- `t` is how the number `v` is written. -/
def Writes (t : List Char) (v : Int) : Prop :=
  ∃ ds, ds ≠ [] ∧ ds.all isDigit = true ∧ ((t = ds ∧ v = decimal ds) ∨ (t = '-' :: ds ∧ v = -decimal ds))

/-- The numbers of a line, each after a blank. -/
inductive Numbers : List Char → List Int → Prop where
  | nil : Numbers [] []
  | cons {t : List Char} {v : Int} {line : List Char} {vs : List Int} : Writes t v → -9223372036854775808 ≤ v → v ≤ 9223372036854775807 → Numbers line vs →
      Numbers (' ' :: t ++ line) (v :: vs)

/-- What may follow a number: nothing, or something other than a digit. -/
def Ends (rest : List Char) : Prop := ∀ c, rest.head? = some c → isDigit c = false

theorem numbers_end {line : List Char} {vs : List Int} {rest : List Char} (h : Numbers line vs) (hr : Ends rest) : Ends (line ++ rest) := by
  cases h with
  | nil => simpa using hr
  | cons => intro c hc; simp at hc; rw [← hc]; decide

theorem take_digits {ds rest : List Char} (h : ds.all isDigit = true) (hr : Ends rest) : (ds ++ rest).takeWhile isDigit = ds ∧ (ds ++ rest).dropWhile isDigit = rest := by
  induction ds with
  | nil =>
    cases rest with
    | nil => simp
    | cons c r => have := hr c rfl; simp [this]
  | cons c ds ih =>
    simp only [List.all_cons, Bool.and_eq_true] at h
    simp [h.1, ih h.2]

theorem digit_head {c : Char} (h : isDigit c = true) : isSpace c = false ∧ c ≠ '-' ∧ c ≠ '+' := by
  have h' : 48 ≤ c.toNat ∧ c.toNat ≤ 57 := by simpa [isDigit] using h
  have hne : ∀ d : Char, d.toNat < 48 → c ≠ d := by intro d hd hc; rw [hc] at h'; omega
  refine ⟨?_, hne _ (by decide), hne _ (by decide)⟩
  simp only [isSpace, Bool.or_eq_false_iff, beq_eq_false_iff_ne]
  exact ⟨⟨⟨⟨⟨hne _ (by decide), hne _ (by decide)⟩, hne _ (by decide)⟩, hne _ (by decide)⟩, by omega⟩, by omega⟩

/-- What the conversions of `t` followed by `rest` look at. -/
theorem number_parts {t : List Char} {v : Int} (h : Writes t v) {rest : List Char} (hr : Ends rest) :
    (t ++ rest).dropWhile isSpace = t ++ rest ∧
    ∃ ds neg, splitSign (t ++ rest) = (neg, ds ++ rest) ∧ ds ≠ [] ∧ ds.all isDigit = true ∧ v = if neg then -decimal ds else decimal ds := by
  obtain ⟨ds, hne, hd, ⟨rfl, rfl⟩ | ⟨rfl, rfl⟩⟩ := h
  · cases t with
    | nil => exact absurd rfl hne
    | cons c ds =>
      have hc := digit_head (c := c) (by simp at hd; exact hd.1)
      refine ⟨by simp [hc.1], c :: ds, false, ?_, hne, hd, by simp⟩
      show splitSign (c :: (ds ++ rest)) = _
      unfold splitSign
      split
      · next heq => simp at heq; exact absurd heq.1 hc.2.1
      · next heq => simp at heq; exact absurd heq.1 hc.2.2
      · rfl
  · exact ⟨by simp [show isSpace '-' = false by decide], ds, true, rfl, hne, hd, by simp⟩

theorem scan_lld {t : List Char} {v : Int} (h : Writes t v) (h1 : -9223372036854775808 ≤ v) (h2 : v ≤ 9223372036854775807) {rest : List Char} (hr : Ends rest)
    (ds : List Dir) (vals : List Val) : scan (.lld :: ds) (t ++ rest) vals = scan ds rest (vals ++ [.num v]) := by
  obtain ⟨hs, ns, neg, hp, hne, hd, hv⟩ := number_parts h hr
  have htd := take_digits hd hr
  simp only [scan, hs, hp, htd.1, htd.2]
  rw [if_neg (by simpa using hne)]
  have hm : magnitude ns = decimal ns := rfl
  have : signedValue neg ns = some v := by
    simp only [signedValue, hm]
    cases neg
    · simp only [Bool.false_eq_true, if_false] at hv ⊢
      rw [if_pos (by omega), hv]
    · simp only [if_true] at hv ⊢
      rw [if_pos (by omega), hv]
  rw [this]

theorem scan_llu {t : List Char} {v : Int} (h : Writes t v) (h1 : -9223372036854775808 ≤ v) (h2 : v ≤ 9223372036854775807) {rest : List Char} (hr : Ends rest)
    (ds : List Dir) (vals : List Val) : scan (.llu :: ds) (t ++ rest) vals = scan ds rest (vals ++ [.num v]) := by
  obtain ⟨hs, ns, neg, hp, hne, hd, hv⟩ := number_parts h hr
  have htd := take_digits hd hr
  simp only [scan, hs, hp, htd.1, htd.2]
  rw [if_neg (by simpa using hne)]
  have hm : magnitude ns = decimal ns := rfl
  have : unsignedValue neg ns = some v := by
    simp only [unsignedValue, hm]
    rw [← hv]
    rw [if_pos (by cases neg <;> simp at hv <;> omega)]
    congr 1
    omega
  rw [this]

theorem scan_blank {t : List Char} {v : Int} (h : Writes t v) {rest : List Char} (hr : Ends rest) (ds : List Dir) (vals : List Val) :
    scan (.blank :: ds) (' ' :: t ++ rest) vals = scan ds (t ++ rest) vals := by
  show scan ds (((' ' :: t) ++ rest).dropWhile isSpace) vals = _
  rw [List.cons_append, List.dropWhile_cons_of_pos (by decide), (number_parts h hr).1]

/-- A number of directives for numbers reads as many numbers. -/
theorem scan_numbers : ∀ {line : List Char} {vs : List Int}, Numbers line vs → ∀ {rest : List Char}, Ends rest → ∀ (ds : List Dir) (vals : List Val),
    scan ((List.replicate vs.length [Dir.blank, .lld]).flatten ++ ds) (line ++ rest) vals = scan ds rest (vals ++ vs.map .num) := by
  intro line vs h
  induction h with
  | nil => intro rest hr ds vals; simp
  | cons hw h1 h2 hn ih =>
    intro rest hr ds vals
    simp only [List.length_cons, List.replicate_succ, List.flatten_cons, List.cons_append, List.nil_append, List.append_assoc, List.map_cons]
    have he := numbers_end hn hr
    have := scan_blank hw he
    rw [List.cons_append] at this
    rw [this, scan_lld hw h1 h2 he, ih hr]
    simp

theorem numbers_split : ∀ {line : List Char} {vs : List Int}, Numbers line vs → ∀ k, ∃ a b, line = a ++ b ∧ Numbers a (vs.take k) ∧ Numbers b (vs.drop k) := by
  intro line vs h
  induction h with
  | nil => intro k; exact ⟨[], [], rfl, by simpa using .nil, by simpa using .nil⟩
  | cons hw hl hh hn ih =>
    intro k
    cases k with
    | zero => exact ⟨[], _, rfl, by simpa using .nil, by simpa using .cons hw hl hh hn⟩
    | succ k =>
      obtain ⟨a, b, rfl, h1, h2⟩ := ih k
      exact ⟨_, b, by rw [← List.append_assoc], by simpa using .cons hw hl hh h1, by simpa using h2⟩

theorem take_comm {comm rest : List Char} (h : ')' ∉ comm) (hl : comm.length ≤ 1024) : (((comm ++ ')' :: rest).takeWhile (· != ')')).take 1024) = comm := by
  have : (comm ++ ')' :: rest).takeWhile (· != ')') = comm := by
    induction comm with
    | nil => simp
    | cons c cs ih =>
      simp only [List.mem_cons, not_or] at h
      have hc : (c != ')') = true := by simpa using fun he => h.1 he.symm
      rw [List.cons_append, List.takeWhile_cons_of_pos (p := (· != ')')) hc, ih h.2 (by simp at hl; omega)]
  rw [this, List.take_of_length_le hl]

/-- The line of a thread: its id, the name in parentheses, the state and the numbers; `more` is what newer kernels add. -/
theorem parse_line {pid : List Char} {id : Int} (hp : Writes pid id) (hp1 : -9223372036854775808 ≤ id) (hp2 : id ≤ 9223372036854775807)
    {comm : List Char} (hc : comm ≠ []) (hc1 : ')' ∉ comm) (hc2 : comm.length < 1024) {state : Char} (hst : isSpace state = false)
    {line : List Char} {vs : List Int} (hn : Numbers line vs) (hv : vs.length = 38) {more : List Char} (hm : Ends more)
    (h0 : ∀ c ∈ pid ++ " (".toList ++ comm ++ ") ".toList ++ [state] ++ line ++ more, c.toNat ≠ 0) :
    parse (pid ++ " (".toList ++ comm ++ ") ".toList ++ [state] ++ line ++ more) = .fields ([.num id, .text comm, .chr state] ++ vs.map .num) := by
  have hcs : cStr (pid ++ " (".toList ++ comm ++ ") ".toList ++ [state] ++ line ++ more) = pid ++ " (".toList ++ comm ++ ") ".toList ++ [state] ++ line ++ more := by
    simp only [cStr]
    generalize pid ++ " (".toList ++ comm ++ ") ".toList ++ [state] ++ line ++ more = l at h0
    induction l with
    | nil => rfl
    | cons c cs ih =>
      rw [List.takeWhile_cons_of_pos (by simpa using h0 c (by simp)), ih fun d hd => h0 d (by simp [hd])]
  have hscan : scan format (pid ++ " (".toList ++ comm ++ ") ".toList ++ [state] ++ line ++ more) [] = .done ([.num id, .text comm, .chr state] ++ vs.map .num) := by
    have e : pid ++ " (".toList ++ comm ++ ") ".toList ++ [state] ++ line ++ more = pid ++ (' ' :: '(' :: (comm ++ ')' :: (' ' :: state :: (line ++ more)))) := by simp
    rw [e]
    simp only [format, List.cons_append, List.nil_append, List.append_assoc]
    rw [scan_lld hp hp1 hp2 (by intro c hc; simp at hc; rw [← hc]; decide)]
    have e1 : scan (.blank :: .lit '(' :: .upTo 1024 ')' :: .lit ')' :: .blank :: .chr :: ((List.replicate 19 [Dir.blank, .lld]).flatten ++ .blank :: .llu ::
        (List.replicate 18 [Dir.blank, .lld]).flatten)) (' ' :: '(' :: (comm ++ ')' :: (' ' :: state :: (line ++ more)))) ([] ++ [.num id]) =
        scan (.upTo 1024 ')' :: .lit ')' :: .blank :: .chr :: ((List.replicate 19 [Dir.blank, .lld]).flatten ++ .blank :: .llu ::
        (List.replicate 18 [Dir.blank, .lld]).flatten)) (comm ++ ')' :: (' ' :: state :: (line ++ more))) [.num id] := by
      generalize (List.replicate 19 [Dir.blank, .lld]).flatten ++ .blank :: .llu :: (List.replicate 18 [Dir.blank, .lld]).flatten = tail
      simp [scan, isSpace]
    rw [e1]
    have e2 : scan (.upTo 1024 ')' :: .lit ')' :: .blank :: .chr :: ((List.replicate 19 [Dir.blank, .lld]).flatten ++ .blank :: .llu ::
        (List.replicate 18 [Dir.blank, .lld]).flatten)) (comm ++ ')' :: (' ' :: state :: (line ++ more))) [.num id] =
        scan ((List.replicate 19 [Dir.blank, .lld]).flatten ++ .blank :: .llu :: (List.replicate 18 [Dir.blank, .lld]).flatten) (line ++ more)
          [.num id, .text comm, .chr state] := by
      generalize (List.replicate 19 [Dir.blank, .lld]).flatten ++ .blank :: .llu :: (List.replicate 18 [Dir.blank, .lld]).flatten = tail
      simp only [scan, take_comm hc1 (Nat.le_of_lt hc2)]
      rw [if_neg (by simpa using hc), if_neg (by simp only [commSize]; omega), List.drop_left]
      have hsp : isSpace ' ' = true := by decide
      simp [List.dropWhile_cons_of_pos, hsp, hst]
    rw [e2]
    obtain ⟨a, b, rfl, ha, hb⟩ := numbers_split hn 19
    have hla : (vs.take 19).length = 19 := by simp [hv]
    rw [List.append_assoc]
    have s1 := scan_numbers ha (numbers_end hb hm) (.blank :: .llu :: (List.replicate 18 [Dir.blank, .lld]).flatten) [.num id, .text comm, .chr state]
    rw [hla] at s1
    rw [s1]
    have hd : vs = vs.take 19 ++ vs.drop 19 := (List.take_append_drop 19 vs).symm
    cases hb' : vs.drop 19 with
    | nil => have := congrArg List.length hb'; simp [hv] at this
    | cons v ws =>
      have hws : ws.length = 18 := by have := congrArg List.length hb'; simp [hv] at this; omega
      rw [hb'] at hb
      cases hb with
      | cons hw h1 h2 hn' =>
        have he := numbers_end hn' hm
        have s2 := scan_blank hw he (.llu :: (List.replicate 18 [Dir.blank, .lld]).flatten) ([.num id, .text comm, .chr state] ++ (vs.take 19).map .num)
        rw [List.cons_append] at s2
        rw [List.append_assoc, List.cons_append, s2, scan_llu hw h1 h2 he]
        have s3 := scan_numbers hn' hm [] ([.num id, .text comm, .chr state] ++ (vs.take 19).map .num ++ [.num v])
        rw [hws, List.append_nil] at s3
        rw [s3]
        simp only [scan]
        congr 1
        conv => rhs; rw [hd, hb']
        simp
  simp only [parse, hcs, hscan]
  rw [if_pos (by simp [argsCount, hv])]

/-- The whole way: a file that is such a line, read in pieces of any sizes. -/
theorem thread_stat_partial (env : Nat → Option Nat) (he : ∀ j, env j ≠ none) {pid : List Char} {id : Int} (hp : Writes pid id) (hp1 : -9223372036854775808 ≤ id)
    (hp2 : id ≤ 9223372036854775807) {comm : List Char} (hc : comm ≠ []) (hc1 : ')' ∉ comm) (hc2 : comm.length < 1024) {state : Char} (hst : isSpace state = false)
    {line : List Char} {vs : List Int} (hn : Numbers line vs) (hv : vs.length = 38) {more : List Char} (hm : Ends more) {file : List Char}
    (hf : file = pid ++ " (".toList ++ comm ++ ") ".toList ++ [state] ++ line ++ more) (h0 : ∀ c ∈ file, c.toNat ≠ 0) (other : Option (List Char)) :
    getThreadStats env (file.length + 1) (some file) other = some (.fields ([.num id, .text comm, .chr state] ++ vs.map .num)) ∧
    getThreadStats env (file.length + 1) none (some file) = some (.fields ([.num id, .text comm, .chr state] ++ vs.map .num)) := by
  have : readStat env (file.length + 1) file = some (.fields ([.num id, .text comm, .chr state] ++ vs.map .num)) := by
    simp only [readStat, consume_whole env file he]
    congr 1
    subst hf
    exact parse_line hp hp1 hp2 hc hc1 hc2 hst hn hv hm h0
  exact ⟨this, this⟩

/-- The line of a thread in a file, for examples. -/
def lineOf (comm vsize rsslim : String) : List Char :=
  ("7 (" ++ comm ++ ") S 1 2 3 0 -1 4 5 6 7 8 9 10 11 12 20 0 1 0 99 " ++ vsize ++ " 14 " ++ rsslim ++ " 1 1 0 0 0 0 0 0 0 0 0 0 17 0 0 0 0 0\n").toList

set_option maxRecDepth 100000 in
example : parse (lineOf "my (thread" "4096" "100") = .fields ([.num 7, .text "my (thread".toList, .chr 'S'] ++
    ([1, 2, 3, 0, -1, 4, 5, 6, 7, 8, 9, 10, 11, 12, 20, 0, 1, 0, 99, 4096, 14, 100, 1, 1, 0, 0, 0, 0, 0, 0, 0, 0, 0, 0, 17, 0, 0, 0] : List Int).map .num) := by decide +kernel

/-- The limit of the resident set that the kernel writes for "unlimited", 2^64 - 1, is not a value of `%lld`: the conversion is undefined.  (The directive `%llu` of the
format is two fields too early for it.) -/
theorem rsslim_unlimited_violated : parse (lineOf "a" "4096" "18446744073709551615") = .ub := by decide +kernel

/-- A thread may have `)` in its name: then the statistics cannot be had. -/
theorem paren_in_name_violated : parse (lineOf "a)b" "4096" "100") = .failed ∧ parse (lineOf "a) S 1" "4096" "100") = .failed := by decide +kernel

/-- A thread may have an empty name. -/
theorem empty_name_violated : parse (lineOf "" "4096" "100") = .failed := by decide +kernel

/-- A name of 1024 characters is let through by the format, and its terminator is written past the end of the buffer. -/
theorem long_name_violated (ds : List Dir) (vals : List Val) {name rest : List Char} (h : ')' ∉ name) (hl : name.length = 1024) :
    scan (.upTo 1024 ')' :: ds) (name ++ ')' :: rest) vals = .overrun := by
  have hne : name ≠ [] := by intro hc; simp [hc] at hl
  simp only [scan, take_comm h (Nat.le_of_eq hl)]
  rw [if_neg (by simpa using hne), if_pos (by simp [commSize, hl])]

/-- A stored value that its field holds. -/
def Fits : Val → Prop
  | .num v => -9223372036854775808 ≤ v ∧ v ≤ 9223372036854775807
  | .text s => s.length < 1024
  | .chr _ => True

theorem takeWhile_all (p : Char → Bool) (l : List Char) : (l.takeWhile p).all p = true := by
  induction l with
  | nil => rfl
  | cons c l ih => by_cases h : p c = true <;> simp [h, ih]

theorem scan_fits (ds : List Dir) : ∀ (input : List Char) (vals out : List Val), scan ds input vals = .done out → (∀ v ∈ vals, Fits v) → ∀ v ∈ out, Fits v := by
  induction ds with
  | nil => intro input vals out h hv; simp only [scan, Scan.done.injEq] at h; rw [← h]; exact hv
  | cons d ds ih =>
    intro input vals out h hv
    have app : ∀ w, Fits w → ∀ v ∈ vals ++ [w], Fits v := by
      intro w hw v hm
      rcases List.mem_append.mp hm with hm | hm
      · exact hv v hm
      · rw [List.mem_singleton.mp hm]; exact hw
    cases d with
    | lld =>
      simp only [scan] at h
      split at h
      · rw [← Scan.done.inj h]; exact hv
      · have hm : 0 ≤ magnitude ((splitSign (input.dropWhile isSpace)).2.takeWhile isDigit) := Str.fold_ge _ (takeWhile_all _ _) 0 (by omega)
        cases hs : signedValue (splitSign (input.dropWhile isSpace)).1 ((splitSign (input.dropWhile isSpace)).2.takeWhile isDigit) with
        | none => rw [hs] at h; simp at h
        | some v =>
          rw [hs] at h
          refine ih _ _ _ h (app _ ?_)
          simp only [signedValue] at hs
          simp only [Fits]
          cases hn : (splitSign (input.dropWhile isSpace)).1 <;> rw [hn] at hs <;> simp at hs <;> omega
    | llu =>
      simp only [scan] at h
      split at h
      · rw [← Scan.done.inj h]; exact hv
      · cases hs : unsignedValue (splitSign (input.dropWhile isSpace)).1 ((splitSign (input.dropWhile isSpace)).2.takeWhile isDigit) with
        | none => rw [hs] at h; simp at h
        | some v =>
          rw [hs] at h
          refine ih _ _ _ h (app _ ?_)
          simp only [unsignedValue] at hs
          simp only [Fits]
          split at hs
          · simp only [Option.some.injEq] at hs
            omega
          · simp at hs
    | blank => exact ih _ _ _ h hv
    | lit c =>
      simp only [scan] at h
      split at h
      · exact ih _ _ _ h hv
      · rw [← Scan.done.inj h]; exact hv
    | upTo max stop =>
      simp only [scan] at h
      split at h
      · rw [← Scan.done.inj h]; exact hv
      · split at h
        · simp at h
        · next hn => exact ih _ _ _ h (app _ (by simp only [Fits, commSize] at hn ⊢; omega))
    | chr =>
      cases input with
      | nil => simp only [scan, Scan.done.injEq] at h; rw [← h]; exact hv
      | cons c r => exact ih _ _ _ h (app _ trivial)

/-- Whatever the text is: if there are fields, there are 41, and each is a value of its type. -/
theorem fields_fit {text : List Char} {vals : List Val} (h : parse text = .fields vals) : vals.length = 41 ∧ ∀ v ∈ vals, Fits v := by
  simp only [parse] at h
  cases hs : scan format (cStr text) [] with
  | done out =>
    rw [hs] at h
    simp only [] at h
    split at h
    · next hl => cases h; exact ⟨hl, scan_fits _ _ _ _ hs (by simp)⟩
    · simp at h
  | undefined => rw [hs] at h; simp at h
  | overrun => rw [hs] at h; simp at h

theorem decimal_nonneg (ds : List Char) (hd : ds.all isDigit = true) : 0 ≤ decimal ds := by
  have key : ∀ (ds : List Char) (a : Int), ds.all isDigit = true → 0 ≤ a → 0 ≤ ds.foldl (fun a c => a * 10 + Str.digitVal c) a := by
    intro ds
    induction ds with
    | nil => exact fun a _ h => h
    | cons c ds ih =>
      intro a hd h
      simp only [List.all_cons, Bool.and_eq_true] at hd
      have hc : 48 ≤ c.toNat ∧ c.toNat ≤ 57 := by simpa [isDigit] using hd.1
      refine ih _ hd.2 ?_
      simp only [Str.digitVal]
      omega
  exact key ds 0 hd (by omega)

/-- C176.  An unsigned field is stored in a signed one: up to 2^63 - 1 as it is, from there on less 2^64 (no limit is -1); what is greater than 2^64 - 1 is not a value. -/
theorem unsigned_field {ds : List Char} (hd : ds.all isDigit = true) :
    (decimal ds ≤ 9223372036854775807 → unsignedValue false ds = some (decimal ds)) ∧
    (9223372036854775808 ≤ decimal ds → decimal ds ≤ 18446744073709551615 → unsignedValue false ds = some (decimal ds - 18446744073709551616)) ∧
    (18446744073709551615 < decimal ds → unsignedValue false ds = none) := by
  have hm : magnitude ds = decimal ds := rfl
  have h0 : 0 ≤ decimal ds := decimal_nonneg ds hd
  unfold unsignedValue
  rw [hm]
  refine ⟨fun h => ?_, fun h h' => ?_, fun h => if_neg (by omega)⟩
  · rw [if_pos (by omega)]
    simp only [Bool.false_eq_true, if_false, Option.some.injEq]
    omega
  · rw [if_pos (by omega)]
    simp only [Bool.false_eq_true, if_false, Option.some.injEq]
    omega

/-- C176.  A sign and white space before a number are skipped. -/
example : scan [.llu, .lld] "18446744073709551615 \t+7".toList [] = .done [.num (-1), .num 7] := by decide +kernel

end Verif.Diag.ThreadStat

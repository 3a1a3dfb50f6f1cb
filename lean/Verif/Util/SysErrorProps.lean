import Verif.Util.SysError
import Verif.Str.IntsProps

/-
C196.  Exceptions about errors of the system.
-/
namespace Verif.Util.SysError
open Verif.Str

/-- No two cases of the switch have the same value (it would not compile), every case is a macro of the system, and no two names are the same. -/
theorem cases_distinct : (cases.map (fun n => header.lookup n)).Nodup ∧ cases.Nodup ∧ ∀ n ∈ cases, (header.lookup n).isSome = true := by decide +kernel

theorem cases_shape : ∀ n ∈ cases, n.head? = some 'E' ∧ ' ' ∉ n := by decide +kernel

theorem nodup_map_inj {α β : Type} {f : α → β} : ∀ {l : List α}, (l.map f).Nodup → ∀ {a b : α}, a ∈ l → b ∈ l → f a = f b → a = b
  | [], _, _, _, ha, _, _ => by cases ha
  | x :: l, hn, a, b, ha, hb, h => by
    rw [List.map_cons, List.nodup_cons] at hn
    rcases List.mem_cons.mp ha with rfl | ha' <;> rcases List.mem_cons.mp hb with rfl | hb'
    · rfl
    · exact absurd (by rw [h]; exact List.mem_map_of_mem hb') hn.1
    · exact absurd (by rw [← h]; exact List.mem_map_of_mem ha') hn.1
    · exact nodup_map_inj hn.2 ha' hb' h

/-- C196.  The text of an error which has a case is the name of its macro. -/
theorem named {n : List Char} {e : Int} (hn : n ∈ cases) (he : header.lookup n = some e) : errnoToStr e = n := by
  simp only [errnoToStr]
  split
  · next m hm =>
    have h1 := List.mem_of_find?_eq_some hm
    have h2 := List.find?_some hm
    simp only [decide_eq_true_eq] at h2
    exact nodup_map_inj cases_distinct.1 h1 hn (by show header.lookup m = header.lookup n; rw [h2, he])
  · next hm => exact absurd he (by simpa using List.find?_eq_none.mp hm n hn)

/-- C196.  Of all errors of the system only one has no name: it is shown as a number. -/
theorem all_named_but_one : ∀ p ∈ header, p.1 ∈ cases ∨ p = (['E', 'H', 'W', 'P', 'O', 'I', 'S', 'O', 'N'], 133) := by decide +kernel

theorem text_cases (e : Int) : (∃ n ∈ cases, header.lookup n = some e ∧ errnoToStr e = n) ∨ errnoToStr e = (toText s32 e).getD [] := by
  simp only [errnoToStr]
  split
  · next m hm =>
    have h2 := List.find?_some hm
    simp only [decide_eq_true_eq] at h2
    exact .inl ⟨m, List.mem_of_find?_eq_some hm, h2, rfl⟩
  · exact .inr rfl

theorem number_shape {e : Int} (h1 : -2147483648 ≤ e) (h2 : e ≤ 2147483647) : ∃ t, toText s32 e = some t ∧ t.head? ≠ some 'E' ∧ ' ' ∉ t := by
  obtain ⟨ht, hb⟩ := int_types_ok s32 (by simp)
  obtain ⟨ds, a, b, c, _, _⟩ := toText_spec ht hb (v := e) h1 h2
  have hc := List.all_eq_true.mp c
  refine ⟨_, a, ?_, ?_⟩
  · split
    · simp
    · intro h
      cases ds with
      | nil => exact b rfl
      | cons d ds =>
        simp only [List.head?_cons, Option.some.injEq] at h
        subst h
        exact absurd (hc 'E' (by simp)) (by decide)
  · have : ' ' ∉ ds := fun h => absurd (hc ' ' h) (by decide)
    split
    · intro h
      rcases List.mem_cons.mp h with h | h
      · exact absurd h (by decide)
      · exact this h
    · exact this

/-- C196.  Different error numbers have different texts, whether they have names or not. -/
theorem distinct {a b : Int} (ha : -2147483648 ≤ a ∧ a ≤ 2147483647) (hb : -2147483648 ≤ b ∧ b ≤ 2147483647) (h : errnoToStr a = errnoToStr b) : a = b := by
  obtain ⟨ta, a1, a2, _⟩ := number_shape ha.1 ha.2
  obtain ⟨tb, b1, b2, _⟩ := number_shape hb.1 hb.2
  rcases text_cases a with ⟨n, hn, he, e1⟩ | e1 <;> rcases text_cases b with ⟨m, hm, hf, e2⟩ | e2
  · rw [e1, e2] at h
    subst h
    rw [he] at hf
    exact Option.some.inj hf
  · rw [e1, e2, b1] at h
    exact absurd (by rw [← Option.getD_some (a := tb) (b := []), ← h]; exact (cases_shape n hn).1) b2
  · rw [e1, e2, a1] at h
    exact absurd (by rw [← Option.getD_some (a := ta) (b := []), h]; exact (cases_shape m hm).1) a2
  · rw [e1, e2, a1, b1] at h
    simp only [Option.getD_some] at h
    obtain ⟨ht, hbb⟩ := int_types_ok s32 (by simp)
    obtain ⟨s, s1, s2⟩ := fromText_toText ht hbb (v := a) ha.1 ha.2
    obtain ⟨r, r1, r2⟩ := fromText_toText ht hbb (v := b) hb.1 hb.2
    rw [a1] at s1
    rw [b1] at r1
    cases s1
    cases r1
    rw [h, r2] at s2
    cases s2
    rfl

theorem no_space {e : Int} (he : -2147483648 ≤ e ∧ e ≤ 2147483647) : ' ' ∉ errnoToStr e := by
  rcases text_cases e with ⟨n, hn, _, e1⟩ | e1
  · rw [e1]; exact (cases_shape n hn).2
  · obtain ⟨t, h1, _, h3⟩ := number_shape he.1 he.2
    rw [e1, h1]
    exact h3

theorem cut_inj : ∀ {s t r q : List Char}, ' ' ∉ s → ' ' ∉ t → s ++ ' ' :: r = t ++ ' ' :: q → s = t
  | [], [], _, _, _, _, _ => rfl
  | [], c :: t, r, q, _, ht, h => by
    simp only [List.nil_append, List.cons_append, List.cons.injEq] at h
    exact absurd (by rw [← h.1]; simp) ht
  | c :: s, [], r, q, hs, _, h => by
    simp only [List.nil_append, List.cons_append, List.cons.injEq] at h
    exact absurd (by rw [h.1]; simp) hs
  | c :: s, d :: t, r, q, hs, ht, h => by
    simp only [List.cons_append, List.cons.injEq] at h
    rw [h.1, cut_inj (fun k => hs (by simp [k])) (fun k => ht (by simp [k])) h.2]

/-- C196.  Different errors have different messages, whatever the texts of the system for them are, even none or all the same. -/
theorem message_distinct {f g : Int → Option (List Char)} {a b : Int} (ha : -2147483648 ≤ a ∧ a ≤ 2147483647) (hb : -2147483648 ≤ b ∧ b ≤ 2147483647)
    (h : getErrorMessage f a = getErrorMessage g b) : a = b := by
  simp only [getErrorMessage, List.append_assoc, List.cons_append, List.nil_append] at h
  exact distinct ha hb (cut_inj (no_space ha) (no_space hb) h)

/-- C196.  An exception made from a number: that number is its code and the one its text tells; so texts of exceptions with the same message and path differ if the errors do. -/
theorem code_told {f : Int → Option (List Char)} {m p : List Char} {a b : Int} (ha : -2147483648 ≤ a ∧ a ≤ 2147483647) (hb : -2147483648 ≤ b ∧ b ≤ 2147483647) :
    (ofCode f m a).code = a ∧ (ofPath f m p a).code = a ∧ ((ofCode f m a).text = (ofCode f m b).text → a = b) ∧ ((ofPath f m p a).text = (ofPath f m p b).text → a = b) := by
  refine ⟨rfl, rfl, fun h => ?_, fun h => ?_⟩
  · exact message_distinct ha hb (List.append_cancel_left h)
  · exact message_distinct ha hb (List.append_cancel_left h)

/-- C196.  An exception made from errno tells the same error by its text and its code, if making the text leaves errno alone. -/
theorem errno_told_partial {f : Int → Option (List Char)} {build : Int → Int} {m : List Char} {e : Int} (hb : build e = e) : ofErrno f build m e = ofCode f m e := by
  simp only [ofErrno, ofCode, hb]

/-- C196 does not hold if making the text changes errno, which is read again for the code: text and code tell different errors. -/
theorem errno_violated : ∃ build : Int → Int, ∀ f m, (ofErrno f build m 2).code = 12 ∧ (ofErrno f build m 2).text = (ofCode f m 2).text := ⟨fun _ => 12, fun _ _ => ⟨rfl, rfl⟩⟩

/-- C196.  From what the macro throws it can be told which error it was. -/
theorem thrown_told {f : Int → Option (List Char)} {m p : List Char} {a b : Int} (h : throwSystem f m p a = throwSystem f m p b) : a = b := by
  simp only [throwSystem] at h
  repeat' split at h
  all_goals first | cases h | skip
  all_goals first | omega | skip
  all_goals
    have := congrArg (fun t => match t with | Thrown.system e => e.code | _ => 0) h
    exact this

/-- C196.  The types the macro throws are for the errors with these names, all others are told by a SystemException. -/
theorem thrown_types {f : Int → Option (List Char)} {m p : List Char} {e : Int} :
    (header.lookup ['E', 'N', 'O', 'E', 'N', 'T'] = some e → throwSystem f m p e = .fileNotFound p) ∧ (header.lookup ['E', 'A', 'C', 'C', 'E', 'S'] = some e → throwSystem f m p e = .accessDenied m) ∧
    (header.lookup ['E', 'I', 'O'] = some e → throwSystem f m p e = .inputOutput m) ∧ (header.lookup ['E', 'B', 'U', 'S', 'Y'] = some e → throwSystem f m p e = .deviceBusy m) ∧
    (header.lookup ['E', 'N', 'O', 'S', 'P', 'C'] = some e → throwSystem f m p e = .noSpaceLeft m) ∧ (header.lookup ['E', 'A', 'G', 'A', 'I', 'N'] = some e → throwSystem f m p e = .resourceUnavailable m) ∧
    (e ∉ ([2, 13, 5, 16, 28, 11] : List Int) → throwSystem f m p e = .system (ofPath f m p e)) := by
  refine ⟨fun h => ?_, fun h => ?_, fun h => ?_, fun h => ?_, fun h => ?_, fun h => ?_, fun h => ?_⟩
  · rw [show header.lookup ['E', 'N', 'O', 'E', 'N', 'T'] = some 2 by decide +kernel] at h; cases h; rfl
  · rw [show header.lookup ['E', 'A', 'C', 'C', 'E', 'S'] = some 13 by decide +kernel] at h; cases h; rfl
  · rw [show header.lookup ['E', 'I', 'O'] = some 5 by decide +kernel] at h; cases h; rfl
  · rw [show header.lookup ['E', 'B', 'U', 'S', 'Y'] = some 16 by decide +kernel] at h; cases h; rfl
  · rw [show header.lookup ['E', 'N', 'O', 'S', 'P', 'C'] = some 28 by decide +kernel] at h; cases h; rfl
  · rw [show header.lookup ['E', 'A', 'G', 'A', 'I', 'N'] = some 11 by decide +kernel] at h; cases h; rfl
  · simp only [List.mem_cons, List.not_mem_nil, or_false, not_or] at h
    simp only [throwSystem, if_neg h.1, if_neg h.2.1, if_neg h.2.2.1, if_neg h.2.2.2.1, if_neg h.2.2.2.2.1, if_neg h.2.2.2.2.2]

example : errnoToStr 110 = ['E', 'T', 'I', 'M', 'E', 'D', 'O', 'U', 'T'] ∧ errnoToStr 133 = ['1', '3', '3'] ∧ errnoToStr (-1) = ['-', '1'] := by decide +kernel

end Verif.Util.SysError

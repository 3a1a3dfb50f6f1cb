import Verif.Str.Reader
/-
C137: reading a text line by line.
-/
namespace Verif.Reader

namespace Spec

/-- No line ends inside. -/
def Line (l : List Char) : Prop := '\n' ∉ l ∧ '\r' ∉ l

/-- A text cut at its line ends: `\n`, `\r\n` and `\r` not followed by `\n`.  The last line may lack its end if it is not empty. -/
inductive Lines : List Char → List (List Char) → Prop where
  | done : Lines [] []
  | last (l : List Char) : l ≠ [] → Line l → Lines l [l]
  | lf (l t : List Char) (ls : List (List Char)) : Line l → Lines t ls → Lines (l ++ '\n' :: t) (l :: ls)
  | crlf (l t : List Char) (ls : List (List Char)) : Line l → Lines t ls → Lines (l ++ '\r' :: '\n' :: t) (l :: ls)
  | cr (l t : List Char) (ls : List (List Char)) : Line l → t.head? ≠ some '\n' → Lines t ls → Lines (l ++ '\r' :: t) (l :: ls)

/-- Lines with a given line end. -/
def terminated (e : List Char) (ls : List (List Char)) : List Char := ls.flatMap (fun l => l ++ e)

end Spec

open Spec

theorem scan_line (text : List Char) : ∀ (l : List Char) (n pos : Nat), Line l → l.length < n → l <+: text.drop pos → scan text n pos = scan text (n - l.length) (pos + l.length) := by
  intro l
  induction l with
  | nil => intro n pos _ _ _; simp
  | cons c l ih =>
    intro n pos hl hn hp
    obtain ⟨n, rfl⟩ : ∃ m, n = m + 1 := ⟨n - 1, by simp at hn; omega⟩
    obtain ⟨q, hq⟩ := hp
    have hc : text[pos]? = some c := by
      have : (text.drop pos)[0]? = some c := by rw [← hq]; rfl
      rwa [List.getElem?_drop] at this
    have h1 : c ≠ '\n' := fun h => hl.1 (by simp [h])
    have h2 : c ≠ '\r' := fun h => hl.2 (by simp [h])
    rw [scan, hc]
    simp only [h1, h2, if_false]
    rw [ih n (pos + 1) ⟨fun h => hl.1 (by simp [h]), fun h => hl.2 (by simp [h])⟩ (by simp at hn; omega) ⟨q, by
      rw [← List.drop_drop, ← hq]; rfl⟩]
    congr 1
    · simp
    · simp; omega

theorem scan_stop (text : List Char) (n pos : Nat) (r : List Char) (hr : text.drop pos = r) :
    (r = [] → scan text (n + 1) pos = (pos, 0)) ∧
    (∀ t, r = '\n' :: t → scan text (n + 1) pos = (pos, 1)) ∧
    (∀ t, r = '\r' :: '\n' :: t → scan text (n + 1) pos = (pos, 2)) ∧
    (∀ t, r = '\r' :: t → t.head? ≠ some '\n' → scan text (n + 1) pos = (pos, 1)) := by
  have h0 : text[pos]? = r.head? := by
    rw [← hr]; cases h : text[pos]? with
    | none => rw [List.head?_drop, h]
    | some c => rw [List.head?_drop, h]
  have h1 : text[pos + 1]? = r.tail.head? := by
    rw [← hr, List.tail_drop, List.head?_drop]
  refine ⟨?_, ?_, ?_, ?_⟩
  · rintro rfl; rw [scan, h0]; rfl
  · rintro t rfl; rw [scan, h0]; rfl
  · rintro t rfl
    have hlt : pos + 1 < text.length := by
      rcases Nat.lt_or_ge (pos + 1) text.length with h | h
      · exact h
      · rw [List.getElem?_eq_none h] at h1; cases h1
    rw [scan, h0]
    simp only [List.head?_cons, List.tail_cons] at h1 ⊢
    rw [if_neg (by decide), if_pos trivial, if_pos ⟨hlt, h1⟩]
  · rintro t rfl ht
    rw [scan, h0]
    simp only [List.head?_cons, List.tail_cons] at h1 ⊢
    rw [if_neg (by decide), if_pos trivial, if_neg (by rw [h1]; exact fun h => ht h.2)]

/-- The text before the position is of no importance. -/
theorem readLine_spec (pre l r : List Char) (hl : Line l) :
    (r = [] → readLine ⟨pre ++ (l ++ r), pre.length⟩ = (l, ⟨pre ++ (l ++ r), pre.length + l.length⟩)) ∧
    (∀ t, r = '\n' :: t → readLine ⟨pre ++ (l ++ r), pre.length⟩ = (l, ⟨pre ++ (l ++ r), pre.length + l.length + 1⟩)) ∧
    (∀ t, r = '\r' :: '\n' :: t → readLine ⟨pre ++ (l ++ r), pre.length⟩ = (l, ⟨pre ++ (l ++ r), pre.length + l.length + 2⟩)) ∧
    (∀ t, r = '\r' :: t → t.head? ≠ some '\n' → readLine ⟨pre ++ (l ++ r), pre.length⟩ = (l, ⟨pre ++ (l ++ r), pre.length + l.length + 1⟩)) := by
  have hd : (pre ++ (l ++ r)).drop (pre.length + l.length) = r := by
    rw [← List.append_assoc, List.drop_left' (by simp)]
  have hs := scan_line (pre ++ (l ++ r)) l ((pre ++ (l ++ r)).length + 1) pre.length hl (by simp; omega) (by rw [List.drop_left' rfl]; exact List.prefix_append _ _)
  obtain ⟨n, hn⟩ : ∃ n, (pre ++ (l ++ r)).length + 1 - l.length = n + 1 := ⟨(pre ++ (l ++ r)).length - l.length, by simp; omega⟩
  rw [hn] at hs
  obtain ⟨h1, h2, h3, h4⟩ := scan_stop (pre ++ (l ++ r)) n _ r hd
  have ht : ∀ k, ((pre ++ (l ++ r)).drop pre.length).take (pre.length + l.length + k - k - pre.length) = l := by
    intro k
    rw [List.drop_left' rfl, List.take_left' (by omega)]
  have ht0 := ht 0
  simp only [Nat.add_zero, Nat.sub_zero] at ht0
  refine ⟨?_, ?_, ?_, ?_⟩
  · intro h; simp only [readLine, hs, h1 h, ht0, Nat.add_zero]
  · intro t h; simp only [readLine, hs, h2 t h, ht0]
  · intro t h; simp only [readLine, hs, h3 t h, ht0]
  · intro t h h'; simp only [readLine, hs, h4 t h h', ht0]

theorem readAll_spec : ∀ (t : List Char) (ls : List (List Char)), Lines t ls → ∀ (pre : List Char) (n : Nat), t.length < n → readAll n ⟨pre ++ t, pre.length⟩ = ls := by
  intro t ls h
  induction h with
  | done => intro pre n hn; cases n with
    | zero => omega
    | succ n => simp [readAll, atEnd]
  | last l hne hl =>
    intro pre n hn
    obtain ⟨n, rfl⟩ : ∃ m, n = m + 1 := ⟨n - 1, by omega⟩
    have hp := List.length_pos_iff.mpr hne
    have := (readLine_spec pre l [] hl).1 rfl
    rw [List.append_nil] at this
    rw [readAll, if_neg (by simp [atEnd, hne]), this]
    cases n with
    | zero => rfl
    | succ n => simp [readAll, atEnd]
  | lf l t ls hl _ ih =>
    intro pre n hn
    obtain ⟨n, rfl⟩ : ∃ m, n = m + 1 := ⟨n - 1, by omega⟩
    rw [readAll, if_neg (by simp [atEnd]), (readLine_spec pre l _ hl).2.1 t rfl]
    congr 1
    have := ih (pre ++ (l ++ ['\n'])) n (by simp at hn; omega)
    simp only [List.append_assoc, List.cons_append, List.nil_append, List.length_append, List.length_cons, List.length_nil] at this
    rw [← this]; congr 1
  | crlf l t ls hl _ ih =>
    intro pre n hn
    obtain ⟨n, rfl⟩ : ∃ m, n = m + 1 := ⟨n - 1, by omega⟩
    rw [readAll, if_neg (by simp [atEnd]), (readLine_spec pre l _ hl).2.2.1 t rfl]
    congr 1
    have := ih (pre ++ (l ++ ['\r', '\n'])) n (by simp at hn; omega)
    simp only [List.append_assoc, List.cons_append, List.nil_append, List.length_append, List.length_cons, List.length_nil] at this
    rw [← this]; congr 1
  | cr l t ls hl ht _ ih =>
    intro pre n hn
    obtain ⟨n, rfl⟩ : ∃ m, n = m + 1 := ⟨n - 1, by omega⟩
    rw [readAll, if_neg (by simp [atEnd]), (readLine_spec pre l _ hl).2.2.2 t rfl ht]
    congr 1
    have := ih (pre ++ (l ++ ['\r'])) n (by simp at hn; omega)
    simp only [List.append_assoc, List.cons_append, List.nil_append, List.length_append, List.length_cons, List.length_nil] at this
    rw [← this]; congr 1

/-- **C137.**  Reading until the end gives the lines of the text, whatever the line ends; the number of calls is bounded by the length of the text. -/
theorem read_lines {t : List Char} {ls : List (List Char)} (h : Lines t ls) (n : Nat) (hn : t.length < n) : readAll n (open' t) = ls :=
  readAll_spec t ls h [] n hn

/-- **C137.**  Every text has lines. -/
theorem lines_exist : ∀ (n : Nat) (t : List Char), t.length ≤ n → ∃ ls, Lines t ls := by
  intro n
  induction n with
  | zero => intro t h; cases t with
    | nil => exact ⟨[], .done⟩
    | cons _ _ => simp at h
  | succ n ih =>
    intro t h
    by_cases he : t = []
    · subst he; exact ⟨[], .done⟩
    · have hsplit := List.takeWhile_append_dropWhile (p := fun c => decide (c ≠ '\n') && decide (c ≠ '\r')) (l := t)
      have hline : Line (t.takeWhile (fun c => decide (c ≠ '\n') && decide (c ≠ '\r'))) := by
        have ha := List.all_takeWhile (l := t) (p := fun c => decide (c ≠ '\n') && decide (c ≠ '\r'))
        rw [List.all_eq_true] at ha
        constructor <;> (intro hc; have := ha _ hc; simp at this)
      generalize t.takeWhile (fun c => decide (c ≠ '\n') && decide (c ≠ '\r')) = l at hsplit hline
      have hhead := List.head?_dropWhile_not (fun c => decide (c ≠ '\n') && decide (c ≠ '\r')) t
      generalize t.dropWhile (fun c => decide (c ≠ '\n') && decide (c ≠ '\r')) = r at hsplit hhead
      subst hsplit
      cases r with
      | nil => rw [List.append_nil] at he ⊢; exact ⟨[l], .last l he hline⟩
      | cons c r =>
        simp only [List.head?_cons] at hhead
        simp only [List.length_append, List.length_cons] at h
        by_cases h1 : c = '\n'
        · subst h1
          obtain ⟨ls, hls⟩ := ih r (by omega)
          exact ⟨l :: ls, .lf l r ls hline hls⟩
        · have h2 : c = '\r' := by
            by_cases h2 : c = '\r'
            · exact h2
            · simp [h1, h2] at hhead
          subst h2
          by_cases h3 : r.head? = some '\n'
          · cases r with
            | nil => cases h3
            | cons d r =>
              simp only [List.head?_cons, Option.some.injEq] at h3
              subst h3
              simp only [List.length_cons] at h
              obtain ⟨ls, hls⟩ := ih r (by omega)
              exact ⟨l :: ls, .crlf l r ls hline hls⟩
          · obtain ⟨ls, hls⟩ := ih r (by omega)
            exact ⟨l :: ls, .cr l r ls hline h3 hls⟩

/-- **C137.**  Lines written with the line end `\n`, or with `\r\n`, are read back. -/
theorem read_terminated (ls : List (List Char)) (h : ∀ l ∈ ls, Line l) (n : Nat) :
    ((terminated ['\n'] ls).length < n → readAll n (open' (terminated ['\n'] ls)) = ls) ∧
    ((terminated ['\r', '\n'] ls).length < n → readAll n (open' (terminated ['\r', '\n'] ls)) = ls) := by
  have key : Lines (terminated ['\n'] ls) ls ∧ Lines (terminated ['\r', '\n'] ls) ls := by
    induction ls with
    | nil => exact ⟨.done, .done⟩
    | cons l ls ih =>
      obtain ⟨h1, h2⟩ := ih (fun x hx => h x (by simp [hx]))
      have e : ∀ e, terminated e (l :: ls) = l ++ (e ++ terminated e ls) := by intro e; simp [terminated]
      rw [e, e]
      exact ⟨.lf l _ ls (h l (by simp)) h1, .crlf l _ ls (h l (by simp)) h2⟩
  exact ⟨read_lines key.1 n, read_lines key.2 n⟩

/-- **C137.**  The next character is seen without being read; at the end there is none. -/
theorem peek_spec (pre t : List Char) : peek ⟨pre ++ t, pre.length⟩ = t.head? := by
  cases t with
  | nil => simp [peek, atEnd]
  | cons c t => simp [peek, atEnd]

/-- At the end an empty line is read, again and again. -/
theorem read_at_end (t : List Char) : readLine ⟨t, t.length⟩ = ([], ⟨t, t.length⟩) := by
  have := (readLine_spec t [] [] ⟨by simp, by simp⟩).1 rfl
  simpa using this

/-- A line end after the last line makes no difference. -/
theorem last_line_end (l : List Char) (hl : Line l) (hne : l ≠ []) (n : Nat) (hn : l.length + 1 < n) : readAll n (open' l) = readAll n (open' (l ++ ['\n'])) := by
  rw [read_lines (.last l hne hl) n (by omega), read_lines (.lf l [] [] hl .done) n (by simp; omega)]

example : Lines "a\r\n\rb\n\nc".toList ["a".toList, [], "b".toList, [], "c".toList] := by
  refine .crlf ['a'] _ _ (by simp [Line]) (.cr [] _ _ (by simp [Line]) (by decide) (.lf ['b'] _ _ (by simp [Line]) (.lf [] _ _ (by simp [Line]) (.last ['c'] (by simp) (by simp [Line])))))

example : readAll 9 (open' "a\r\n\rb\n\nc".toList) = ["a".toList, [], "b".toList, [], "c".toList] := by decide

end Verif.Reader

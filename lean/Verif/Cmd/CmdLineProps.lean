import Verif.Cmd.CmdLine
/-
C135: the command line.
-/
namespace Verif.Cmd

namespace Spec

def Special (c : Char) : Prop := c = ' ' ∨ c = ',' ∨ c = ']' ∨ c = '\\'

instance (c : Char) : Decidable (Special c) := by unfold Special; infer_instance

/-- How a user writes a word: special characters after a backslash. -/
def escape (s : List Char) : List Char := s.flatMap (fun c => if Special c then ['\\', c] else [c])

/-- Words separated by a separator. -/
def join (sep : List Char) : List (List Char) → List Char
  | [] => []
  | [w] => w
  | w :: ws => w ++ sep ++ join sep ws

variable {N : Type}

/-- The plain text of a value that is one word. -/
def word (shw : N → List Char) : Val N → Option (List Char)
  | .str s => some s
  | .num n => some (shw n)
  | .bool true => some "on".toList
  | .bool false => some "off".toList
  | .opt none => some "none".toList
  | .opt (some _) => none
  | .vec _ => none

mutual
/-- How a user writes a value. -/
def render (shw : N → List Char) : Val N → List Char
  | .str s => escape s
  | .num n => escape (shw n)
  | .bool true => "on".toList
  | .bool false => "off".toList
  | .opt none => "none".toList
  | .opt (some v) => render shw v
  | .vec l => "[".toList ++ join ", ".toList (renderAll shw l) ++ "]".toList

def renderAll (shw : N → List Char) : List (Val N) → List (List Char)
  | [] => []
  | v :: l => render shw v :: renderAll shw l
end

/-- Values of a type that can be written: words are not empty, numbers are read as they are shown, an optional word is not "none". -/
def Good (parse : List Char → Option N) (shw : N → List Char) : Ty → Val N → Prop
  | .str, .str s => s ≠ []
  | .num, .num n => shw n ≠ [] ∧ parse (shw n) = some n
  | .bool, .bool _ => True
  | .opt _, .opt none => True
  | .opt t, .opt (some v) => Good parse shw t v ∧ ∃ w, word shw v = some w ∧ w ≠ "none".toList
  | .vec t, .vec l => ∀ v ∈ l, Good parse shw t v
  | _, _ => False

end Spec

open Spec

/-- Text at which a word ends. -/
def Stop (s : List Char) : Prop := s = [] ∨ ∃ c r, s = c :: r ∧ (c = ' ' ∨ c = ',' ∨ c = ']')

theorem readStr_stop {s : List Char} (h : Stop s) : readStr false s = ([], s) := by
  rcases h with rfl | ⟨c, r, rfl, h⟩
  · rfl
  · simp [readStr, h]

theorem readStr_escape (s rest : List Char) (h : Stop rest) : readStr false (escape s ++ rest) = (s, rest) := by
  induction s with
  | nil => exact readStr_stop h
  | cons c s ih =>
    have e : escape (c :: s) = (if Special c then ['\\', c] else [c]) ++ escape s := rfl
    rw [e, List.append_assoc]
    by_cases hc : Special c
    · rw [if_pos hc]
      simp [readStr, ih]
    · rw [if_neg hc]
      simp only [Special, not_or] at hc
      simp [readStr, ih, hc.1, hc.2.1, hc.2.2.1, hc.2.2.2]

theorem escape_plain {s : List Char} (h : ∀ c ∈ s, ¬ Special c) : escape s = s := by
  induction s with
  | nil => rfl
  | cons c s ih =>
    have e : escape (c :: s) = (if Special c then ['\\', c] else [c]) ++ escape s := rfl
    rw [e, if_neg (h c (by simp)), ih (fun d hd => h d (by simp [hd]))]; rfl

theorem escape_length (s : List Char) : s.length ≤ (escape s).length := by
  induction s with
  | nil => simp
  | cons c s ih =>
    have e : escape (c :: s) = (if Special c then ['\\', c] else [c]) ++ escape s := rfl
    rw [e, List.length_append, List.length_cons]
    split <;> simp <;> omega

theorem escape_head {s : List Char} (h : s ≠ []) : ∃ c r, escape s = c :: r ∧ c ≠ ' ' ∧ c ≠ ',' ∧ c ≠ ']' := by
  cases s with
  | nil => exact absurd rfl h
  | cons c s =>
    have e : escape (c :: s) = (if Special c then ['\\', c] else [c]) ++ escape s := rfl
    rw [e]
    by_cases hc : Special c
    · rw [if_pos hc]; exact ⟨'\\', _, rfl, by decide, by decide, by decide⟩
    · rw [if_neg hc]
      simp only [Special, not_or] at hc
      exact ⟨c, _, rfl, hc.1, hc.2.1, hc.2.2.1⟩

variable {N : Type} {parse : List Char → Option N} {shw : N → List Char}

/-- A value that is one word is rendered as that word, escaped. -/
theorem render_word {v : Val N} {w : List Char} (h : word shw v = some w) : render shw v = escape w := by
  have p : ∀ (w : List Char), (∀ c ∈ w, ¬ Special c) → w = escape w := fun w h => (escape_plain h).symm
  cases v with
  | str s => simp only [word, Option.some.injEq] at h; subst h; simp [render]
  | num n => simp only [word, Option.some.injEq] at h; subst h; simp [render]
  | bool b => cases b <;> simp only [word, Option.some.injEq] at h <;> subst h <;> simp only [render] <;> exact p _ (by decide)
  | opt o =>
    cases o with
    | none => simp only [word, Option.some.injEq] at h; subst h; simp only [render]; exact p _ (by decide)
    | some v => simp [word] at h
  | vec l => simp [word] at h

theorem good_head : ∀ {t : Ty} {v : Val N}, Good parse shw t v → ∃ c r, render shw v = c :: r ∧ c ≠ ' ' ∧ c ≠ ',' ∧ c ≠ ']' := by
  intro t
  induction t with
  | str => intro v h; cases v <;> simp only [Good] at h; simp only [render]; exact escape_head h
  | num => intro v h; cases v <;> simp only [Good] at h; simp only [render]; exact escape_head h.1
  | bool => intro v h; cases v with
    | bool b => cases b <;> exact ⟨'o', _, rfl, by decide, by decide, by decide⟩
    | _ => simp only [Good] at h
  | opt t ih => intro v h; cases v with
    | opt o => cases o with
      | none => exact ⟨'n', _, rfl, by decide, by decide, by decide⟩
      | some v => simp only [Good] at h; simp only [render]; exact ih h.1
    | _ => simp only [Good] at h
  | vec t ih => intro v h; cases v with
    | vec l => simp only [render]; exact ⟨'[', _, rfl, by decide, by decide, by decide⟩
    | _ => simp only [Good] at h

theorem skipSpaces_ne {c : Char} {r : List Char} (h : c ≠ ' ') : skipSpaces (c :: r) = c :: r := by
  unfold skipSpaces
  split
  · rename_i heq; cases heq; exact absurd rfl h
  · rfl

theorem vecLoop_last {β : Type} (rd : List Char → Option (β × List Char)) (n : Nat) (c : Char) (s r q : List Char) (v : β) (h1 : c ≠ ' ') (h2 : c ≠ ']') (h3 : rd (c :: s) = some (v, r))
    (h4 : skipSpaces r = ']' :: q) : vecLoop rd (n + 1) (c :: s) = some ([v], q) := by
  rw [vecLoop]
  · rw [skipSpaces_ne h1, h3]
    simp only [h4]
  · intro h; cases h
  · intro r' h; cases h; exact h2 rfl

theorem vecLoop_more {β : Type} (rd : List Char → Option (β × List Char)) (n : Nat) (c : Char) (s r q p : List Char) (v : β) (l : List β) (h1 : c ≠ ' ') (h2 : c ≠ ']') (h3 : rd (c :: s) = some (v, r))
    (h4 : skipSpaces r = ',' :: q) (h5 : vecLoop rd n (skipSpaces q) = some (l, p)) : vecLoop rd (n + 1) (c :: s) = some (v :: l, p) := by
  rw [vecLoop]
  · rw [skipSpaces_ne h1, h3]
    simp only [h4, h5]
  · intro h; cases h
  · intro r' h; cases h; exact h2 rfl

theorem vecLoop_spec {t : Ty} (hr : ∀ (v : Val N) rest, Good parse shw t v → Stop rest → read parse t (render shw v ++ rest) = some (v, rest)) :
    ∀ (l : List (Val N)) (rest : List Char) (n : Nat), (∀ v ∈ l, Good parse shw t v) → l.length ≤ n →
      vecLoop (read parse t) n (join ", ".toList (renderAll shw l) ++ "]".toList ++ rest) = some (l, rest) := by
  intro l
  induction l with
  | nil =>
    intro rest n _ _
    show vecLoop (read parse t) n (']' :: rest) = some ([], rest)
    cases n <;> simp [vecLoop]
  | cons v l ih =>
    intro rest n hg hn
    obtain ⟨n, rfl⟩ : ∃ m, n = m + 1 := ⟨n - 1, by simp at hn; omega⟩
    obtain ⟨c, s, hc, h1, h2, h3⟩ := good_head (hg v (by simp))
    cases l with
    | nil =>
      have e : join ", ".toList (renderAll shw [v]) ++ "]".toList ++ rest = render shw v ++ (']' :: rest) := by
        simp only [renderAll, join]; rw [List.append_assoc]; rfl
      have hread := hr v (']' :: rest) (hg v (by simp)) (Or.inr ⟨']', rest, rfl, by simp⟩)
      rw [e]
      rw [hc] at hread ⊢
      rw [List.cons_append] at hread ⊢
      exact vecLoop_last (read parse t) n c _ _ _ v h1 h3 hread (skipSpaces_ne (by decide))
    | cons v' l' =>
      have e : join ", ".toList (renderAll shw (v :: v' :: l')) ++ "]".toList ++ rest =
          render shw v ++ (',' :: ' ' :: (join ", ".toList (renderAll shw (v' :: l')) ++ "]".toList ++ rest)) := by
        simp only [renderAll, join, List.append_assoc]; rfl
      have hread := hr v (',' :: ' ' :: (join ", ".toList (renderAll shw (v' :: l')) ++ "]".toList ++ rest)) (hg v (by simp)) (Or.inr ⟨',', _, rfl, by simp⟩)
      rw [e]
      rw [hc] at hread ⊢
      rw [List.cons_append] at hread ⊢
      refine vecLoop_more (read parse t) n c _ _ _ _ v _ h1 h3 hread (skipSpaces_ne (by decide)) ?_
      obtain ⟨c', s', hc', h1', h2', h3'⟩ := good_head (hg v' (by simp))
      have hs : skipSpaces (' ' :: (join ", ".toList (renderAll shw (v' :: l')) ++ "]".toList ++ rest)) = join ", ".toList (renderAll shw (v' :: l')) ++ "]".toList ++ rest := by
        have : ∃ q, join ", ".toList (renderAll shw (v' :: l')) ++ "]".toList ++ rest = c' :: q := by
          cases l' with
          | nil => simp only [renderAll, join, hc']; exact ⟨_, rfl⟩
          | cons _ _ => simp only [renderAll, join, hc']; exact ⟨_, rfl⟩
        obtain ⟨q, hq⟩ := this
        rw [hq]
        show skipSpaces (c' :: q) = _
        exact skipSpaces_ne h1'
      rw [hs, ih rest n (fun x hx => hg x (by simp [List.mem_cons.mp hx])) (by simp at hn ⊢; omega)]

theorem join_length (ws : List (List Char)) (h : ∀ w ∈ ws, w ≠ []) : ws.length ≤ (join ", ".toList ws).length := by
  induction ws with
  | nil => simp
  | cons w ws ih =>
    have hw : 0 < w.length := List.length_pos_iff.mpr (h w (by simp))
    cases ws with
    | nil => simp only [join, List.length_cons, List.length_nil]; omega
    | cons w' ws' =>
      have := ih (fun x hx => h x (by simp [List.mem_cons.mp hx]))
      simp only [join, List.length_append, List.length_cons] at this ⊢
      omega

theorem renderAll_length (l : List (Val N)) : (renderAll shw l).length = l.length := by
  induction l with
  | nil => rfl
  | cons v l ih => simp [renderAll, ih]

theorem renderAll_mem (l : List (Val N)) {w : List Char} (h : w ∈ renderAll shw l) : ∃ v ∈ l, w = render shw v := by
  induction l with
  | nil => simp [renderAll] at h
  | cons v l ih =>
    simp only [renderAll, List.mem_cons] at h
    rcases h with rfl | h
    · exact ⟨v, by simp, rfl⟩
    · obtain ⟨v', h1, h2⟩ := ih h
      exact ⟨v', by simp [h1], h2⟩

theorem escape_pos {w : List Char} (h : w ≠ []) : 0 < (escape w).length :=
  Nat.lt_of_lt_of_le (List.length_pos_iff.mpr h) (escape_length w)

/-- **C135.**  Reading what the user writes for a value gives this value, for every type, nested to any depth. -/
theorem read_render_partial : ∀ (t : Ty) (v : Val N) (rest : List Char), Good parse shw t v → Stop rest → read parse t (render shw v ++ rest) = some (v, rest) := by
  intro t
  induction t with
  | str =>
    intro v rest h hs
    cases v <;> simp only [Good] at h
    rename_i s
    have := escape_pos h
    simp only [read, render, readStr_escape s rest hs]
    rw [if_neg (by rw [List.length_append]; omega)]
  | num =>
    intro v rest h hs
    cases v <;> simp only [Good] at h
    rename_i n
    have := escape_pos h.1
    simp only [read, render, readStr_escape (shw n) rest hs, h.2]
    rw [if_neg (by rw [List.length_append]; omega)]
  | bool =>
    intro v rest h hs
    cases v with
    | bool b =>
      cases b
      · have e : render shw (Val.bool (N := N) false) = escape "off".toList := render_word rfl
        simp only [read, e, readStr_escape _ rest hs]
        simp
      · have e : render shw (Val.bool (N := N) true) = escape "on".toList := render_word rfl
        simp only [read, e, readStr_escape _ rest hs]
        simp
    | _ => simp only [Good] at h
  | opt t ih =>
    intro v rest h hs
    cases v with
    | opt o =>
      cases o with
      | none =>
        have e : render shw (Val.opt (N := N) none) = escape "none".toList := render_word rfl
        simp only [read, e, readStr_escape _ rest hs]
        simp
      | some v =>
        simp only [Good] at h
        obtain ⟨h1, w, h2, h3⟩ := h
        have e : render shw (.opt (some v)) = escape w := by simp only [render]; exact render_word h2
        have hi := ih v [] h1 (Or.inl rfl)
        rw [List.append_nil, render_word h2] at hi
        simp only [read, e, readStr_escape _ rest hs]
        rw [if_neg h3]
        have ht : (escape w ++ rest).take ((escape w ++ rest).length - rest.length) = escape w := by
          rw [List.length_append, Nat.add_sub_cancel, List.take_left']; rfl
        rw [ht, hi]
    | _ => simp only [Good] at h
  | vec t ih =>
    intro v rest h hs
    cases v with
    | vec l =>
      simp only [Good] at h
      have e : render shw (.vec l) ++ rest = '[' :: (join ", ".toList (renderAll shw l) ++ "]".toList ++ rest) := by
        simp only [render, List.append_assoc]; rfl
      rw [e]
      simp only [read, ne_eq, not_true_eq_false, if_false]
      have hl : l.length ≤ (join ", ".toList (renderAll shw l) ++ "]".toList ++ rest).length := by
        have h1 := join_length (renderAll shw l) (by
          intro w hw
          obtain ⟨v, hv, rfl⟩ := renderAll_mem l hw
          obtain ⟨c, r, hc, _⟩ := good_head (h v hv)
          rw [hc]; simp)
        rw [renderAll_length] at h1
        simp only [List.length_append]; omega
      rw [vecLoop_spec ih l rest _ h hl]
    | _ => simp only [Good] at h

theorem parseStrings_spec : ∀ (ss ws : List (List Char)), parseStrings ss (join " ".toList (ss ++ ws)) = some (join " ".toList ws) := by
  intro ss
  induction ss with
  | nil => intro ws; rfl
  | cons s ss ih =>
    intro ws
    have hj : join " ".toList (s :: (ss ++ ws)) = s ++ (if ss ++ ws = [] then [] else ' ' :: join " ".toList (ss ++ ws)) := by
      cases h : ss ++ ws with
      | nil => simp [join]
      | cons a b => simp [join]
    rw [List.cons_append, hj]
    simp only [parseStrings, List.take_left', List.drop_left', List.length_append]
    rw [if_neg (by omega), if_neg (by simp)]
    by_cases he : ss ++ ws = []
    · rw [if_pos he]
      have := ih ws
      rw [he] at this
      simpa [afterWord, join] using this
    · rw [if_neg he]
      simpa [afterWord] using ih ws

theorem parseArgs_spec : ∀ (ts : List Ty) (vs : List (Val N)), ts.length = vs.length → (∀ p ∈ ts.zip vs, Good parse shw p.1 p.2) →
    parseArgs parse ts (join " ".toList (renderAll shw vs)) = some (vs, []) := by
  intro ts
  induction ts with
  | nil => intro vs h _; cases vs with
    | nil => rfl
    | cons _ _ => simp at h
  | cons t ts ih =>
    intro vs h hg
    cases vs with
    | nil => simp at h
    | cons v vs =>
      have hv : Good parse shw t v := hg (t, v) (by simp)
      have hi := ih vs (by simpa using h) (fun p hp => hg p (by simp [hp]))
      cases vs with
      | nil =>
        have hr := read_render_partial t v [] hv (Or.inl rfl)
        rw [List.append_nil] at hr
        simp only [renderAll, join] at hi ⊢
        simp only [parseArgs, hr, afterWord, hi]
      | cons v' vs' =>
        have hr := read_render_partial t v (' ' :: join " ".toList (renderAll shw (v' :: vs'))) hv (Or.inr ⟨' ', _, rfl, Or.inl rfl⟩)
        have e : join " ".toList (renderAll shw (v :: v' :: vs')) = render shw v ++ ' ' :: join " ".toList (renderAll shw (v' :: vs')) := by
          simp only [renderAll, join, List.append_assoc]; rfl
        rw [e]
        simp only [parseArgs, hr, afterWord, ne_eq, not_true_eq_false, if_false, hi]

/-- **C135.**  A command written as the words of a handler and its arguments, separated by spaces, calls the handler with exactly these arguments. -/
theorem handle_render_partial (strings : List (List Char)) (ts : List Ty) (vs : List (Val N)) (h : ts.length = vs.length) (hg : ∀ p ∈ ts.zip vs, Good parse shw p.1 p.2) :
    handle parse strings ts (join " ".toList (strings ++ renderAll shw vs)) = some vs := by
  rw [handle, parseStrings_spec]
  simp only [parseArgs_spec ts vs h hg]

theorem parseArgs_more : ∀ (ts : List Ty) (vs : List (Val N)) (x : List Char), ts.length = vs.length → (∀ p ∈ ts.zip vs, Good parse shw p.1 p.2) →
    parseArgs parse ts (join " ".toList (renderAll shw vs ++ [x])) = some (vs, x) := by
  intro ts
  induction ts with
  | nil => intro vs x h _; cases vs with
    | nil => rfl
    | cons _ _ => simp at h
  | cons t ts ih =>
    intro vs x h hg
    cases vs with
    | nil => simp at h
    | cons v vs =>
      have hv : Good parse shw t v := hg (t, v) (by simp)
      have hi := ih vs x (by simpa using h) (fun p hp => hg p (by simp [hp]))
      have hr := read_render_partial t v (' ' :: join " ".toList (renderAll shw vs ++ [x])) hv (Or.inr ⟨' ', _, rfl, Or.inl rfl⟩)
      have e : join " ".toList (renderAll shw (v :: vs) ++ [x]) = render shw v ++ ' ' :: join " ".toList (renderAll shw vs ++ [x]) := by
        cases vs <;> simp [renderAll, join]
      rw [e]
      simp only [parseArgs, hr, afterWord, ne_eq, not_true_eq_false, if_false, hi]

/-- **C135.**  A command with more text after all arguments of a handler is not accepted by it. -/
theorem handle_more (strings : List (List Char)) (ts : List Ty) (vs : List (Val N)) (x : List Char) (hx : x ≠ []) (h : ts.length = vs.length)
    (hg : ∀ p ∈ ts.zip vs, Good parse shw p.1 p.2) :
    handle parse strings ts (join " ".toList (strings ++ (renderAll shw vs ++ [x]))) = none := by
  rw [handle, parseStrings_spec]
  simp only [parseArgs_more ts vs x h hg]
  cases x with
  | nil => exact absurd rfl hx
  | cons _ _ => rfl

theorem parseStrings_sound : ∀ (ss : List (List Char)) (cmd r : List Char), ss ≠ [] → (∀ w ∈ ss, w ≠ []) → parseStrings ss cmd = some r →
    cmd = join " ".toList ss ∧ r = [] ∨ cmd = join " ".toList ss ++ ' ' :: r := by
  intro ss
  induction ss with
  | nil => intro cmd r h; exact absurd rfl h
  | cons s ss ih =>
    intro cmd r _ hw h
    simp only [parseStrings] at h
    split at h
    · cases h
    · split at h
      · cases h
      · rename_i h1 h2
        have h2 := Classical.not_not.mp h2
        have hc : cmd = s ++ cmd.drop s.length := by
          have := List.take_append_drop s.length cmd
          rw [← h2] at this; exact this.symm
        generalize cmd.drop s.length = q at h hc
        subst hc
        have hne : ∀ a b, ss = a :: b → parseStrings ss [] = some r → False := by
          intro a b hab hp
          subst hab
          have ha : 0 < a.length := List.length_pos_iff.mpr (hw a (by simp))
          simp only [parseStrings, List.length_nil] at hp
          rw [if_pos (by omega)] at hp; cases hp
        cases q with
        | nil =>
          simp only [afterWord] at h
          cases hs : ss with
          | nil => subst hs; simp only [parseStrings, Option.some.injEq] at h; left; simp [join, ← h]
          | cons a b => exact (hne a b hs h).elim
        | cons c q =>
          simp only [afterWord] at h
          by_cases hc : c = ' '
          · subst hc
            simp only [ne_eq, not_true_eq_false, if_false] at h
            cases hs : ss with
            | nil => subst hs; simp only [parseStrings, Option.some.injEq] at h; right; simp [join, ← h]
            | cons a b =>
              rcases ih q r (by rw [hs]; simp) (fun w hw' => hw w (by simp [hw'])) h with ⟨h3, h4⟩ | h3
              · left; rw [hs] at h3; subst h3; exact ⟨by simp [join], h4⟩
              · right; rw [hs] at h3; subst h3; simp [join]
          · simp only [ne_eq, hc, not_false_eq_true, if_true] at h; cases h

/-- **C135.**  A handler is called only for commands that begin with its words, followed by a space or nothing, and with as many arguments as it has parameters. -/
theorem handle_sound {strings : List (List Char)} {ts : List Ty} {cmd : List Char} {vs : List (Val N)} (hs : strings ≠ []) (hw : ∀ w ∈ strings, w ≠ [])
    (h : handle parse strings ts cmd = some vs) :
    (cmd = join " ".toList strings ∨ ∃ r, cmd = join " ".toList strings ++ ' ' :: r) ∧ vs.length = ts.length := by
  rw [handle] at h
  cases hp : parseStrings strings cmd with
  | none => rw [hp] at h; cases h
  | some r =>
    rw [hp] at h
    simp only [] at h
    refine ⟨?_, ?_⟩
    · rcases parseStrings_sound strings cmd r hs hw hp with ⟨h1, _⟩ | h1
      · exact Or.inl h1
      · exact Or.inr ⟨r, h1⟩
    · have hl : ∀ (ts : List Ty) (c : List Char) (vs : List (Val N)) (q : List Char), parseArgs parse ts c = some (vs, q) → vs.length = ts.length := by
        intro ts
        induction ts with
        | nil => intro c vs q h; simp only [parseArgs, Option.some.injEq, Prod.mk.injEq] at h; simp [← h.1]
        | cons t ts ih =>
          intro c vs q h
          simp only [parseArgs] at h
          split at h
          · cases h
          · split at h
            · cases h
            · split at h
              · cases h
              · rename_i h1
                simp only [Option.some.injEq, Prod.mk.injEq] at h
                rw [← h.1, List.length_cons, List.length_cons, ih _ _ _ h1]
      cases hq : parseArgs parse ts r with
      | none => rw [hq] at h; cases h
      | some x =>
        obtain ⟨ws, q⟩ := x
        rw [hq] at h
        cases q with
        | nil => simp only [Option.some.injEq] at h; rw [← h]; exact hl _ _ _ _ hq
        | cons _ _ => cases h

/-- A text without a place where a word ends. -/
theorem readStr_all : ∀ (s : List Char) (e : Bool), (readStr e s).2 ≠ [] → ∃ p, s = p ++ (readStr e s).2 ∧ (readStr e p).2 = [] := by
  intro s
  induction s with
  | nil => intro e h; simp [readStr] at h
  | cons c s ih =>
    intro e h
    simp only [readStr] at h ⊢
    by_cases h1 : (c = ' ' ∨ c = ',' ∨ c = ']') ∧ ¬ e
    · rw [if_pos h1] at h ⊢; exact ⟨[], by simp, by simp [readStr]⟩
    · rw [if_neg h1] at h ⊢
      by_cases h2 : c = '\\' ∧ ¬ e
      · rw [if_pos h2] at h ⊢
        obtain ⟨p, h3, h4⟩ := ih true h
        exact ⟨c :: p, by rw [List.cons_append, ← h3], by simp only [readStr]; rw [if_neg h1, if_pos h2]; exact h4⟩
      · rw [if_neg h2] at h ⊢
        obtain ⟨p, h3, h4⟩ := ih false h
        exact ⟨c :: p, by simp only [List.cons_append]; rw [← h3], by simp only [readStr]; rw [if_neg h1, if_neg h2]; exact h4⟩

theorem readStr_prefix (s : List Char) : (readStr false (s.take (s.length - (readStr false s).2.length))).2 = [] := by
  by_cases h : (readStr false s).2 = []
  · rw [h, List.length_nil, Nat.sub_zero, List.take_length]; exact h
  · obtain ⟨p, h1, h2⟩ := readStr_all s false h
    have : s.length = p.length + (readStr false s).2.length := by
      conv => lhs; rw [h1]
      rw [List.length_append]
    have ht : s.take (s.length - (readStr false s).2.length) = p := by
      rw [this, Nat.add_sub_cancel]
      conv => lhs; rw [h1]
      rw [List.take_left']; rfl
    rw [ht]; exact h2

/-- In a text without end of a word, nothing is left after reading, and no list can be read. -/
theorem read_all (parse : List Char → Option N) : ∀ (t : Ty) (s : List Char), (readStr false s).2 = [] →
    (∀ v r, read parse t s = some (v, r) → r = []) ∧ (∀ u, t = .vec u → read parse t s = none) := by
  intro t
  induction t with
  | str =>
    intro s h
    refine ⟨?_, by intro u hu; cases hu⟩
    intro v r hr
    simp only [read] at hr
    split at hr
    · cases hr
    · simp only [Option.some.injEq, Prod.mk.injEq] at hr; rw [← hr.2]; exact h
  | num =>
    intro s h
    refine ⟨?_, by intro u hu; cases hu⟩
    intro v r hr
    simp only [read] at hr
    split at hr
    · cases hr
    · split at hr
      · cases hr
      · simp only [Option.some.injEq, Prod.mk.injEq] at hr; rw [← hr.2]; exact h
  | bool =>
    intro s h
    refine ⟨?_, by intro u hu; cases hu⟩
    intro v r hr
    simp only [read] at hr
    split at hr
    · simp only [Option.some.injEq, Prod.mk.injEq] at hr; rw [← hr.2]; exact h
    · split at hr
      · simp only [Option.some.injEq, Prod.mk.injEq] at hr; rw [← hr.2]; exact h
      · cases hr
  | opt t ih =>
    intro s h
    refine ⟨?_, by intro u hu; cases hu⟩
    intro v r hr
    simp only [read] at hr
    split at hr
    · simp only [Option.some.injEq, Prod.mk.injEq] at hr; rw [← hr.2]; exact h
    · split at hr
      · simp only [Option.some.injEq, Prod.mk.injEq] at hr; rw [← hr.2]; exact h
      · cases hr
  | vec t ih =>
    intro s h
    have key : read parse (.vec t) s = none := by
      cases s with
      | nil => rfl
      | cons c s =>
        simp only [read]
        by_cases hc : c = '['
        · subst hc
          simp only [ne_eq, not_true_eq_false, if_false]
          have h' : (readStr false s).2 = [] := by
            simp only [readStr] at h
            simpa using h
          have hv : vecLoop (read parse t) s.length s = none := by
            cases s with
            | nil => rfl
            | cons d s =>
              have hd : d ≠ ' ' ∧ d ≠ ']' := by
                constructor <;> rintro rfl <;> simp [readStr] at h'
              rw [List.length_cons, vecLoop]
              · rw [skipSpaces_ne hd.1]
                cases hr : read parse t (d :: s) with
                | none => rfl
                | some x =>
                  obtain ⟨v, r⟩ := x
                  have := (ih (d :: s) h').1 v r hr
                  subst this
                  rfl
              · intro hh; cases hh
              · intro r' hh; cases hh; exact hd.2 rfl
          rw [hv]
        · rw [if_pos hc]
    exact ⟨fun v r hr => absurd (key.symm.trans hr) (by simp), fun _ _ => key⟩

/-- An optional list can never be given: the only value of such an argument is "none". -/
theorem optional_list_violated (parse : List Char → Option N) (t : Ty) (s r : List Char) (o : Option (Val N)) (h : read parse (.opt (.vec t)) s = some (.opt o, r)) : o = none := by
  simp only [read] at h
  split at h
  · simp only [Option.some.injEq, Prod.mk.injEq, Val.opt.injEq] at h; exact h.1.symm
  · have := (read_all parse (.vec t) _ (readStr_prefix s)).2 t rfl
    rw [this] at h
    cases h

/-- An optional word "none" is not read as this word. -/
theorem optional_none_violated (parse : List Char → Option N) : read parse (.opt .str) (render (fun _ => []) (.opt (some (.str "none".toList)) : Val N)) = some (.opt none, []) := by
  simp [read, render, readStr, escape, Special]

/-! ### Registry -/

/-- What happens to the registry: a handler is registered, or the token of the handler number i is destroyed. -/
inductive Op (H : Type) where
  | register (h : H)
  | unregister (i : Nat)

/-- Registry, and keys of the handlers registered so far (those kept by their tokens). -/
def runOps {H : Type} : List (Op H) → Commands H × List Nat → Commands H × List Nat
  | [], s => s
  | .register h :: ops, s => runOps ops ((register s.1 h).2, s.2 ++ [(register s.1 h).1])
  | .unregister i :: ops, s => runOps ops (match s.2[i]? with
    | some k => (unregister s.1 k, s.2)
    | none => s)

/-- The handlers that are registered, in the order of registration, with their numbers. -/
def Spec.alive {H : Type} : List (Op H) → Nat → List (Nat × H) → List (Nat × H)
  | [], _, l => l
  | .register h :: ops, n, l => Spec.alive ops (n + 1) (l ++ [(n, h)])
  | .unregister i :: ops, n, l => Spec.alive ops n (l.filter (fun e => decide (e.1 ≠ i)))

/-- Every token is destroyed once. -/
def Spec.Once {H : Type} : List (Op H) → Nat → List Nat → Prop
  | [], _, _ => True
  | .register _ :: ops, n, dead => Spec.Once ops (n + 1) dead
  | .unregister i :: ops, n, dead => i < n ∧ i ∉ dead ∧ Spec.Once ops n (i :: dead)

structure RInv {H : Type} (c : Commands H) (keys : List Nat) (l : List (Nat × H)) (dead : List Nat) : Prop where
  same : c = l.map (fun e => ((keys[e.1]?).getD 0, e.2))
  known : ∀ e ∈ l, e.1 < keys.length
  deadKnown : ∀ i ∈ dead, i < keys.length
  all : ∀ i, i < keys.length → i ∉ dead → ∃ e ∈ l, e.1 = i
  order : l.Pairwise (fun x y => (keys[x.1]?).getD 0 < (keys[y.1]?).getD 0)

theorem tryHandlers_map {H A : Type} (accepts : H → List Char → Option A) (cmd : List Char) (c : Commands H) :
    tryHandlers accepts cmd c = (c.map (fun e => e.2)).findSome? (fun h => (accepts h cmd).map (fun a => (h, a))) := by
  induction c with
  | nil => rfl
  | cons e c ih =>
    obtain ⟨k, h⟩ := e
    simp only [tryHandlers, List.map_cons, List.findSome?_cons]
    cases accepts h cmd with
    | none => simpa using ih
    | some a => rfl

theorem runOps_inv {H : Type} : ∀ (ops : List (Op H)) (c : Commands H) (keys : List Nat) (l : List (Nat × H)) (dead : List Nat), Spec.Once ops keys.length dead →
    RInv c keys l dead → (runOps ops (c, keys)).1.map (fun e => e.2) = (Spec.alive ops keys.length l).map (fun e => e.2) := by
  intro ops
  induction ops with
  | nil =>
    intro c keys l dead _ hi
    simp only [runOps, Spec.alive]
    rw [hi.same, List.map_map]; rfl
  | cons op ops ih =>
    intro c keys l dead ho hi
    cases op with
    | register h =>
      simp only [runOps, Spec.alive, Spec.Once] at ho ⊢
      have hbig : ∀ e ∈ l, (keys[e.1]?).getD 0 < (register c h).1 := by
        intro e he
        have hl : l ≠ [] := List.ne_nil_of_mem he
        obtain ⟨l', x, hx⟩ : ∃ l' x, l = l' ++ [x] := by
          rcases List.eq_nil_or_concat l with h | ⟨l', x, h⟩
          · exact absurd h hl
          · exact ⟨l', x, by rw [h, List.concat_eq_append]⟩
        have hlast : c.getLast? = some ((keys[x.1]?).getD 0, x.2) := by rw [hi.same, hx]; simp
        simp only [register, hlast]
        have hord := hi.order
        rw [hx, List.pairwise_append] at hord
        rw [hx, List.mem_append, List.mem_singleton] at he
        rcases he with he | rfl
        · have := hord.2.2 e he x (by simp); omega
        · omega
      have hc : (register c h).2 = c ++ [((register c h).1, h)] := by
        unfold register
        cases hg : c.getLast? with
        | none => have := List.getLast?_eq_none_iff.mp hg; subst this; rfl
        | some x => rfl
      generalize (register c h).1 = k at hbig hc ⊢
      rw [hc]
      have hget : ∀ e ∈ l, ((keys ++ [k])[e.1]?).getD 0 = (keys[e.1]?).getD 0 := by
        intro e he; rw [List.getElem?_append_left (hi.known e he)]
      have hnew : ((keys ++ [k])[keys.length]?).getD 0 = k := by simp
      have key := ih (c ++ [(k, h)]) (keys ++ [k]) (l ++ [(keys.length, h)]) dead (by simpa using ho) ⟨?_, ?_, ?_, ?_, ?_⟩
      · simpa using key
      · rw [List.map_append, List.map_cons, List.map_nil, hnew, hi.same]
        simp only [List.append_cancel_right_eq]
        apply List.map_congr_left
        intro e he
        rw [hget e he]
      · intro e he
        rw [List.mem_append, List.mem_singleton] at he
        rcases he with he | rfl
        · have := hi.known e he; simp; omega
        · simp
      · intro i hd; have := hi.deadKnown i hd; simp; omega
      · intro i h1 h2
        rw [List.length_append, List.length_singleton] at h1
        by_cases h3 : i < keys.length
        · obtain ⟨e, h4, h5⟩ := hi.all i h3 h2
          exact ⟨e, by simp [h4], h5⟩
        · exact ⟨(keys.length, h), by simp, by simp only []; omega⟩
      · rw [List.pairwise_append]
        refine ⟨?_, by simp, ?_⟩
        · exact hi.order.imp_of_mem (fun hx hy hh => by rw [hget _ hx, hget _ hy]; exact hh)
        · intro x hx y hy
          rw [List.mem_singleton] at hy; subst hy
          rw [hget x hx, hnew]; exact hbig x hx
    | unregister i =>
      simp only [runOps, Spec.alive, Spec.Once] at ho ⊢
      obtain ⟨h1, h2, h3⟩ := ho
      have hkey : keys[i]? = some keys[i] := List.getElem?_eq_getElem h1
      rw [hkey]
      simp only []
      obtain ⟨x, hx1, hx2⟩ := hi.all i h1 h2
      have hinj : ∀ e ∈ l, ((keys[e.1]?).getD 0 = keys[i]) ↔ e.1 = i := by
        intro e he
        constructor
        · intro hh
          obtain ⟨a, b, hab⟩ := List.append_of_mem hx1
          have hord := hi.order
          rw [hab, List.pairwise_append, List.pairwise_cons] at hord
          rw [hab, List.mem_append, List.mem_cons] at he
          have hxk : (keys[x.1]?).getD 0 = keys[i] := by rw [hx2, hkey]; rfl
          rcases he with he | rfl | he
          · have := hord.2.2 e he x (by simp); omega
          · exact hx2
          · have := hord.2.1.1 e he; omega
        · intro hh; rw [hh, hkey]; rfl
      have hsame : unregister c keys[i] = (l.filter (fun e => decide (e.1 ≠ i))).map (fun e => ((keys[e.1]?).getD 0, e.2)) := by
        rw [unregister, hi.same, List.filter_map]
        congr 1
        apply List.filter_congr
        intro e he
        simp only [Function.comp_apply]
        rw [decide_eq_decide]
        exact not_congr (hinj e he)
      refine ih _ keys _ (i :: dead) h3 ⟨hsame, ?_, ?_, ?_, ?_⟩
      · intro e he; exact hi.known e (List.mem_filter.mp he).1
      · intro j hj
        rcases List.mem_cons.mp hj with rfl | hj
        · exact h1
        · exact hi.deadKnown j hj
      · intro j hj hn
        rw [List.mem_cons, not_or] at hn
        obtain ⟨e, h4, h5⟩ := hi.all j hj hn.2
        exact ⟨e, List.mem_filter.mpr ⟨h4, by rw [h5]; simpa using hn.1⟩, h5⟩
      · exact hi.order.sublist List.filter_sublist

/-- **C135.**  After any history of registrations and destroyed tokens: a command calls at most one handler, the first one registered that accepts it and whose token is alive;
the result tells whether one was called; comments are accepted and call none. -/
theorem execute_first {H A : Type} (accepts : H → List Char → Option A) (ops : List (Op H)) (ho : Spec.Once ops 0 []) (cmd : List Char) :
    (cmd.head? = some '#' → execute accepts (runOps ops ([], [])).1 cmd = (true, none)) ∧
    (cmd.head? ≠ some '#' → ∀ r, execute accepts (runOps ops ([], [])).1 cmd = (r.isSome, r) ↔
      ((Spec.alive ops 0 []).map (fun e => e.2)).findSome? (fun h => (accepts h cmd).map (fun a => (h, a))) = r) := by
  constructor
  · intro h; simp [execute, h]
  · intro h r
    have := runOps_inv ops [] [] [] [] ho ⟨rfl, by simp, by simp, by simp, by simp⟩
    rw [execute, if_neg h, tryHandlers_map, this]
    simp only [List.length_nil]
    generalize ((Spec.alive ops 0 []).map (fun e => e.2)).findSome? (fun h => (accepts h cmd).map (fun a => (h, a))) = q
    cases q <;> cases r <;> simp

/-! ### Completion -/

theorem mem_insert {l : List (List Char)} {a r : List Char} : r ∈ insert l a ↔ r ∈ l ∨ r = a := by
  unfold insert
  split
  · rename_i h
    constructor
    · exact Or.inl
    · rintro (h1 | rfl)
      · exact h1
      · simpa using h
  · simp

/-- **C135.**  The completions offered for the words of a handler: exactly those that, appended to the input, give the words up to one that has been begun, followed by a space. -/
theorem complete_words : ∀ (ss : List (List Char)) (input : List Char) (results : List (List Char)) (r : List Char),
    r ∈ (completeStrings ss input results).1 ↔ r ∈ results ∨
      ∃ k p q, ss[k]? = some (p ++ q) ∧ input = (ss.take k).flatMap (fun w => w ++ [' ']) ++ p ∧ r = q ++ [' '] := by
  intro ss
  induction ss with
  | nil => intro input results r; simp [completeStrings]
  | cons str ss ih =>
    intro input results r
    simp only [completeStrings]
    by_cases h1 : str.take (min str.length input.length) = input.take (min str.length input.length)
    · rw [if_neg (by simpa using h1)]
      by_cases h2 : str.length ≥ input.length
      · rw [if_pos h2, mem_insert]
        rw [Nat.min_eq_right h2] at h1 ⊢
        rw [List.take_length] at h1
        constructor
        · rintro (h | rfl)
          · exact Or.inl h
          · exact Or.inr ⟨0, input, str.drop input.length, by simp only [List.getElem?_cons_zero, Option.some.injEq]; conv => rhs; lhs; rw [← h1]
                                                              exact (List.take_append_drop _ _).symm, by simp, rfl⟩
        · rintro (h | ⟨k, p, q, h3, h4, h5⟩)
          · exact Or.inl h
          · right
            cases k with
            | zero =>
              simp only [List.getElem?_cons_zero, Option.some.injEq, List.take_zero, List.flatMap_nil, List.nil_append] at h3 h4
              subst h4; subst h5; rw [h3, List.drop_left']; rfl
            | succ k =>
              simp only [List.take_succ_cons, List.flatMap_cons] at h4
              have := congrArg List.length h4
              simp at this; omega
      · rw [if_neg h2]
        rw [Nat.min_eq_left (by omega), List.take_length] at h1
        have hi : input = str ++ input.drop str.length := by
          have := List.take_append_drop str.length input
          rw [← h1] at this; exact this.symm
        cases hd : input.drop str.length with
        | nil => rw [hd] at hi; have := congrArg List.length hi; simp at this; omega
        | cons c rest =>
          rw [hd] at hi
          have hc : input[str.length]? = some c := by rw [hi]; simp
          rw [hc]
          by_cases h3 : c = ' '
          · subst h3
            rw [if_neg (by simp)]
            have hr : input.drop (str.length + 1) = rest := by rw [hi]; simp
            rw [hr, ih rest results r]
            constructor
            · rintro (h | ⟨k, p, q, h4, h5, h6⟩)
              · exact Or.inl h
              · exact Or.inr ⟨k + 1, p, q, by simpa using h4, by rw [hi, h5]; simp, h6⟩
            · rintro (h | ⟨k, p, q, h4, h5, h6⟩)
              · exact Or.inl h
              · cases k with
                | zero =>
                  simp only [List.getElem?_cons_zero, Option.some.injEq, List.take_zero, List.flatMap_nil, List.nil_append] at h4 h5
                  have := congrArg List.length h4
                  rw [List.length_append, ← h5] at this; omega
                | succ k =>
                  refine Or.inr ⟨k, p, q, by simpa using h4, ?_, h6⟩
                  simp only [List.take_succ_cons, List.flatMap_cons] at h5
                  rw [hi] at h5
                  simpa using h5
          · rw [if_pos (by simpa using h3)]
            constructor
            · exact Or.inl
            · rintro (h | ⟨k, p, q, h4, h5, h6⟩)
              · exact h
              · cases k with
                | zero =>
                  simp only [List.getElem?_cons_zero, Option.some.injEq, List.take_zero, List.flatMap_nil, List.nil_append] at h4 h5
                  have := congrArg List.length h4
                  rw [List.length_append, ← h5] at this; omega
                | succ k =>
                  simp only [List.take_succ_cons, List.flatMap_cons] at h5
                  rw [hi] at h5
                  simp only [List.append_assoc, List.append_cancel_left_eq, List.cons_append, List.cons.injEq] at h5
                  exact absurd h5.1 h3
    · rw [if_pos (by simpa using h1)]
      constructor
      · exact Or.inl
      · rintro (h | ⟨k, p, q, h4, h5, h6⟩)
        · exact h
        · exfalso; apply h1
          cases k with
          | zero =>
            simp only [List.getElem?_cons_zero, Option.some.injEq, List.take_zero, List.flatMap_nil, List.nil_append] at h4 h5
            subst h5; rw [h4, List.length_append, Nat.min_eq_right (by omega), List.take_left', List.take_length]; rfl
          | succ k =>
            simp only [List.take_succ_cons, List.flatMap_cons] at h5
            rw [h5]
            simp only [List.append_assoc]
            rw [List.length_append, Nat.min_eq_left (by omega), List.take_length, List.take_left']; rfl

theorem readStr_append (w x : List Char) : readStr false (escape w ++ x) = (w ++ (readStr false x).1, (readStr false x).2) := by
  induction w with
  | nil => rfl
  | cons c w ih =>
    have e : escape (c :: w) = (if Special c then ['\\', c] else [c]) ++ escape w := rfl
    rw [e, List.append_assoc]
    by_cases hc : Special c
    · rw [if_pos hc]
      simp [readStr, ih]
    · rw [if_neg hc]
      simp only [Special, not_or] at hc
      simp [readStr, ih, hc.1, hc.2.1, hc.2.2.1, hc.2.2.2]

theorem offer_eq {s : List Char} (h : '\\' ∉ s) : escapeChar ',' (escapeChar ']' (escapeChar ' ' s)) = escape s := by
  induction s with
  | nil => rfl
  | cons c s ih =>
    rw [List.mem_cons, not_or] at h
    have ihs := ih h.2
    simp only [escapeChar, escape] at ihs ⊢
    simp only [List.flatMap_cons, List.flatMap_append, ihs]
    congr 1
    by_cases h1 : c = ' '
    · subst h1; decide
    · by_cases h2 : c = ','
      · subst h2; decide
      · by_cases h3 : c = ']'
        · subst h3; decide
        · have hs : ¬ Special c := by
            unfold Special; rintro (h' | h' | h' | h')
            · exact h1 h'
            · exact h2 h'
            · exact h3 h'
            · exact h.1 h'.symm
          simp [h1, h2, h3, hs]

theorem mem_offers (value : List Char) : ∀ (cs : List (List Char)) (results : List (List Char)) (r : List Char),
    r ∈ offers value cs results ↔ r ∈ results ∨ ∃ c ∈ cs, value <+: c ∧ r = offer value c := by
  intro cs
  induction cs with
  | nil => intro results r; simp [offers]
  | cons c cs ih =>
    intro results r
    simp only [offers, ih]
    by_cases h : value.isPrefixOf c
    · rw [if_pos h, mem_insert]
      have hp := List.isPrefixOf_iff_prefix.mp h
      constructor
      · rintro ((h1 | rfl) | ⟨d, h1, h2, h3⟩)
        · exact Or.inl h1
        · exact Or.inr ⟨c, by simp, hp, rfl⟩
        · exact Or.inr ⟨d, by simp [h1], h2, h3⟩
      · rintro (h1 | ⟨d, h1, h2, h3⟩)
        · exact Or.inl (Or.inl h1)
        · rcases List.mem_cons.mp h1 with rfl | h1
          · exact Or.inl (Or.inr h3)
          · exact Or.inr ⟨d, h1, h2, h3⟩
    · rw [if_neg h]
      constructor
      · rintro (h1 | ⟨d, h1, h2, h3⟩)
        · exact Or.inl h1
        · exact Or.inr ⟨d, by simp [h1], h2, h3⟩
      · rintro (h1 | ⟨d, h1, h2, h3⟩)
        · exact Or.inl h1
        · rcases List.mem_cons.mp h1 with rfl | h1
          · exact absurd (List.isPrefixOf_iff_prefix.mpr h2) h
          · exact Or.inr ⟨d, h1, h2, h3⟩

/-- **C135.**  At the end of an argument that has been begun, one handler asked: if the candidates have no backslash, the completions are exactly those that make the argument read as a candidate
beginning with the text, followed by a space; nothing is offered if the text is the only candidate that begins with it. -/
theorem complete_argument_partial (candidates : List (List Char)) (w r : List Char) (hb : ∀ c ∈ candidates, '\\' ∉ c) (hn : ¬ ∀ c ∈ candidates, w <+: c → c = w) :
    r ∈ (completeCustom candidates (escape w) []).1 ↔ ∃ c ∈ candidates, w <+: c ∧ r = escape (c.drop w.length) ++ [' '] ∧ readStr false (escape w ++ r) = (c, [' ']) := by
  have e : readStr false (escape w) = (w, []) := by
    have := readStr_escape w [] (Or.inl rfl); rwa [List.append_nil] at this
  have hoff : ∀ c ∈ candidates, w <+: c → offer w c = escape (c.drop w.length) ++ [' '] ∧ readStr false (escape w ++ offer w c) = (c, [' ']) := by
    intro c hc hp
    have h1 : offer w c = escape (c.drop w.length) ++ [' '] := by
      unfold offer; rw [offer_eq (fun h => hb c hc (List.mem_of_mem_drop h))]
    refine ⟨h1, ?_⟩
    rw [h1, readStr_append, readStr_escape _ [' '] (Or.inr ⟨' ', [], rfl, Or.inl rfl⟩)]
    obtain ⟨q, rfl⟩ := hp
    simp
  have hres : (completeCustom candidates (escape w) []).1 = offers w candidates [] := by
    rw [completeCustom, e]
    split
    · rename_i h
      exfalso
      obtain ⟨h1, h2 | h2⟩ := h
      · apply hn
        intro c hc hp
        have hw : w ∈ candidates := by simpa using h1
        have m1 : offer w w ∈ offers w candidates [] := (mem_offers w candidates [] _).mpr (Or.inr ⟨w, hw, List.prefix_refl _, rfl⟩)
        have m2 : offer w c ∈ offers w candidates [] := (mem_offers w candidates [] _).mpr (Or.inr ⟨c, hc, hp, rfl⟩)
        obtain ⟨x, hx⟩ := List.length_eq_one_iff.mp h2
        rw [hx, List.mem_singleton] at m1 m2
        have r1 := (hoff w hw (List.prefix_refl _)).2
        have r2 := (hoff c hc hp).2
        rw [m1] at r1; rw [m2, r1] at r2
        exact (Prod.mk.inj r2).1.symm
      · exact h2 rfl
    · rfl
  rw [hres, mem_offers]
  constructor
  · rintro (h | ⟨c, h1, h2, h3⟩)
    · exact absurd h (by simp)
    · exact ⟨c, h1, h2, by rw [h3]; exact (hoff c h1 h2).1, by rw [h3]; exact (hoff c h1 h2).2⟩
  · rintro ⟨c, h1, h2, h3, _⟩
    exact Or.inr ⟨c, h1, h2, by rw [h3]; exact (hoff c h1 h2).1.symm⟩

/-- A candidate with a backslash is completed to a text that is read as another word. -/
theorem complete_backslash_violated : ∃ (candidates : List (List Char)) (r : List Char), r ∈ (completeCustom candidates [] []).1 ∧
    (readStr false r).1 ∉ candidates := by
  refine ⟨["a\\b".toList], "a\\b ".toList, by decide, by decide⟩

/-- Completing the argument of one handler drops the completions offered by another one. -/
theorem complete_clears_violated : ∃ (candidates : List (List Char)) (input : List Char) (results : List (List Char)), results ≠ [] ∧
    (completeCustom candidates input results).1 = [] := by
  exact ⟨["on".toList], "on x".toList, ["yz ".toList], by decide, by decide⟩

/-- Text after the argument is not taken into account: the completion offered belongs into the middle of the input. -/
theorem complete_middle_violated : ∃ (candidates : List (List Char)) (input r : List Char), r ∈ (completeCustom candidates input []).1 ∧
    (readStr false (input ++ r)).1 ∉ candidates := by
  exact ⟨["on".toList], "o x".toList, "n ".toList, by decide, by decide⟩

/-- A parser for the examples. -/
def demoParse (s : List Char) : Option Nat := if s = "7".toList then some 7 else none

def demoShow (n : Nat) : List Char := if n = 7 then "7".toList else []

example : render demoShow (.vec [.str "a b".toList, .str "c]".toList]) = "[a\\ b, c\\]]".toList := by
  simp [render, renderAll, join, escape, Special]

example : Good demoParse demoShow (.vec (.opt .num)) (.vec [.opt (some (.num 7)), .opt none]) := by
  intro v hv
  simp only [List.mem_cons, List.not_mem_nil, or_false] at hv
  rcases hv with rfl | rfl
  · exact ⟨⟨by decide, by decide⟩, "7".toList, rfl, by decide⟩
  · trivial

example : handle demoParse ["set".toList, "x".toList] [.num, .bool] "set x 7 on".toList = some [.num 7, .bool true] := by
  have h := handle_render_partial (parse := demoParse) (shw := demoShow) ["set".toList, "x".toList] [.num, .bool] [.num 7, .bool true] rfl (by
    intro p hp
    simp only [List.zip_cons_cons, List.zip_nil_right, List.mem_cons, List.not_mem_nil, or_false] at hp
    rcases hp with rfl | rfl
    · exact ⟨by decide, by decide⟩
    · trivial)
  have e : join " ".toList (["set".toList, "x".toList] ++ renderAll demoShow [.num 7, .bool true]) = "set x 7 on".toList := by
    simp [render, renderAll, join, escape, Special, demoShow]
  rw [e] at h; exact h

example : Spec.Once [Op.register 1, Op.register 2, Op.unregister 0, Op.register 3] 0 [] ∧
    (Spec.alive [Op.register 1, Op.register 2, Op.unregister 0, Op.register 3] 0 []).map (fun e => e.2) = [2, 3] := by
  refine ⟨?_, by decide⟩
  simp [Spec.Once]

example : ' ' ∈ (completeCustom ["on".toList, "one two".toList] (escape "on".toList) []).1.flatten := by decide

end Verif.Cmd

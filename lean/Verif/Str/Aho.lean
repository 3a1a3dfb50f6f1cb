/-
Model of string/AhoCorasick.h 20-146.  `α` stands for the 256 values of a byte, `alphabet` lists them in order.
A trie is its number of nodes and the members of the nodes as functions of the index; `none` is
`None`.  Following `None` is an access outside the trie: the functions below return `none`.
-/
namespace Verif.Str

/-- `AhoCorasick`, AhoCorasick.h 27-39. -/
structure Trie (α : Type) where
  size : Nat
  next : Nat → α → Option Nat
  fail : Nat → Option Nat
  pat : Nat → Option Nat
  patterns : List (List α)

variable {α : Type} [DecidableEq α]

/-- The constructor, AhoCorasick.h 42-43. -/
def Trie.empty : Trie α := ⟨1, fun _ _ => none, fun _ => none, fun _ => none, []⟩

/-- `node.Next[ch] = j`.  For AhoCorasick.h 27-141. -/
def Trie.setNext (t : Trie α) (i : Nat) (c : α) (j : Nat) : Trie α :=
  { t with next := fun k d => if k = i ∧ d = c then some j else t.next k d }

/-- `_trie[i].Fail = f`.  For AhoCorasick.h 27-141. -/
def Trie.setFail (t : Trie α) (i f : Nat) : Trie α :=
  { t with fail := fun k => if k = i then some f else t.fail k }

/-- The loop of `Add`, AhoCorasick.h 48-60. -/
def Trie.addLoop (t : Trie α) : List α → Nat → Trie α × Nat
  | [], i => (t, i)
  | c :: cs, i =>
    match t.next i c with
    | some j => t.addLoop cs j
    | none => Trie.addLoop { t.setNext i c t.size with size := t.size + 1 } cs t.size

/-- AhoCorasick.h 62-65. -/
def Trie.setPat (t : Trie α) (i : Nat) (p : List α) : Trie α :=
  { t with pat := fun k => if k = i then some t.patterns.length else t.pat k, patterns := t.patterns ++ [p] }

/-- `Add`, AhoCorasick.h 45-66. -/
def Trie.add (t : Trie α) (p : List α) : Trie α := (t.addLoop p 0).1.setPat (t.addLoop p 0).2 p

/-- The loop over the children of the root, AhoCorasick.h 75-85; the pair is the trie and the queue. -/
def rootLoop : List α → Trie α × List Nat → Trie α × List Nat
  | [], s => s
  | c :: cs, s =>
    match s.1.next 0 c with
    | some j => if j ≠ 0 then rootLoop cs (s.1.setFail j 0, s.2 ++ [j]) else rootLoop cs (s.1.setNext 0 c 0, s.2)
    | none => rootLoop cs (s.1.setNext 0 c 0, s.2)

/-- The loop along the fail links and the step that follows it, AhoCorasick.h 101-104 and 122-125. -/
def Trie.chase (t : Trie α) (c : α) : Nat → Nat → Option Nat
  | 0, _ => none
  | fuel + 1, f =>
    match t.next f c with
    | some g => some g
    | none =>
      match t.fail f with
      | none => none
      | some f' => t.chase c fuel f'

/-- The loop over the children of a node, AhoCorasick.h 93-107; `n` is `nodeIndex`. -/
def childLoop (n : Nat) : List α → Trie α × List Nat → Option (Trie α × List Nat)
  | [], s => some s
  | c :: cs, s =>
    match s.1.next n c with
    | none => childLoop n cs s
    | some j =>
      match s.1.fail n with
      | none => none
      | some f =>
        match s.1.chase c s.1.size f with
        | none => none
        | some r => childLoop n cs (s.1.setFail j r, s.2 ++ [j])

/-- The loop of `Build`, AhoCorasick.h 88-108. -/
def buildLoop (alphabet : List α) : Nat → Trie α → List Nat → Option (Trie α)
  | 0, _, _ => none
  | _ + 1, t, [] => some t
  | fuel + 1, t, n :: queue =>
    match childLoop n alphabet (t, queue) with
    | none => none
    | some (t', queue') => buildLoop alphabet fuel t' queue'

/-- `Build`, AhoCorasick.h 68-110. -/
def Trie.build (alphabet : List α) (t : Trie α) : Option (Trie α) :=
  buildLoop alphabet t.size (rootLoop alphabet (t.setFail 0 0, [])).1 (rootLoop alphabet (t.setFail 0 0, [])).2

/-- The loop that reports the patterns ending here, AhoCorasick.h 129-139; `stop` is `1 + offset`. -/
def Trie.reports (t : Trie α) (stop : Nat) : Nat → Nat → Option (List (Nat × Nat))
  | 0, _ => none
  | fuel + 1, f =>
    if f = 0 then some []
    else
      match t.fail f with
      | none => none
      | some f' =>
        match t.reports stop fuel f' with
        | none => none
        | some rest =>
          match t.pat f with
          | none => some rest
          | some k => some ((k, stop - (t.patterns.getD k []).length) :: rest)

/-- The loop of `Search`, AhoCorasick.h 117-140: the pairs of pattern index and position passed to the callback. -/
def Trie.searchLoop (t : Trie α) : List α → Nat → Nat → Option (List (Nat × Nat))
  | [], _, _ => some []
  | c :: cs, offset, node =>
    match t.chase c t.size node with
    | none => none
    | some node' =>
      match t.reports (1 + offset) t.size node' with
      | none => none
      | some rs =>
        match t.searchLoop cs (offset + 1) node' with
        | none => none
        | some rest => some (rs ++ rest)

/-- `Search`, AhoCorasick.h 112-141. -/
def Trie.search (t : Trie α) (text : List α) : Option (List (Nat × Nat)) := t.searchLoop text 0 0

end Verif.Str

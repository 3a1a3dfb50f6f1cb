import Verif.Common
/-
Model of `IntrusiveList<T>` / `IntrusiveListNode<T>` (stingraykit/collection/IntrusiveList.h) at the level of pointers: nodes are numbers, some of
them are the root nodes of lists, the heap gives the two links of every node; assignments happen one after another, so aliasing is respected.
-/
namespace Verif.Intrusive

/-- The links of all nodes: IntrusiveList.h:34. -/
structure Heap where
  prev : Nat → Nat
  next : Nat → Nat

/-- All nodes constructed, none linked: IntrusiveList.h:37-40. -/
def Heap.init : Heap := ⟨fun x => x, fun x => x⟩

/-- `a->_prev = b`.  For IntrusiveList.h 34-146. -/
def Heap.setPrev (h : Heap) (a b : Nat) : Heap := ⟨fun x => if x = a then b else h.prev x, h.next⟩
/-- `a->_next = b`.  For IntrusiveList.h 34-146. -/
def Heap.setNext (h : Heap) (a b : Nat) : Heap := ⟨h.prev, fun x => if x = a then b else h.next x⟩

/-- `unlink()`, first statement: `_next->_prev = _prev` (IntrusiveList.h:48). -/
def unlink1 (h : Heap) (n : Nat) : Heap := h.setPrev (h.next n) (h.prev n)
/-- `_prev->_next = _next` (IntrusiveList.h:49). -/
def unlink2 (h : Heap) (n : Nat) : Heap := h.setNext (h.prev n) (h.next n)
/-- `unlink()`: IntrusiveList.h:46-51. -/
def unlink (h : Heap) (n : Nat) : Heap := ((unlink2 (unlink1 h n) n).setNext n n).setPrev n n

/-- `_prev = node->_prev; _next = node` (IntrusiveList.h:57-58). -/
def insert1 (h : Heap) (n node : Nat) : Heap := (h.setPrev n (h.prev node)).setNext n node
/-- `_next->_prev = _prev->_next = this` (IntrusiveList.h:60), right to left. -/
def insert2 (h : Heap) (n : Nat) : Heap := (h.setNext (h.prev n) n).setPrev ((h.setNext (h.prev n) n).next n) n
/-- `insert_before(node)`: IntrusiveList.h:55-61. -/
def insertBefore (h : Heap) (n node : Nat) : Heap := insert2 (insert1 h n node) n

/-- The calls, IntrusiveList.h 34-146. -/
inductive Op where
  /-- `push_back` of node `n` to the list with root `r`: IntrusiveList.h:145 -/
  | pushBack (r n : Nat)
  /-- `erase` of node `n` (the list is not used): IntrusiveList.h:146 -/
  | erase (n : Nat)
  deriving DecidableEq, Repr

/-- One step, IntrusiveList.h 34-146. -/
def step (h : Heap) : Op → Heap
  | .pushBack r n => insertBefore h n r
  | .erase n => unlink h n

/-- One step after another, for histories of IntrusiveList.h 34-146. -/
def run : Heap → List Op → Heap
  | h, [] => h
  | h, op :: ops => run (step h op) ops

/-- Following links from `cur` until `stop` is met, at most `fuel` steps (a `for` loop over iterators: IntrusiveList.h:96-100, 125-126). -/
def walk (f : Nat → Nat) (stop : Nat) : Nat → Nat → List Nat
  | 0, _ => []
  | fuel + 1, cur => if cur = stop then [] else cur :: walk f stop fuel (f cur)

/-- From `begin()` to `end()`, at most `fuel` elements: IntrusiveList.h:136-140. -/
def forward (h : Heap) (r fuel : Nat) : List Nat := walk h.next r fuel (h.next r)

/-- From `--end()` down: IntrusiveList.h:100. -/
def backward (h : Heap) (r fuel : Nat) : List Nat := walk h.prev r fuel (h.prev r)

/-- `empty()`: IntrusiveList.h:53, 142. -/
def isEmpty (h : Heap) (r : Nat) : Bool := decide (h.next r = r)

end Verif.Intrusive

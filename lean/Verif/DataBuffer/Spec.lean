import Verif.DataBuffer.Model
/- Specification of the data buffer over observable traces. -/
namespace Verif.DataBuffer.Spec
section
variable {α ε : Type}

/-- Abstract state: stored bytes (oldest first), end-of-data mark, exception, bytes of the `Process` call in progress,
bytes offered by the `Read` call in progress. -/
structure St (α ε : Type) where
  q : List α
  eod : Bool
  exc : Option ε
  w : Option (List α)
  r : Option (List α)

def St.init : St α ε := ⟨[], false, none, none, none⟩

/-- Is there too little room to store anything? -/
def NoRoom (c : Config) (cap : Nat) (q : List α) : Prop := cap - q.length < c.inputPacketSize ∨ cap - q.length < c.requiredFreeSpace

/-- Which steps with which outcomes are allowed, and what they do. -/
inductive Step (c : Config) (cap : Nat) : St α ε → Op α ε → Out α ε → St α ε → Prop
  | misaligned (s : St α ε) (d : List α) (hw : s.w = none) (h : d.length % c.inputPacketSize ≠ 0) : Step c cap s (.process d) (.misaligned d.length) s
  | processRefused (s : St α ε) (d : List α) (hw : s.w = none) (h : s.eod = true ∨ s.exc ≠ none) : Step c cap s (.process d) .refused s
  | overflow (s : St α ε) (d : List α) (hw : s.w = none) (hd : c.discardOnOverflow = true) (h : NoRoom c cap s.q) :
      Step c cap s (.process d) (.overflow d.length) s
  | full (s : St α ε) (d : List α) (hw : s.w = none) (hd : c.discardOnOverflow = false) (h : NoRoom c cap s.q) :
      Step c cap s (.process d) (.returned 0) s
  /-- a non-empty (unless `d` is) prefix of the data, of whole packets, which fits into the free space -/
  | process (s : St α ε) (d b : List α) (hw : s.w = none) (he : s.eod = false) (hx : s.exc = none) (hr : ¬ NoRoom c cap s.q) (hb : b <+: d)
      (ha : b.length % c.inputPacketSize = 0) (hne : b = [] → d = []) (hf : s.q.length + b.length ≤ cap) :
      Step c cap s (.process d) .inProgress { s with w := some b }
  | copy (s : St α ε) (b : List α) (hw : s.w = some b) : Step c cap s .copy .done s
  /-- exactly the accepted bytes are appended, and their number is returned -/
  | pushed (s : St α ε) (b : List α) (hw : s.w = some b) (hf : s.q.length + b.length ≤ cap) :
      Step c cap s .pushed (.returned b.length) { s with q := s.q ++ b, w := none }
  | readRefused (s : St α ε) (b : List α) (h : s.r = some b) : Step c cap s .read .refused s
  /-- whole packets from the front -/
  | offer (s : St α ε) (b : List α) (h : s.r = none) (hp : b <+: s.q) (hne : b ≠ []) (ha : b.length % c.outputPacketSize = 0) :
      Step c cap s .read (.offered b) { s with r := some b }
  /-- end of data / exception / waiting only when less than a packet is stored -/
  | eod (s : St α ε) (h : s.r = none) (hq : s.q.length < c.outputPacketSize) (he : s.eod = true) (hx : s.exc = none) : Step c cap s .read .gotEod s
  | thrown (s : St α ε) (e : ε) (h : s.r = none) (hq : s.q.length < c.outputPacketSize) (hx : s.exc = some e) (he : s.eod = false) :
      Step c cap s .read (.thrown e) s
  | wait (s : St α ε) (h : s.r = none) (hq : s.q.length < c.outputPacketSize) (he : s.eod = false) (hx : s.exc = none) : Step c cap s .read .waiting s
  /-- the consumer threw: nothing is removed -/
  | consumerThrew (s : St α ε) (b : List α) (h : s.r = some b) : Step c cap s (.consumed none) (.seen b) { s with r := none }
  /-- the consumer took whole packets: exactly these are removed -/
  | consumed (s : St α ε) (b : List α) (k : Nat) (h : s.r = some b) (hk : k ≤ b.length) (ha : k % c.outputPacketSize = 0) :
      Step c cap s (.consumed (some k)) (.seen b) { s with q := s.q.drop k, r := none }
  /-- the consumer broke a packet: everything offered is removed -/
  | consumedBroken (s : St α ε) (b : List α) (k : Nat) (h : s.r = some b) (hk : k ≤ b.length) (ha : k % c.outputPacketSize ≠ 0) :
      Step c cap s (.consumed (some k)) (.seen b) { s with q := s.q.drop b.length, r := none }
  | endOfData (s : St α ε) (h : s.exc = none) : Step c cap s .endOfData .done { s with eod := true }
  | endOfDataRefused (s : St α ε) (h : s.exc ≠ none) : Step c cap s .endOfData .refused s
  | setException (s : St α ε) (e : ε) (h : s.eod = false) : Step c cap s (.setException e) .done { s with exc := some e }
  | setExceptionRefused (s : St α ε) (e : ε) (h : s.eod = true) : Step c cap s (.setException e) .refused s
  | clear (s : St α ε) (hr : s.r = none) (hw : s.w = none) : Step c cap s .clear .done St.init
  | clearRefused (s : St α ε) (h : s.r ≠ none ∨ s.w ≠ none) : Step c cap s .clear .refused s

/-- A trace allowed by the specification, from one abstract state to another. -/
inductive Trace (c : Config) (cap : Nat) : St α ε → List (Event α ε) → St α ε → Prop
  | nil (s : St α ε) : Trace c cap s [] s
  | cons {s s' s'' : St α ε} {e : Event α ε} {t : List (Event α ε)} (h : Step c cap s e.op e.out s') (hd : e.dataSize = s'.q.length)
      (hf : e.finished = (s'.eod || s'.exc.isSome)) (ht : Trace c cap s' t s'') : Trace c cap s (e :: t) s''

/-- Bytes the producers were told to be accepted. `d`: data of the `Process` call in progress. -/
def accepted : List α → List (Event α ε) → List α
  | _, [] => []
  | d, e :: t =>
    match e.op, e.out with
    | .process d', .inProgress => accepted d' t
    | .pushed, .returned n => d.take n ++ accepted d t
    | _, _ => accepted d t

/-- Bytes the consumer took. -/
def delivered : List (Event α ε) → List α
  | [] => []
  | e :: t =>
    match e.op, e.out with
    | .consumed (some k), .seen b => b.take k ++ delivered t
    | _, _ => delivered t

end
end Verif.DataBuffer.Spec

import Verif.PacketBuffer.Model
/- Specification: a queue of packets, over observable traces. -/
namespace Verif.PacketBuffer.Spec
section
variable {α μ : Type}

/-- Abstract state: the accepted packets not yet consumed, the packet being stored, the packet being offered, end-of-data mark. -/
structure St (α μ : Type) where
  q : List (Packet α μ)
  w : Option (Packet α μ)
  r : Option (Packet α μ)
  eod : Bool

def St.init : St α μ := ⟨[], none, none, false⟩

inductive Step (discard : Bool) (cap : Nat) : St α μ → Op α μ → Out α μ → St α μ → Prop
  | tooBig (s : St α μ) (p : Packet α μ) (h : cap < p.data.length) : Step discard cap s (.process p) .tooBig s
  | dropped (s : St α μ) (p : Packet α μ) (hd : discard = true) (h : s.w = none) : Step discard cap s (.process p) .dropped s
  | full (s : St α μ) (p : Packet α μ) (hd : discard = false) (h : s.w = none) : Step discard cap s (.process p) .waiting s
  | process (s : St α μ) (p : Packet α μ) (h : s.w = none) : Step discard cap s (.process p) .inProgress { s with w := some p }
  | copy (s : St α μ) (p : Packet α μ) (h : s.w = some p) : Step discard cap s .copy .done s
  /-- the packet is appended -/
  | accepted (s : St α μ) (p : Packet α μ) (h : s.w = some p) : Step discard cap s .pushed .accepted { s with q := s.q ++ [p], w := none }
  /-- the oldest packet is offered, whole, with its own metadata -/
  | offer (s : St α μ) (p : Packet α μ) (ps : List (Packet α μ)) (h : s.r = none) (hq : s.q = p :: ps) :
      Step discard cap s .read (.offered p) { s with r := some p }
  | eod (s : St α μ) (h : s.r = none) (hq : s.q = []) (he : s.eod = true) : Step discard cap s .read .gotEod s
  | wait (s : St α μ) (h : s.r = none) (hq : s.q = []) (he : s.eod = false) : Step discard cap s .read .waiting s
  /-- consumed: exactly this packet is removed; its bytes did not change meanwhile -/
  | consumed (s : St α μ) (p : Packet α μ) (ps : List (Packet α μ)) (h : s.r = some p) (hq : s.q = p :: ps) :
      Step discard cap s (.consumed true) (.seen p.data) { s with q := ps, r := none }
  | notConsumed (s : St α μ) (p : Packet α μ) (h : s.r = some p) : Step discard cap s (.consumed false) (.seen p.data) { s with r := none }
  | endOfData (s : St α μ) : Step discard cap s .endOfData .done { s with eod := true }
  | clear (s : St α μ) (h : s.r = none) : Step discard cap s .clear .done { s with q := [], eod := false }

inductive Trace (discard : Bool) (cap : Nat) : St α μ → List (Event α μ) → St α μ → Prop
  | nil (s : St α μ) : Trace discard cap s [] s
  | cons {s s' s'' : St α μ} {e : Event α μ} {t : List (Event α μ)} (h : Step discard cap s e.op e.out s') (ht : Trace discard cap s' t s'') :
      Trace discard cap s (e :: t) s''

/-- Packets accepted according to the trace; `p`: the one being stored. -/
def acceptedPackets : Option (Packet α μ) → List (Event α μ) → List (Packet α μ)
  | _, [] => []
  | p, e :: t =>
    match e.op, e.out with
    | .process p', .inProgress => acceptedPackets (some p') t
    | .pushed, .accepted => p.toList ++ acceptedPackets none t
    | _, _ => acceptedPackets p t

/-- Packets taken by the consumer according to the trace; `p`: the one being offered. -/
def consumedPackets : Option (Packet α μ) → List (Event α μ) → List (Packet α μ)
  | _, [] => []
  | p, e :: t =>
    match e.op, e.out with
    | .read, .offered p' => consumedPackets (some p') t
    | .consumed true, _ => p.toList ++ consumedPackets none t
    | _, _ => consumedPackets p t

end
end Verif.PacketBuffer.Spec

import Verif.Model.LiveHeap
import Verif.Spec.Wire

/-!
# Specification of heap assembly

Everything is stated in terms of the list of accepted packets.
-/

namespace Spead2.Spec

/-- What `decode_packet` guarantees about a packet: the payload lies inside the announced heap length. -/
def PktValid (p : Pkt) : Prop := ∀ h, p.heapLength = some h → p.payloadOffset + p.payload.length ≤ h

/-- Position `x` of the heap payload is carried by packet `p`. -/
def Carries (p : Pkt) (x : Nat) : Prop := p.payloadOffset ≤ x ∧ x < p.payloadOffset + p.payload.length

/-- Position `x` is carried by one of the packets. -/
def Covered (acc : List Pkt) (x : Nat) : Prop := ∃ p ∈ acc, Carries p x

/-- The largest offset a packet mentions: end of its payload, announced heap length, addresses of its
addressed item pointers. -/
def pktEnd (p : Pkt) : Nat :=
  (p.pointers.filter (fun q => ¬ ptrImmediate q)).foldr (fun q m => max (q % 2 ^ p.hab) m)
    (max (p.payloadOffset + p.payload.length) (p.heapLength.getD 0))

/-- The largest offset mentioned by any of the packets. -/
def extent (acc : List Pkt) : Nat := acc.foldr (fun p m => max (pktEnd p) m) 0

/-- Item pointers kept by the receiver: padding (id 0) and everything but the packet-level items 1..4. -/
def relevant (hab p : Nat) : Prop :=
  p / 2 ^ hab % 2 ^ (63 - hab) = 0 ∨ 4 < p / 2 ^ hab % 2 ^ (63 - hab)
instance (hab p : Nat) : Decidable (relevant hab p) := by unfold relevant; infer_instance

/-- The relevant pointers of some packets, in order of arrival, with repetitions. -/
def relevantPtrs (hab : Nat) (acc : List Pkt) : List Nat :=
  acc.flatMap (fun p => p.pointers.filter (fun q => relevant hab q))

/-- Immediate stream-control pointer (id 6) with value `stop` (2). -/
def isStop (hab p : Nat) : Prop :=
  p / 2 ^ hab % 2 ^ (63 - hab) = 6 ∧ ptrImmediate p ∧ p % 2 ^ hab = 2

/-- `m` is a list of half-open ranges in increasing order, no two of which overlap or touch. -/
def Separated (m : List (Nat × Nat)) : Prop :=
  m.Pairwise (fun a b => a.2 < b.1) ∧ ∀ r ∈ m, r.1 ≤ r.2

/-- Position `x` lies in one of the ranges. -/
def InRanges (m : List (Nat × Nat)) (x : Nat) : Prop := ∃ r ∈ m, r.1 ≤ x ∧ x < r.2

/-- Sum of the lengths of the ranges. -/
def rangesLength (m : List (Nat × Nat)) : Nat := (m.map (fun r => r.2 - r.1)).sum

end Spead2.Spec

import Verif.Model.Heap
import Verif.Spec.LiveHeap

/-!
# Specification of frozen heaps

In terms of the stored item pointers `ptrs` (in order of first arrival) and the payload length `ext`.
-/

namespace Spead2.Spec

/-- Every item pointer of the packet is a 64-bit number (true of anything read from a datagram). -/
def Ptr64 (p : Pkt) : Prop := ∀ q ∈ p.pointers, q < 2 ^ 64

/-- `q` is an addressed pointer with address `a`. -/
def AtAddr (hab a q : Nat) : Prop := ¬ ptrImmediate q ∧ q % 2 ^ hab = a
instance (hab a q : Nat) : Decidable (AtAddr hab a q) := by unfold AtAddr; infer_instance

/-- Identifier field of an item pointer. -/
def idOf (hab p : Nat) : Nat := p / 2 ^ hab % 2 ^ (63 - hab)

/-- The item starting at `a` ends at `e`: `e` is the smallest larger address of an addressed pointer, or
the payload length if there is none. -/
def EndsAt (hab : Nat) (ptrs : List Nat) (ext a e : Nat) : Prop :=
  (a < e ∧ (∃ q ∈ ptrs, AtAddr hab e q) ∧ ∀ r ∈ ptrs, ¬ ptrImmediate r → a < r % 2 ^ hab → e ≤ r % 2 ^ hab) ∨
  (e = ext ∧ ∀ r ∈ ptrs, ¬ ptrImmediate r → r % 2 ^ hab ≤ a)

/-- The last pointer to arrive with address `a`. -/
def lastAt (hab : Nat) (ptrs : List Nat) (a : Nat) : Option Nat := (ptrs.filter (fun q => AtAddr hab a q)).getLast?

end Spead2.Spec

import Verif.Model.Bytes

/-!
# Specification of the SPEAD wire format

Written from the SPEAD protocol description (docs and the comments in include/spead2/recv_utils.h:40-48),
without reference to the model's decoding functions.
-/

namespace Spead2.Spec

/-- An item pointer is immediate when its top bit is set. -/
def ptrImmediate (p : Nat) : Prop := 2 ^ 63 ≤ p
instance (p : Nat) : Decidable (ptrImmediate p) := by unfold ptrImmediate; infer_instance

/-- Identifier field of a 64-bit item pointer whose address field has `w` bytes. -/
def ptrId (w p : Nat) : Nat := p / 2 ^ (8 * w) % 2 ^ (63 - 8 * w)

/-- Immediate/address field of an item pointer. -/
def ptrValue (w p : Nat) : Nat := p % 2 ^ (8 * w)

/-- Value of the last immediate item pointer with identifier `id` in an item table. -/
def lastImm (w id : Nat) (table : List Nat) : Option Nat :=
  (table.filter (fun p => ptrImmediate p ∧ ptrId w p = id)).getLast?.map (ptrValue w)

/-- Value of the first immediate item pointer with identifier `id` in an item table. -/
def firstImm (w id : Nat) (table : List Nat) : Option Nat :=
  (table.filter (fun p => ptrImmediate p ∧ ptrId w p = id)).head?.map (ptrValue w)

/-- The four packet-level items: heap cnt, heap length, payload offset, payload length (as immediates). -/
def isPacketItem (w p : Nat) : Prop :=
  ptrImmediate p ∧ (ptrId w p = 1 ∨ ptrId w p = 2 ∨ ptrId w p = 3 ∨ ptrId w p = 4)
instance (w p : Nat) : Decidable (isPacketItem w p) := by unfold isPacketItem; infer_instance

/-- The 8-byte SPEAD header: magic, version, widths of the identifier and address fields in bytes, two
reserved bytes and the number of item pointers. -/
def headerBytes (iw aw r0 r1 : UInt8) (n : Nat) : Bytes :=
  [0x53, 0x04, iw, aw, r0, r1] ++ beBytes 2 n

/-- `d` starts with a SPEAD-64-(8*aw) header and a complete item table `table`, followed by `rest`. -/
def HasTable (d : Bytes) (aw : UInt8) (table : List Nat) (rest : Bytes) : Prop :=
  ∃ iw r0 r1 : UInt8,
    d = headerBytes iw aw r0 r1 table.length ++ table.flatMap (beBytes 8) ++ rest ∧
    iw ≠ 0 ∧ aw ≠ 0 ∧ iw.toNat + aw.toNat = 8 ∧ table.length < 65536 ∧ ∀ p ∈ table, p < 2 ^ 64

/-- `d` is a well-formed SPEAD packet, possibly followed by further bytes, with the given contents. -/
structure WellFormed (d : Bytes) (aw : UInt8) (table : List Nat) (payload : Bytes)
    (cnt off : Nat) (hlen : Option Nat) : Prop where
  layout : ∃ rest, HasTable d aw table (payload ++ rest)
  heapCnt : lastImm aw.toNat 1 table = some cnt
  heapLength : lastImm aw.toNat 2 table = hlen
  payloadOffset : lastImm aw.toNat 3 table = some off
  payloadLength : lastImm aw.toNat 4 table = some payload.length
  fits : ∀ h, hlen = some h → off + payload.length ≤ h

/-- Optional field as the code stores it: -1 when absent. -/
def optField : Option Nat → Int
  | none => -1
  | some v => v

end Spead2.Spec

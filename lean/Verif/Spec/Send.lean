import Verif.Model.Send
import Verif.Spec.Wire

/-!
# Specification of packetisation

What a heap should look like on the wire: its payload, its item pointers, its length, and the layout of
one packet.
-/

namespace Spead2.Spec

/-- The bytes an item contributes to the heap payload: none if it travels inside its item pointer (inline
values, and buffers flagged `allow_immediate` that fit the address field), else all of them. -/
def itemPayload (w : Nat) (it : SendItem) : Bytes :=
  match it.value with
  | .inline _ => []
  | .buffer b allow => if allow = true ∧ b.length ≤ w then [] else b

/-- Payload of the heap before padding. -/
def realPayload (w : Nat) (items : List SendItem) : Bytes := items.flatMap (itemPayload w)

/-- The item pointer of an item whose payload starts at `addr`. -/
def itemPtr (w addr : Nat) (it : SendItem) : Nat :=
  match it.value with
  | .inline v => 2 ^ 63 + it.id * 2 ^ (8 * w) + v
  | .buffer b allow =>
    if allow = true ∧ b.length ≤ w then 2 ^ 63 + it.id * 2 ^ (8 * w) + beNat b
    else it.id * 2 ^ (8 * w) + addr

/-- The item pointers of a list of items whose payload starts at `addr`. -/
def itemPtrs (w : Nat) : Nat → List SendItem → List Nat
  | _, [] => []
  | addr, it :: rest => itemPtr w addr it :: itemPtrs w (addr + (itemPayload w it).length) rest

/-- Number of item pointers that fit in a packet with 8 bytes of payload. -/
def maxPointers (mps : Nat) : Nat := mps / 8 - 6

/-- Smallest payload that lets every packet carry at least a byte of payload. -/
def minPayload (mps : Nat) (h : SendHeap) : Nat := 8 * (h.items.length / maxPointers mps) + 1

/-- Padding is needed. -/
def padded (mps : Nat) (h : SendHeap) : Prop :=
  (realPayload (h.hab / 8) h.items).length < minPayload mps h
instance (mps : Nat) (h : SendHeap) : Decidable (padded mps h) := by unfold padded; infer_instance

/-- Length of the heap payload with padding. -/
def heapLength (mps : Nat) (h : SendHeap) : Nat :=
  max (realPayload (h.hab / 8) h.items).length (minPayload mps h)

/-- All item pointers of the heap: one per item, then a null pointer at the start of the padding. -/
def heapPtrs (mps : Nat) (h : SendHeap) : List Nat :=
  itemPtrs (h.hab / 8) 0 h.items ++
    (if padded mps h then [(realPayload (h.hab / 8) h.items).length] else [])

/-- The values fit the fields of the flavour. -/
structure Fits (h : SendHeap) (cnt mps : Nat) : Prop where
  width : ∃ w, 1 ≤ w ∧ w ≤ 7 ∧ h.hab = 8 * w
  ids : ∀ it ∈ h.items, it.id < 2 ^ (63 - h.hab)
  inline : ∀ it ∈ h.items, ∀ v, it.value = .inline v → v < 2 ^ h.hab
  cnt : cnt < 2 ^ h.hab
  length : heapLength mps h < 2 ^ h.hab
  count : min (maxPointers mps) (heapPtrs mps h).length + 4 < 65536

/-- Layout of one packet on the wire. -/
def packetBytes (w : Nat) (cnt hlen off : Nat) (ptrs : List Nat) (payload : Bytes) : Bytes :=
  headerBytes (UInt8.ofNat (8 - w)) (UInt8.ofNat w) 0 0 (4 + ptrs.length) ++
  ([2 ^ 63 + 1 * 2 ^ (8 * w) + cnt, 2 ^ 63 + 2 * 2 ^ (8 * w) + hlen, 2 ^ 63 + 3 * 2 ^ (8 * w) + off,
    2 ^ 63 + 4 * 2 ^ (8 * w) + payload.length] ++ ptrs).flatMap (beBytes 8) ++ payload

/-- A sequence of packets carrying consecutive payload pieces from offset `off`. -/
def packetSeq (w cnt hlen : Nat) : Nat → List (List Nat × Bytes) → List Bytes
  | _, [] => []
  | off, (ptrs, payload) :: rest =>
    packetBytes w cnt hlen off ptrs payload :: packetSeq w cnt hlen (off + payload.length) rest

/-- Read `n` big-endian 64-bit words. -/
def words : Nat → Bytes → List Nat
  | 0, _ => []
  | n + 1, d => beNat (d.take 8) :: words n (d.drop 8)

/-- Number of item pointers a packet announces (bytes 6 and 7). -/
def wireCount (d : Bytes) : Nat := beNat ((d.drop 6).take 2)

/-- The item pointers of a packet after the four packet-level ones. -/
def wirePointers (d : Bytes) : List Nat := (words (wireCount d) (d.drop 8)).drop 4

/-- The bytes after the item table of a packet. -/
def wirePayload (d : Bytes) : Bytes := d.drop (8 + 8 * wireCount d)

end Spead2.Spec

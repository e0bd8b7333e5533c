import Verif.Model.ChunkNet
import Verif.Spec.ChunkRecv
import Verif.Spec.PlaceData
import Verif.Spec.Integrity

/-!
# Specification of reception into chunks over a network
-/

namespace Spead2.ChunkNet

open Spead2.Spec PlaceCb

/-- The length of a heap as announced in its packets. -/
def length (x : Sent) : Nat := heapLength x.mps x.heap

/-- What a place callback can know about a heap from any of its packets: its cnt, its length, and its immediate items. -/
def knowledge (x : Sent) : List (Nat × Nat) := (1, x.cnt) :: (2, length x) :: immediateItems x.width x.heap.items

/-- Where the place callback puts a heap. -/
def spot (place : List Int → Place) (ids : List Nat) (x : Sent) : Place := place (requested ids (knowledge x))

/-- What the user has to take care of: the heaps `xs` are sent faithfully, with different cnts, and each has its immediate
items in every packet; the place callback asks for none of the items that differ between packets of a heap; it puts
heaps inside the arrays of a chunk that the user supplies, and no two heaps of a chunk overlap. -/
structure Arranged (place : List Int → Place) (ids : List Nat) (ccfg : ChunkConfig) (xs : List Sent) : Prop where
  ok : ∀ x ∈ xs, x.Ok
  cnts : ∀ x ∈ xs, ∀ y ∈ xs, x.cnt = y.cnt → x = y
  every : ∀ x ∈ xs, x.heap.repeatPointers = true ∨ x.wire.length = 1
  constant : ∀ i ∈ ids, i ≠ 3 ∧ i ≠ 4
  id : ∀ x ∈ xs, (spot place ids x).chunkId < 2 ^ 63
  extra : ∀ x ∈ xs, (spot place ids x).Supplied ccfg →
    (spot place ids x).extraOffset + (spot place ids x).extra.length ≤ ccfg.extraSize (spot place ids x).chunkId.toNat
  data : ∀ x ∈ xs, (spot place ids x).Supplied ccfg →
    (spot place ids x).heapOffset + length x ≤ ccfg.dataSize (spot place ids x).chunkId.toNat
  flag : ∀ x ∈ xs, (spot place ids x).Supplied ccfg → ccfg.presenceSize = 0 →
    (spot place ids x).heapIndex < ccfg.presentSize (spot place ids x).chunkId.toNat
  flags : ∀ x ∈ xs, (spot place ids x).Supplied ccfg → ccfg.presenceSize ≠ 0 → ∀ off, off < length x →
    (spot place ids x).heapIndex + off / ccfg.presenceSize < ccfg.presentSize (spot place ids x).chunkId.toNat
  apart : ∀ x ∈ xs, ∀ y ∈ xs, x ≠ y → 0 ≤ (spot place ids x).chunkId → (spot place ids x).chunkId = (spot place ids y).chunkId →
    (spot place ids x).heapOffset + length x ≤ (spot place ids y).heapOffset ∨
    (spot place ids y).heapOffset + length y ≤ (spot place ids x).heapOffset

/-- What arrives was sent: every packet offered to the stream, with its answer of the place callback, is from a datagram of
one of the heaps. Datagrams may be lost, duplicated and reordered. -/
def FromWire (place : List Int → Place) (ids : List Nat) (xs : List Sent) (ops : List ChunkRecvOp) : Prop :=
  ∀ o ∈ offers ops, ∃ x ∈ xs, ∃ d ∈ x.wire, ∃ old : PlaceData, old.items.length = ids.length ∧ offer place ids old d = some (some o)

end Spead2.ChunkNet

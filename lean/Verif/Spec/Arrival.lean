import Verif.Spec.EndToEnd
import Verif.Spec.Traffic

/-!
# Specification: many heaps over a network

A sender transmits several heaps; a receiver gets some of their packets, interleaved, reordered, lost and
duplicated. `Arrival` says what a network may do without making a stream drop anything.
-/

namespace Spead2.Spec

/-- A heap that was sent: its contents, heap cnt, maximum packet size, address width in bytes and packets. -/
structure Sent where
  heap : SendHeap
  cnt : Nat
  mps : Nat
  width : Nat
  pkts : List GenPacket

/-- The datagrams of a heap. -/
def Sent.wire (x : Sent) : List Bytes := x.pkts.map GenPacket.bytes

/-- The heap is one that the packet generator sends faithfully (C09). Ids 0..4 are reserved. -/
structure Sent.Ok (x : Sent) : Prop where
  hab : x.heap.hab = 8 * x.width
  fits : Fits x.heap x.cnt x.mps
  ids : ∀ it ∈ x.heap.items, 4 < it.id
  sends : Sends x.heap x.cnt x.mps x.pkts
  payload : minPayload x.mps x.heap ≤ (realPayload x.width x.heap.items).length ∨ (realPayload x.width x.heap.items).length % 8 = 0

/-- The datagrams of heap `x` among `ds`. -/
def Sent.among (x : Sent) (ds : List Bytes) : List Bytes := ds.filter (fun d => d ∈ x.wire)

/-- The datagrams `ds` are what a benign network makes of the heaps `sent`. -/
structure Arrival (cfg : StreamConfig) (sent : List Sent) (ds : List Bytes) : Prop where
  /-- nothing else arrives -/
  origin : ∀ d ∈ ds, ∃ x ∈ sent, d ∈ x.wire
  /-- no copies arrive after the last missing packet of a heap -/
  late : ∀ l1 d l2, ds = l1 ++ d :: l2 → ∀ x ∈ sent, d ∈ x.wire → ∃ b ∈ x.wire, b ∉ l1
  /-- between two packets of a heap, packets of fewer than `maxHeaps` new heaps of its substream arrive -/
  overlap : ∀ l1 d1 l2 d2 l3, ds = l1 ++ d1 :: l2 ++ d2 :: l3 → ∀ x ∈ sent, d1 ∈ x.wire → d2 ∈ x.wire →
    (sent.filter (fun y => y.cnt % cfg.substreams = x.cnt % cfg.substreams ∧
      (∃ d ∈ l2, d ∈ y.wire) ∧ ∀ d ∈ l1 ++ [d1], d ∉ y.wire)).length < cfg.maxHeaps
  /-- if the stream does not allow reordering, the first packet of a heap to arrive is its first packet -/
  order : cfg.allowOoo = false → ∀ l1 d l2, ds = l1 ++ d :: l2 → ∀ x ∈ sent, d ∈ x.wire → (∀ b ∈ l1, b ∉ x.wire) →
    x.wire.head? = some d

/-- All of heap `x` arrives. With reordering allowed: every packet arrives, and (because of the defect of
C10) the heap has no empty item in the payload, or it repeats its item pointers or comes in order, without
identical items. Otherwise: exactly the packets of the heap arrive, in order. -/
def Sent.Arrives (cfg : StreamConfig) (x : Sent) (ds : List Bytes) : Prop :=
  (NoEmpty x.width x.heap.items ∨
    ((heapPtrs x.mps x.heap).Nodup ∧ (x.heap.repeatPointers = true ∨ (x.among ds).eraseDups = x.wire))) ∧
  if cfg.allowOoo then ∀ b ∈ x.wire, b ∈ ds else x.among ds = x.wire

/-- `h` is the heap that was sent: its payload items in order with their bytes, and its immediate items with
their values (identical ones once). -/
def SameItems (x : Sent) (h : LiveHeap) : Prop :=
  h.cnt = x.cnt ∧ h.isComplete = true ∧ ∃ adr imm, h.load true = some (adr ++ imm) ∧ (∀ it ∈ adr, it.isImm = false) ∧
    adr.map (fun it => (it.id, it.data)) = (addressedItems x.width x.heap.items).map (fun y => (y.1, y.2.map some)) ∧
    (∀ it ∈ imm, it.isImm = true ∧ it.data = (beBytes x.width it.value).map some) ∧
    (imm.map (fun it => (it.id, it.value))).Perm (immediateItems x.width x.heap.items).eraseDups

end Spead2.Spec

import Verif.Spec.Arrival
import Verif.Spec.Mem

/-!
# Specification: what an unreliable network cannot do

Datagrams may be lost, duplicated, reordered and mixed with anything else, as long as nothing else pretends to be part of the heap.
-/

namespace Spead2.Spec

/-- The payload of a heap as it travels: the bytes of its items, and zeros up to the announced length. -/
def Sent.payload (x : Sent) : Bytes :=
  realPayload x.width x.heap.items ++ List.replicate (heapLength x.mps x.heap - (realPayload x.width x.heap.items).length) 0

/-- Every packet with the cnt of heap `x` is one of the packets of `x`. -/
def Genuine (x : Sent) (ps : List Pkt) : Prop := ∀ p ∈ ps, p.heapCnt = x.cnt → ∃ d ∈ x.wire, IsPacket d p

/-- Every datagram that is a packet with the cnt of heap `x` is one of the datagrams of `x`. -/
def GenuineData (x : Sent) (ds : List Bytes) : Prop := ∀ d ∈ ds, ∀ p, IsPacket d p → p.heapCnt = x.cnt → d ∈ x.wire

/-- The heap does not suffer from the defect of C10: it has no empty item in the payload, or it has no identical items and either it repeats its item
pointers or the stream takes packets only in order. -/
def Sent.Robust (cfg : StreamConfig) (x : Sent) : Prop :=
  NoEmpty x.width x.heap.items ∨ ((heapPtrs x.mps x.heap).Nodup ∧ (x.heap.repeatPointers = true ∨ cfg.allowOoo = false))

/-- The heaps with the cnt of `x` in `out` that are complete. -/
def Sent.copies (x : Sent) (out : List Entry) : List Entry := out.filter (fun e => decide (e.heap.cnt = x.cnt) && e.heap.isComplete)

/-- The bytes that were received of a heap are those that were sent, in their places. -/
def BytesOf (x : Sent) (h : LiveHeap) : Prop :=
  ∀ i, InRanges h.reportedRanges i → ∃ b, h.payload[i]? = some (some b) ∧ x.payload[i]? = some b

end Spead2.Spec

import Verif.Model.ChunkRecv
import Verif.Spec.Stream
import Verif.Spec.ChunkStream

/-!
# Specification of receiving into chunks
-/

namespace Spead2.Spec

/-- The operations of the underlying stream. -/
def ChunkBatchOp.plain : ChunkBatchOp → BatchOp
  | .packet p _ => .packet p
  | .stop => .stop

/-- The operation of the underlying stream, if it is one. -/
def plainOp : ChunkRecvOp → List StreamOp
  | .batch l => [.batch (l.map ChunkBatchOp.plain)]
  | .flush => [.flush]
  | .flushChunks => []
  | .stop => [.stop]

/-- The same history for a stream without chunks. -/
def plainOps (ops : List ChunkRecvOp) : List StreamOp := ops.flatMap plainOp

/-- The packets offered by an operation, each with the answer of the place callback. -/
def batchOffers (l : List ChunkBatchOp) : List (Pkt × Place) :=
  l.filterMap (fun b => match b with | .packet p pl => some (p, pl) | .stop => none)

/-- The packets offered during a history. -/
def offers (ops : List ChunkRecvOp) : List (Pkt × Place) :=
  ops.flatMap (fun o => match o with | .batch l => batchOffers l | _ => [])

/-- What the user's place callback guarantees about a packet: chunk ids are 64-bit, and if the heap is put into a chunk
that the user supplies, then the heap, its extra data and all its flags are inside the arrays of the chunk. -/
structure GoodPlace (cfg : ChunkConfig) (p : Pkt) (pl : Place) : Prop where
  id : pl.chunkId < 2 ^ 63
  extra : pl.Supplied cfg → pl.extraOffset + pl.extra.length ≤ cfg.extraSize pl.chunkId.toNat
  data : pl.Supplied cfg → ∀ len, p.heapLength = some len → pl.heapOffset + len ≤ cfg.dataSize pl.chunkId.toNat
  flag : pl.Supplied cfg → cfg.presenceSize = 0 → pl.heapIndex < cfg.presentSize pl.chunkId.toNat
  flags : pl.Supplied cfg → cfg.presenceSize ≠ 0 → ∀ len, p.heapLength = some len → ∀ off, off < len →
    pl.heapIndex + off / cfg.presenceSize < cfg.presentSize pl.chunkId.toNat

/-- A history with packets as `decode_packet` delivers them and a correct place callback. -/
def GoodHistory (cfg : ChunkConfig) (ops : List ChunkRecvOp) : Prop :=
  ∀ x ∈ offers ops, PktValid x.1 ∧ GoodPlace cfg x.1 x.2

/-- The heap was placed at `pl`: the place callback's answer for its first packet. -/
def PlacedAt (ops : List ChunkRecvOp) (e : Entry) (pl : Place) : Prop :=
  ∃ p rest, e.pkts = p :: rest ∧ (p, pl) ∈ offers ops

/-- The byte last written to position `k` of the chunk with id `c`. -/
def lastWritten (c k : Nat) (tr : List ChunkEv) : Option UInt8 :=
  tr.reverse.findSome? (fun ev =>
    match ev with
    | .write ch off data => if ch.chunkId = c ∧ off ≤ k then data[k - off]? else none
    | _ => none)

/-- The calls made for heap `uid`. -/
def MemCall.uid? : MemCall → Option Nat
  | .place u _ => some u
  | .copy u _ _ => some u
  | .ready u _ => some u
  | .flush => none

/-- The calls made for one heap, in order. -/
def callsOf (uid : Nat) (cs : List MemCall) : List MemCall := cs.filter (fun c => MemCall.uid? c = some uid)

/-- Payload copies for the packets of a heap. -/
def copiesOf (uid : Nat) (ps : List Pkt) : List MemCall :=
  ps.filterMap (fun p => if p.payload = [] then none else some (.copy uid p.payloadOffset p.payload))

/-- What must have been called for a heap placed at `pl`: one allocation, if it has any payload, and then a copy for each
accepted packet with payload. -/
def memCalls (ooo : Bool) (pl : Place) (e : Entry) : List MemCall :=
  (if 0 < e.heap.heapLength.getD 0 then [.place e.uid pl] else []) ++ copiesOf e.uid (acceptedBy ooo e)

/-- The packets carry pieces of `want`, wherever the place callback puts their heap (unless it rejects it): chunk `c` is
meant to have byte `want c k` at position `k`. -/
def Consistent (want : Nat → Nat → UInt8) (ops : List ChunkRecvOp) : Prop :=
  ∀ x ∈ offers ops, 0 ≤ x.2.chunkId → ∀ y ∈ offers ops, x.1.heapCnt = y.1.heapCnt → ∀ (i : Nat) (b : UInt8), y.1.payload[i]? = some b →
    want x.2.chunkId.toNat (x.2.heapOffset + y.1.payloadOffset + i) = b

/-- The number of flags that were set. -/
def flagCount (tr : List ChunkEv) : Nat := tr.countP (fun ev => match ev with | .present _ _ => true | _ => false)

/-- The number of heaps that were counted as too old or rejected by the place callback. -/
def lossCount (tr : List ChunkEv) : Nat := tr.countP (fun ev => match ev with | .tooOld => true | .rejected => true | _ => false)

/-- A complete heap with payload. -/
def fullHeap (e : Entry) : Bool := e.heap.isComplete && decide (0 < e.heap.heapLength.getD 0)

end Spead2.Spec

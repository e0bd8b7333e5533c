import Verif.Spec.Stream

/-!
# Specification of orderly traffic

Which sequences of packets a stream can assemble without losing anything: a purely arithmetical condition on
the sequence, in terms of heap cnts, that does not mention the queues of the stream.
-/

namespace Spead2.Spec

/-- The heap that results from giving the packets `l` to a new heap, if that is defined. -/
def assemble (ooo : Bool) (l : List Pkt) : Option LiveHeap :=
  match l with
  | [] => none
  | p0 :: _ => ((LiveHeap.new p0).run ooo l).map Prod.fst

/-- The heap cnts in `l`, each once, in order of first appearance. -/
def cntsOf (l : List Pkt) : List Nat := (l.map Pkt.heapCnt).eraseDups

/-- The packets in `l` with heap cnt `c`. -/
def ofCnt (c : Nat) (l : List Pkt) : List Pkt := l.filter (fun q => q.heapCnt = c)

/-- The number of heaps of the same substream as heap cnt `c` that make their first appearance in `mid`, after
the packets `before`. -/
def begun (cfg : StreamConfig) (c : Nat) (before mid : List Pkt) : Nat :=
  ((cntsOf mid).filter (fun d => d % cfg.substreams = c % cfg.substreams ∧ d ∉ before.map Pkt.heapCnt)).length

/-- A sequence of packets that a stream with configuration `cfg` can assemble without loss. -/
structure Orderly (cfg : StreamConfig) (ps : List Pkt) : Prop where
  /-- the packets can occur -/
  valid : ∀ p ∈ ps, PktValid p
  /-- the stream accepts heaps without a length, or every packet says how long its heap is -/
  sized : cfg.allowUnsized = false → ∀ p ∈ ps, p.heapLength ≠ none
  /-- if order matters then the first packet of each heap is the one at its beginning -/
  opening : cfg.allowOoo = false → ∀ l1 p l2, ps = l1 ++ p :: l2 → p.heapCnt ∉ l1.map Pkt.heapCnt → p.payloadOffset = 0
  /-- a packet that holds a whole heap is the only one of its heap so far -/
  whole : ∀ l1 p l2, ps = l1 ++ p :: l2 → p.heapLength = some p.payload.length → p.heapCnt ∉ l1.map Pkt.heapCnt
  /-- nothing arrives for a heap that is complete already -/
  echo : ∀ l1 p l2 h, ps = l1 ++ p :: l2 → assemble cfg.allowOoo (ofCnt p.heapCnt l1) = some h → h.isComplete = false
  /-- between two packets of a heap, fewer than `maxHeaps` other heaps of its substream begin -/
  overlap : ∀ l1 p l2 q l3, ps = l1 ++ p :: l2 ++ q :: l3 → p.heapCnt = q.heapCnt →
    begun cfg p.heapCnt (l1 ++ [p]) l2 < cfg.maxHeaps
  /-- no packet ends the stream -/
  nostop : cfg.stopOnStopItem = true → ∀ p ∈ ps, ∀ x ∈ p.pointers, ¬ isStop p.hab x

/-- The operation is a batch of packets. -/
def isPackets : StreamOp → Prop
  | .batch l => ∀ b ∈ l, b ≠ .stop
  | _ => False

/-- All operations are batches of packets, and together they present `ps`. -/
def Presents (ops : List StreamOp) (ps : List Pkt) : Prop := (∀ op ∈ ops, isPackets op) ∧ presented ops = ps

/-- `e` is the heap that its packets among `ps` make. -/
def MadeOf (cfg : StreamConfig) (ps : List Pkt) (e : Entry) : Prop :=
  e.pkts = ofCnt e.heap.cnt ps ∧ assemble cfg.allowOoo (ofCnt e.heap.cnt ps) = some e.heap

end Spead2.Spec

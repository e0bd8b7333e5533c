import Verif.Model.Stream
import Verif.Model.ChunkStream

/-!
# Receiving into chunks, from packets on

Joins the model of a stream (`Model/Stream`) to that of the chunk layer (`Model/ChunkStream`): `class chunk_stream`
(include/spead2/recv_chunk_stream.h:560-600, src/recv_chunk_stream.cpp:254-286), which is a `stream` whose memory
allocator, packet copy function and `heap_ready` are those of the chunk layer. The stream does not see what they do (they
return memory that it never reads), so a run is described in two stages: the calls that the stream makes, in order, and
what the chunk layer does with them. Each packet comes with the answer the user's place callback gives if it is asked
about that packet.
-/

namespace Spead2

/-- What a stream calls. `uid` is the heap (the `live_heap` object) on behalf of which the call is made. -/
inductive MemCall
  /-- `memory_allocator::allocate`, and the answer of the place callback. -/
  | place (uid : Nat) (pl : Place)
  /-- `packet_memcpy`. -/
  | copy (uid off : Nat) (data : Bytes)
  /-- `heap_ready`. -/
  | ready (uid : Nat) (complete : Bool)
  /-- `flush_chunks`. -/
  | flush
  deriving DecidableEq, Repr

/-- `adjust_config` (include/spead2/recv_chunk_stream.h:702-716). -/
def StreamConfig.forChunks (cfg : StreamConfig) : StreamConfig := { cfg with allowUnsized := false }

/-- The allocation made by `live_heap::add_packet` (src/recv_live_heap.cpp:207-216 and 44-60) for heap `h`. The case
of a packet without heap length (lines 217-221) does not arise, because such packets are dropped. -/
def reserveCalls (uid : Nat) (h : LiveHeap) (p : Pkt) (pl : Place) : List MemCall :=
  match p.heapLength with
  | none => []
  | some len => if h.heapLength = none ∧ max h.minLength len > h.payload.length then [.place uid pl] else []

/-- The copy made by `live_heap::add_packet` (src/recv_live_heap.cpp:225-229). -/
def copyCalls (uid : Nat) (p : Pkt) : List MemCall :=
  if p.payload.length > 0 then [.copy uid p.payloadOffset p.payload] else []

/-- The calls of `live_heap::add_packet` for heap `h` (src/recv_live_heap.cpp:151-233): none unless the packet is
accepted. -/
def heapCalls (uid : Nat) (h : LiveHeap) (p : Pkt) (pl : Place) (accepted : Bool) : List MemCall :=
  if accepted then reserveCalls uid h p pl ++ copyCalls uid p else []

/-- Passing heaps to `heap_ready`. -/
def readyCalls (l : List Entry) : List MemCall := l.map (fun (e : Entry) => .ready e.uid e.heap.isComplete)

/-- The calls made by `stream_base::add_packet` (src/recv_stream.cpp:476-565), given its result `r`: the evicted heap is
passed on before the new heap is constructed, and the packet's heap after the packet was added to it. -/
def Stream.packetCalls (cfg : StreamConfig) (s : Stream) (st : Batch) (p : Pkt) (pl : Place) (r : AddResult) : Option (List MemCall) :=
  if p.heapLength = none ∧ cfg.allowUnsized = false then some []
  else do
    let found ← s.lookup cfg st p
    match found.1 with
    | some i =>
      let sl ← s.slots[i]?
      let e ← sl.heap
      some (heapCalls e.uid e.heap p pl r.accepted ++ readyCalls r.out)
    | none =>
      if cfg.allowOoo = false ∧ p.payloadOffset ≠ 0 then some []
      else
        let a ← s.advance cfg (cfg.substreamOf p.heapCnt)
        let ev ← a.1.eject cfg a.2
        some (readyCalls ev.2 ++ heapCalls s.created (LiveHeap.new p) p pl r.accepted ++ readyCalls (r.out.drop ev.2.length))

/-- What the holder of an `add_packet_state` does. -/
inductive ChunkBatchOp
  | packet (p : Pkt) (pl : Place) | stop
  deriving DecidableEq, Repr

/-- The body of a batch (see `Stream.batchLoop`), with the heaps passed to `heap_ready` and the calls. -/
def Stream.batchCalls (cfg : StreamConfig) : List ChunkBatchOp → Stream → Batch → Option (Stream × Batch × List Entry × List MemCall)
  | [], s, st => some (s, st, [], [])
  | op :: rest, s, st =>
    if st.stopped then some (s, st, [], [])
    else
      match op with
      | .stop => Stream.batchCalls cfg rest s { st with stopped := true }
      | .packet p pl => do
        let r ← s.addPacket cfg st p
        let c ← s.packetCalls cfg st p pl r
        let r' ← Stream.batchCalls cfg rest r.stream r.batch
        some (r'.1, r'.2.1, r.out ++ r'.2.2.1, c ++ r'.2.2.2)

/-- `chunk_stream::stop_received` (src/recv_chunk_stream.cpp:268-272) after `stream::stop_received` passed on `out`. -/
def stopCalls (out : List Entry) : List MemCall := readyCalls out ++ [.flush]

/-- A whole batch (src/recv_stream.cpp:440-474). -/
def Stream.wholeBatchCalls (cfg : StreamConfig) (s : Stream) (ops : List ChunkBatchOp) : Option (Stream × List Entry × List MemCall) :=
  if s.stopped then some (s, [], [])
  else do
    let r ← Stream.batchCalls cfg ops s {}
    let r' ← r.1.endBatch cfg r.2.1
    some (r'.1, r.2.2.1 ++ r'.2, r.2.2.2 ++ if r.2.1.stopped then stopCalls r'.2 else [])

/-- The operations of a chunk stream, each atomic. `chunk_stream::stop` (src/recv_chunk_stream.cpp:274-281) is `flushChunks`
followed, after other operations perhaps, by `stop`. -/
inductive ChunkRecvOp
  | batch (ops : List ChunkBatchOp) | flush | flushChunks | stop
  deriving DecidableEq, Repr

/-- One operation (src/recv_stream.cpp:594-618, src/recv_chunk_stream.cpp:263-281). -/
def Stream.callStep (cfg : StreamConfig) (s : Stream) : ChunkRecvOp → Option (Stream × List Entry × List MemCall)
  | .batch ops => s.wholeBatchCalls cfg ops
  | .flush => (s.flush cfg).map (fun r => (r.1, r.2, readyCalls r.2))
  | .flushChunks => some (s, [], [.flush])
  | .stop => if s.stopped then some (s, [], []) else (s.stopReceived cfg).map (fun r => (r.1, r.2, stopCalls r.2))

/-- A history of operations. -/
def Stream.callRun (cfg : StreamConfig) : List ChunkRecvOp → Stream → Option (Stream × List Entry × List MemCall)
  | [], s => some (s, [], [])
  | op :: rest, s => do
    let r ← s.callStep cfg op
    let r' ← Stream.callRun cfg rest r.1
    some (r'.1, r.2.1 ++ r'.2.1, r.2.2 ++ r'.2.2)

/-- The operation of the chunk layer for a call, when the heaps `mem` have an allocation (in the order of allocation): a
heap's allocation is found through its `payload` pointer (`get_heap_metadata`, src/recv_chunk_stream.cpp:217-221). A heap
without allocation has a null pointer: copying to it is undefined, and at its end it has no metadata (lines 199-202). -/
def MemCall.op? (mem : List Nat) : MemCall → Option (List ChunkOp)
  | .place _ pl => some [.allocate pl]
  | .copy uid off data => (mem.idxOf? uid).map (fun h => [.copy h off data])
  | .ready uid complete =>
    match mem.idxOf? uid with
    | none => some []
    | some h => some [.heapReady h complete]
  | .flush => some [.flush]

/-- The heap for which a call makes an allocation. -/
def MemCall.placed : MemCall → List Nat
  | .place uid _ => [uid]
  | _ => []

/-- The operations of the chunk layer for a sequence of calls. -/
def chunkOps : List Nat → List MemCall → Option (List ChunkOp)
  | _, [] => some []
  | mem, c :: cs => do
    let a ← c.op? mem
    let b ← chunkOps (mem ++ c.placed) cs
    some (a ++ b)

/-- The outcome of a history of a chunk stream: the state of the stream, the heaps passed to `heap_ready`, the calls,
the operations of the chunk layer, its state, and its observable effects. -/
structure ChunkRecv where
  stream : Stream
  heaps : List Entry
  calls : List MemCall
  ops : List ChunkOp
  chunks : ChunkStream
  trace : List ChunkEv

/-- A history of a chunk stream that was just constructed. `none`: undefined behaviour. -/
def ChunkRecv.run (cfg : StreamConfig) (ccfg : ChunkConfig) (ops : List ChunkRecvOp) : Option ChunkRecv := do
  let r ← Stream.callRun cfg.forChunks ops (Stream.new cfg.forChunks)
  let cops ← chunkOps [] r.2.2
  let c ← ChunkStream.run ccfg cops (ChunkStream.new ccfg)
  some ⟨r.1, r.2.1, r.2.2, cops, c.1, c.2⟩

end Spead2

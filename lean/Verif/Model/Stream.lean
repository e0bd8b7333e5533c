import Verif.Model.LiveHeap

/-!
# Receive stream

Models `stream_base` in src/recv_stream.cpp and include/spead2/recv_stream.h: the circular queues of live
heaps (one per substream), the chained hash table, `add_packet`, batches, flush, stop and the built-in
statistics. Every operation holds `queue_mutex` from start to end (recv_stream.cpp:440-441,596,606), so any
concurrent execution is a sequence of these operations. Counters are natural numbers (no wrap-around at
2^64). `heap_ready` is modelled by the list of heaps it is called with; it is assumed to return and not to
throw. Undefined behaviour (indices out of range, failed assertions, use of an entry in the wrong state) is
`none`.
-/

namespace Spead2

/-- A `queue_entry *`, including the special value `INVALID_ENTRY`. -/
inductive Link
  | invalid | null | entry (i : Nat)
  deriving DecidableEq, Repr

/-- A live heap in the queue. Only `heap` exists in the code; `uid` (a serial number) and `pkts` (the
packets passed to this heap's `add_packet`, in order) are ghost fields for stating properties. -/
structure Entry where
  uid : Nat
  pkts : List Pkt
  heap : LiveHeap
  deriving DecidableEq, Repr

/-- `struct queue_entry` (include/spead2/recv_stream.h:545-552). `heap` is `none` while the storage is not
constructed. -/
structure Slot where
  next : Link := .invalid
  heap : Option Entry := none
  deriving DecidableEq, Repr

/-- The parts of `stream_config` (include/spead2/recv_stream.h:267-460) that the stream core uses. -/
structure StreamConfig where
  maxHeaps : Nat
  substreams : Nat
  allowUnsized : Bool := true
  allowOoo : Bool := false
  stopOnStopItem : Bool := true
  deriving DecidableEq, Repr

/-- The built-in statistics (src/recv_stream.cpp:100-117), without `worker_blocked`. -/
structure StreamStats where
  heaps : Nat := 0
  evicted : Nat := 0
  flushed : Nat := 0
  packets : Nat := 0
  batches : Nat := 0
  maxBatch : Nat := 0
  single : Nat := 0
  searchDist : Nat := 0
  deriving DecidableEq, Repr

/-- `class stream_base` (include/spead2/recv_stream.h:538-650). `heads[i]` is `substreams[i].head`;
`substreams[i].start` is `i * max_heaps` (recv_stream.cpp:394-398). `created` is ghost: the number of heaps
constructed so far. `stopped` stands for both `stopped` and `shared->self == nullptr`, which change
together (recv_stream.cpp:612-618). -/
structure Stream where
  slots : List Slot
  buckets : List Link
  heads : List Nat
  stopped : Bool := false
  stats : StreamStats := {}
  created : Nat := 0
  deriving DecidableEq, Repr

/-- The loop of `compute_bucket_count` (src/recv_stream.cpp:223-225); `fuel` bounds the iterations. -/
def bucketLoop (total : Nat) : Nat → Nat → Nat
  | 0, b => b
  | fuel + 1, b => if b < total then bucketLoop total fuel (b * 2) else b

/-- `compute_bucket_count` (src/recv_stream.cpp:221-228). -/
def computeBucketCount (total : Nat) : Nat := bucketLoop total total 4 * 4

/-- The loop of `compute_bucket_shift` (src/recv_stream.cpp:236-240); `fuel` bounds the iterations. -/
def shiftLoop : Nat → Nat → Nat → Nat
  | 0, _, shift => shift
  | fuel + 1, b, shift => if b > 1 then shiftLoop fuel (b >>> 1) (shift - 1) else shift

/-- `compute_bucket_shift` (src/recv_stream.cpp:233-242). -/
def computeBucketShift (bucketCount : Nat) : Nat := shiftLoop bucketCount bucketCount 64

/-- Number of hash buckets (src/recv_stream.cpp:380). -/
def StreamConfig.bucketCount (cfg : StreamConfig) : Nat := computeBucketCount (cfg.maxHeaps * cfg.substreams)

/-- `get_bucket` (src/recv_stream.cpp:414-418): 64-bit multiplication, then shift. -/
def StreamConfig.bucketOf (cfg : StreamConfig) (cnt : Nat) : Nat :=
  (cnt * 11400714819323198485 % 2 ^ 64) >>> computeBucketShift cfg.bucketCount

/-- `get_substream` (src/recv_stream.cpp:420-424); libdivide's division is taken to be exact. -/
def StreamConfig.substreamOf (cfg : StreamConfig) (cnt : Nat) : Nat :=
  cnt - cnt / cfg.substreams * cfg.substreams

/-- `substreams[i].start` (src/recv_stream.cpp:396). -/
def StreamConfig.start (cfg : StreamConfig) (i : Nat) : Nat := i * cfg.maxHeaps

/-- Constructor (src/recv_stream.cpp:378-399). -/
def Stream.new (cfg : StreamConfig) : Stream where
  slots := List.replicate (cfg.maxHeaps * cfg.substreams) {}
  buckets := List.replicate cfg.bucketCount .null
  heads := (List.range (cfg.substreams + 1)).map cfg.start

/-- A `queue_entry **`: the head of a bucket or the `next` field of an entry. -/
inductive LinkRef
  | bucket (b : Nat) | next (i : Nat)
  deriving DecidableEq, Repr

/-- `*prev`. -/
def Stream.deref (s : Stream) : LinkRef → Option Link
  | .bucket b => s.buckets[b]?
  | .next i => s.slots[i]?.map Slot.next

/-- Assignment to the `next` field of an entry. -/
def Stream.setNext (s : Stream) (i : Nat) (l : Link) : Option Stream :=
  match s.slots[i]? with
  | none => none
  | some sl => some { s with slots := s.slots.set i { sl with next := l } }

/-- `*prev = l`. -/
def Stream.store (s : Stream) (r : LinkRef) (l : Link) : Option Stream :=
  match r with
  | .bucket b => if b < s.buckets.length then some { s with buckets := s.buckets.set b l } else none
  | .next i => s.setNext i l

/-- The loop of `unlink_entry` (src/recv_stream.cpp:430-435): the reference that holds `target`. -/
def Stream.unlinkLoop (s : Stream) (target : Nat) : Nat → LinkRef → Option LinkRef
  | 0, _ => none
  | fuel + 1, r =>
    match s.deref r with
    | some (.entry i) => if i = target then some r else s.unlinkLoop target fuel (.next i)
    | _ => none

/-- `unlink_entry` (src/recv_stream.cpp:426-438). A chain has at most as many members as there are slots,
so the iteration bound is only reached by an endless loop. -/
def Stream.unlink (cfg : StreamConfig) (s : Stream) (i : Nat) : Option Stream := do
  let sl ← s.slots[i]?
  let e ← sl.heap
  let r ← s.unlinkLoop i (s.slots.length + 1) (.bucket (cfg.bucketOf e.heap.cnt))
  let s ← s.store r sl.next
  s.setNext i .invalid

/-- The search loop of `add_packet` (src/recv_stream.cpp:500-506): the entry found, and `search_dist`. -/
def Stream.search (s : Stream) (cnt : Nat) : Nat → Link → Nat → Option (Option Nat × Nat)
  | 0, _, _ => none
  | fuel + 1, l, dist =>
    match l with
    | .null => some (none, dist)
    | .invalid => none
    | .entry i =>
      match s.slots[i]? with
      | some ⟨next, some e⟩ => if e.heap.cnt = cnt then some (some i, dist) else s.search cnt fuel next (dist + 1)
      | _ => none

/-- `entry->heap.destroy()`. -/
def Stream.destroy (s : Stream) (i : Nat) : Option Stream :=
  match s.slots[i]? with
  | some ⟨next, some _⟩ => some { s with slots := s.slots.set i ⟨next, none⟩ }
  | _ => none

/-- Assign to an existing live heap (the in-place effect of `live_heap::add_packet`). -/
def Stream.putHeap (s : Stream) (i : Nat) (e : Entry) : Option Stream :=
  match s.slots[i]? with
  | some ⟨next, some _⟩ => some { s with slots := s.slots.set i ⟨next, some e⟩ }
  | _ => none

/-- Advance a substream's head (src/recv_stream.cpp:527-528, 578-579). -/
def Stream.advance (cfg : StreamConfig) (s : Stream) (sub : Nat) : Option (Stream × Nat) := do
  let h ← s.heads[sub]?
  let h' := if h + 1 = cfg.start (sub + 1) then cfg.start sub else h + 1
  some ({ s with heads := s.heads.set sub h' }, h')

/-- Remove the heap of entry `i`, if it has one, and pass it to `heap_ready`
(src/recv_stream.cpp:530-536, 581-587). -/
def Stream.eject (cfg : StreamConfig) (s : Stream) (i : Nat) : Option (Stream × List Entry) := do
  let sl ← s.slots[i]?
  if sl.next = .invalid then some (s, [])
  else
    let s ← s.unlink cfg i
    let e ← sl.heap
    let s ← s.destroy i
    some (s, [e])

/-- Link a free entry into its bucket and construct its heap (src/recv_stream.cpp:537-539). -/
def Stream.construct (cfg : StreamConfig) (s : Stream) (i : Nat) (p : Pkt) : Option Stream := do
  let l ← s.buckets[cfg.bucketOf p.heapCnt]?
  let s ← s.setNext i l
  let s ← s.store (.bucket (cfg.bucketOf p.heapCnt)) (.entry i)
  match s.slots[i]? with
  | some ⟨next, none⟩ =>
    some { s with slots := s.slots.set i ⟨next, some ⟨s.created, [], LiveHeap.new p⟩⟩, created := s.created + 1 }
  | _ => none

/-- The members of `add_packet_state` (include/spead2/recv_stream.h:715-729). -/
structure Batch where
  packets : Nat := 0
  complete : Nat := 0
  evicted : Nat := 0
  single : Nat := 0
  searchDist : Nat := 0
  stopped : Bool := false
  deriving DecidableEq, Repr

/-- What `add_packet` does: new state, batch counters, heaps passed to `heap_ready`, return value. -/
structure AddResult where
  stream : Stream
  batch : Batch
  out : List Entry
  accepted : Bool
  deriving DecidableEq, Repr

/-- Second half of `add_packet` (src/recv_stream.cpp:542-564): give the packet to the heap of entry `i`.
`out` is what was passed to `heap_ready` before. -/
def Stream.deliver (cfg : StreamConfig) (s : Stream) (st : Batch) (out : List Entry) (i : Nat) (p : Pkt) : Option AddResult := do
  let sl ← s.slots[i]?
  let e ← sl.heap
  let r ← e.heap.addPacket p cfg.allowOoo
  let e' : Entry := { e with pkts := e.pkts ++ [p], heap := r.1 }
  let s ← s.putHeap i e'
  if r.2 then
    let eos := cfg.stopOnStopItem && r.1.endOfStream
    let st' := if eos then { st with stopped := true } else st
    if r.1.isComplete then
      let s ← s.unlink cfg i
      let s ← s.destroy i
      if eos then some ⟨s, st', out, true⟩
      else some ⟨s, { st' with complete := st'.complete + 1 }, out ++ [e'], true⟩
    else some ⟨s, st', out, true⟩
  else some ⟨s, st, out, false⟩

/-- The lookup in `add_packet` (src/recv_stream.cpp:488-507): the entry of the packet's heap, if there is
one. A packet that holds a whole heap is not looked up. -/
def Stream.lookup (cfg : StreamConfig) (s : Stream) (st : Batch) (p : Pkt) : Option (Option Nat × Batch) :=
  if p.heapLength = some p.payload.length then some (none, { st with single := st.single + 1 })
  else do
    let l ← s.buckets[cfg.bucketOf p.heapCnt]?
    let r ← s.search p.heapCnt (s.slots.length + 1) l 1
    some (r.1, { st with searchDist := st.searchDist + r.2 })

/-- `stream_base::add_packet` (src/recv_stream.cpp:476-565). -/
def Stream.addPacket (cfg : StreamConfig) (s : Stream) (st0 : Batch) (p : Pkt) : Option AddResult :=
  let st := { st0 with packets := st0.packets + 1 }
  if p.heapLength = none ∧ cfg.allowUnsized = false then some ⟨s, st, [], false⟩
  else do
    let found ← s.lookup cfg st p
    match found.1 with
    | some i => s.deliver cfg found.2 [] i p
    | none =>
      if cfg.allowOoo = false ∧ p.payloadOffset ≠ 0 then some ⟨s, found.2, [], false⟩
      else
        let a ← s.advance cfg (cfg.substreamOf p.heapCnt)
        let ev ← a.1.eject cfg a.2
        let s ← ev.1.construct cfg a.2 p
        s.deliver cfg { found.2 with evicted := found.2.evicted + ev.2.length } ev.2 a.2 p

/-- The inner loop of `flush_unlocked` (src/recv_stream.cpp:576-588): `n` more entries of substream `sub`. -/
def Stream.flushSub (cfg : StreamConfig) (sub : Nat) : Nat → Stream → Option (Stream × List Entry)
  | 0, s => some (s, [])
  | n + 1, s => do
    let a ← s.advance cfg sub
    let ev ← a.1.eject cfg a.2
    let r ← Stream.flushSub cfg sub n ev.1
    some (r.1, ev.2 ++ r.2)

/-- The outer loop (src/recv_stream.cpp:571-589), over the given substreams. -/
def Stream.flushSubs (cfg : StreamConfig) : List Nat → Stream → Option (Stream × List Entry)
  | [], s => some (s, [])
  | i :: rest, s => do
    let r ← Stream.flushSub cfg i cfg.maxHeaps s
    let r' ← Stream.flushSubs cfg rest r.1
    some (r'.1, r.2 ++ r'.2)

/-- `flush_unlocked` (src/recv_stream.cpp:567-592). -/
def Stream.flush (cfg : StreamConfig) (s : Stream) : Option (Stream × List Entry) := do
  let r ← Stream.flushSubs cfg (List.range cfg.substreams) s
  let st := r.1.stats
  some ({ r.1 with stats := { st with heaps := st.heaps + r.2.length, flushed := st.flushed + r.2.length } }, r.2)

/-- `stop_received` (src/recv_stream.cpp:612-618). -/
def Stream.stopReceived (cfg : StreamConfig) (s : Stream) : Option (Stream × List Entry) :=
  if s.stopped then none else Stream.flush cfg { s with stopped := true }

/-- `stop` (src/recv_stream.cpp:600-610). -/
def Stream.stop (cfg : StreamConfig) (s : Stream) : Option (Stream × List Entry) :=
  if s.stopped then some (s, []) else s.stopReceived cfg

/-- What the holder of an `add_packet_state` does: pass a packet, or signal the end of the stream. -/
inductive BatchOp
  | packet (p : Pkt) | stop
  deriving DecidableEq, Repr

/-- The body of a batch. The holder must check `is_stopped` before each packet (include/spead2/recv_stream.h:
731-745; all callers do), so operations after a stop are skipped. -/
def Stream.batchLoop (cfg : StreamConfig) : List BatchOp → Stream → Batch → Option (Stream × Batch × List Entry)
  | [], s, st => some (s, st, [])
  | op :: rest, s, st =>
    if st.stopped then some (s, st, [])
    else
      match op with
      | .stop => Stream.batchLoop cfg rest s { st with stopped := true }
      | .packet p => do
        let r ← s.addPacket cfg st p
        let r' ← Stream.batchLoop cfg rest r.stream r.batch
        some (r'.1, r'.2.1, r.out ++ r'.2.2)

/-- Adding the counters of a batch to the statistics (src/recv_stream.cpp:463-472). -/
def StreamStats.addBatch (x : StreamStats) (st : Batch) : StreamStats :=
  { x with
      packets := x.packets + st.packets
      batches := x.batches + 1
      heaps := x.heaps + (st.complete + st.evicted)
      evicted := x.evicted + st.evicted
      single := x.single + st.single
      searchDist := x.searchDist + st.searchDist
      maxBatch := max x.maxBatch st.packets }

/-- The destructor of `add_packet_state` (src/recv_stream.cpp:454-474) for a stream that was not stopped
when the batch began. -/
def Stream.endBatch (cfg : StreamConfig) (s : Stream) (st : Batch) : Option (Stream × List Entry) := do
  let r ← (if st.stopped then s.stopReceived cfg else some (s, []))
  if st.packets = 0 ∧ st.stopped = true then some r
  else some ({ r.1 with stats := r.1.stats.addBatch st }, r.2)

/-- A whole batch: constructor (src/recv_stream.cpp:440-452), body, destructor. On a stopped stream nothing
happens. -/
def Stream.batch (cfg : StreamConfig) (s : Stream) (ops : List BatchOp) : Option (Stream × List Entry) :=
  if s.stopped then some (s, [])
  else do
    let r ← Stream.batchLoop cfg ops s {}
    let r' ← r.1.endBatch cfg r.2.1
    some (r'.1, r.2.2 ++ r'.2)

/-- The operations of a stream, each atomic. -/
inductive StreamOp
  | batch (ops : List BatchOp) | flush | stop
  deriving DecidableEq, Repr

/-- One operation: new state and heaps handed over. -/
def Stream.step (cfg : StreamConfig) (s : Stream) : StreamOp → Option (Stream × List Entry)
  | .batch ops => s.batch cfg ops
  | .flush => s.flush cfg
  | .stop => s.stop cfg

/-- A history of operations. -/
def Stream.run (cfg : StreamConfig) : List StreamOp → Stream → Option (Stream × List Entry)
  | [], s => some (s, [])
  | op :: rest, s => do
    let r ← s.step cfg op
    let r' ← Stream.run cfg rest r.1
    some (r'.1, r.2 ++ r'.2)

end Spead2

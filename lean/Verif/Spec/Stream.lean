import Verif.Model.Stream
import Verif.Spec.LiveHeap

/-!
# Specification of a receive stream

An abstract stream without slots, hash table or counters: the live heaps in order of creation (newest
first), each with its substream and its serial number within that substream, and how many heaps each
substream has started.
-/

namespace Spead2.Spec

/-- A heap being assembled: the `seq`-th heap of substream `sub`. -/
structure LiveRec where
  sub : Nat
  seq : Nat
  entry : Entry
  deriving DecidableEq, Repr

/-- State of the abstract stream. -/
structure AStream where
  live : List LiveRec := []
  started : Nat → Nat := fun _ => 0
  created : Nat := 0
  stopped : Bool := false

/-- The live heap a packet belongs to: the newest one with its heap cnt. A packet that carries a whole heap
belongs to none. -/
def AStream.find (a : AStream) (p : Pkt) : Option LiveRec :=
  if p.heapLength = some p.payload.length then none else a.live.find? (fun r => r.entry.heap.cnt = p.heapCnt)

/-- The heap that must go when substream `sub` starts another heap: the one started `maxHeaps` starts ago,
if it is still live. -/
def AStream.victim (cfg : StreamConfig) (a : AStream) (sub : Nat) : Option LiveRec :=
  a.live.find? (fun r => r.sub = sub ∧ r.seq + cfg.maxHeaps = a.started sub)

/-- Remove a heap. -/
def AStream.remove (a : AStream) (r : LiveRec) : AStream :=
  { a with live := a.live.filter (fun x => ¬ (x.sub = r.sub ∧ x.seq = r.seq)) }

/-- Replace the contents of a heap. -/
def AStream.update (a : AStream) (r : LiveRec) (e : Entry) : AStream :=
  { a with live := a.live.map (fun x => if x.sub = r.sub ∧ x.seq = r.seq then { x with entry := e } else x) }

/-- Remove the victim, if any. -/
def AStream.evict (cfg : StreamConfig) (a : AStream) (sub : Nat) : AStream :=
  match a.victim cfg sub with
  | none => a
  | some v => a.remove v

/-- Remove the victim, if any, and start a heap for `p`. -/
def AStream.startHeap (cfg : StreamConfig) (a : AStream) (p : Pkt) : AStream × LiveRec :=
  let sub := p.heapCnt % cfg.substreams
  let a' := a.evict cfg sub
  let r : LiveRec := ⟨sub, a.started sub, ⟨a.created, [], LiveHeap.new p⟩⟩
  ({ a' with live := r :: a'.live, started := fun i => if i = sub then a.started sub + 1 else a.started i,
             created := a.created + 1 }, r)

/-- Effect of a packet: new state, heaps handed over because they were evicted, heaps handed over because
they are complete, whether the packet was accepted, whether it ended the stream. -/
structure AResult where
  stream : AStream
  evicted : List Entry := []
  completed : List Entry := []
  accepted : Bool := false
  ended : Bool := false

/-- Give a packet to a live heap. A complete heap is handed over, unless it ends the stream. -/
def AStream.deliver (cfg : StreamConfig) (a : AStream) (evicted : List Entry) (r : LiveRec) (p : Pkt) : Option AResult :=
  match r.entry.heap.addPacket p cfg.allowOoo with
  | none => none
  | some (h, accepted) =>
    let e : Entry := { r.entry with pkts := r.entry.pkts ++ [p], heap := h }
    let ends := accepted && cfg.stopOnStopItem && h.endOfStream
    if accepted && h.isComplete then
      some ⟨a.remove r, evicted, if ends then [] else [e], true, ends⟩
    else some ⟨a.update r e, evicted, [], accepted, ends⟩

/-- Receive a packet. -/
def AStream.addPacket (cfg : StreamConfig) (a : AStream) (p : Pkt) : Option AResult :=
  if p.heapLength = none ∧ cfg.allowUnsized = false then some { stream := a }
  else
    match a.find p with
    | some r => a.deliver cfg [] r p
    | none =>
      if cfg.allowOoo = false ∧ p.payloadOffset ≠ 0 then some { stream := a }
      else
        let n := a.startHeap cfg p
        n.1.deliver cfg ((a.victim cfg (p.heapCnt % cfg.substreams)).toList.map LiveRec.entry) n.2 p

/-- The heaps handed over by a flush: substream by substream, oldest first. -/
def AStream.flushed (cfg : StreamConfig) (a : AStream) : List Entry :=
  (List.range cfg.substreams).flatMap (fun i => ((a.live.filter (fun r => r.sub = i)).reverse).map LiveRec.entry)

/-- Forget all live heaps. -/
def AStream.clear (a : AStream) : AStream := { a with live := [] }

/-- What can be observed of a stream, in order: a packet is presented, a heap is handed over (with the
reason), a batch of `n` packets ends. -/
inductive Ev
  | packet (p : Pkt) (accepted : Bool)
  | evicted (e : Entry)
  | completed (e : Entry)
  | flushed (e : Entry)
  | batch (n : Nat)
  deriving DecidableEq, Repr

/-- A packet is presented. -/
def Ev.isPacket : Ev → Bool | .packet _ _ => true | _ => false
/-- A packet that holds a whole heap is presented. -/
def Ev.isSingle : Ev → Bool | .packet p _ => decide (p.heapLength = some p.payload.length) | _ => false
/-- A heap is handed over to make room. -/
def Ev.isEvicted : Ev → Bool | .evicted _ => true | _ => false
/-- A heap is handed over because it is complete. -/
def Ev.isCompleted : Ev → Bool | .completed _ => true | _ => false
/-- A heap is handed over by a flush or stop. -/
def Ev.isFlushed : Ev → Bool | .flushed _ => true | _ => false
/-- A batch ends. -/
def Ev.isBatch : Ev → Bool | .batch _ => true | _ => false
/-- The heap handed over. -/
def Ev.heap? : Ev → Option Entry | .evicted e => some e | .completed e => some e | .flushed e => some e | _ => none
/-- The accepted packet. -/
def Ev.accepted? : Ev → Option Pkt | .packet p true => some p | _ => none
/-- The packet presented. -/
def Ev.packet? : Ev → Option Pkt | .packet p _ => some p | _ => none
/-- The number of packets in the batch that ends. -/
def Ev.batch? : Ev → Option Nat | .batch n => some n | _ => none

/-- The events of one packet. -/
def AResult.events (p : Pkt) (r : AResult) : List Ev :=
  .packet p r.accepted :: (r.evicted.map .evicted ++ r.completed.map .completed)

/-- Packets in a trace. -/
def packetCount (t : List Ev) : Nat := t.countP Ev.isPacket

/-- Present packets until the end of the stream is signalled: the state, the events, and whether the stream
ended. -/
def AStream.packets (cfg : StreamConfig) : List BatchOp → AStream → Option (AStream × List Ev × Bool)
  | [], a => some (a, [], false)
  | .stop :: _, a => some (a, [], true)
  | .packet p :: rest, a =>
    match a.addPacket cfg p with
    | none => none
    | some r =>
      if r.ended then some (r.stream, r.events p, true)
      else
        match AStream.packets cfg rest r.stream with
        | none => none
        | some (a', t, e) => some (a', r.events p ++ t, e)

/-- Stop: hand over what is live. -/
def AStream.halt (cfg : StreamConfig) (a : AStream) : AStream × List Ev :=
  ({ a with live := [], stopped := true }, (a.flushed cfg).map .flushed)

/-- The event that ends a batch; a batch that only stops the stream is not counted. -/
def batchEvent (n : Nat) (ended : Bool) : List Ev := if n = 0 ∧ ended = true then [] else [.batch n]

/-- One operation. A stopped stream ignores batches; `flush` remains possible. -/
def AStream.step (cfg : StreamConfig) (a : AStream) : StreamOp → Option (AStream × List Ev)
  | .batch ops =>
    if a.stopped then some (a, [])
    else
      match AStream.packets cfg ops a with
      | none => none
      | some (a', t, false) => some (a', t ++ batchEvent (packetCount t) false)
      | some (a', t, true) => some ((a'.halt cfg).1, t ++ (a'.halt cfg).2 ++ batchEvent (packetCount t) true)
  | .flush => some (a.clear, (a.flushed cfg).map .flushed)
  | .stop => if a.stopped then some (a, []) else some (a.halt cfg)

/-- A history of operations. -/
def AStream.run (cfg : StreamConfig) : List StreamOp → AStream → Option (AStream × List Ev)
  | [], a => some (a, [])
  | op :: rest, a =>
    match a.step cfg op with
    | none => none
    | some (a', t) =>
      match AStream.run cfg rest a' with
      | none => none
      | some (a'', t') => some (a'', t ++ t')

/-- The heaps handed over in a trace, in order. -/
def handedOver (t : List Ev) : List Entry :=
  t.filterMap Ev.heap?

/-- Number of packets in the largest batch of a trace. -/
def largestBatch (t : List Ev) : Nat := (t.filterMap Ev.batch?).foldr max 0

/-- The statistics that a trace should give (the search distance, which depends on the hash table, is
taken from the argument). -/
def statsOf (t : List Ev) (searchDist : Nat) : StreamStats where
  heaps := (handedOver t).length
  evicted := t.countP Ev.isEvicted
  flushed := t.countP Ev.isFlushed
  packets := packetCount t
  batches := t.countP Ev.isBatch
  maxBatch := largestBatch t
  single := t.countP Ev.isSingle
  searchDist := searchDist

/-- The packets that a heap accepted, out of those it was given. -/
def acceptedBy (ooo : Bool) (e : Entry) : List Pkt :=
  match e.pkts with
  | [] => []
  | p0 :: _ => (((LiveHeap.new p0).run ooo e.pkts).map Prod.snd).getD []

/-- The heap is the result of giving its packets, all with its heap cnt, to a new heap. -/
def Assembled (ooo : Bool) (e : Entry) : Prop :=
  ∃ p0 rest acc, e.pkts = p0 :: rest ∧ (∀ q ∈ e.pkts, q.heapCnt = e.heap.cnt) ∧
    (LiveHeap.new p0).run ooo e.pkts = some (e.heap, acc)

/-- The heaps a stream is assembling. -/
def liveHeaps (s : Stream) : List Entry := s.slots.filterMap Slot.heap

/-- All packets of a batch are within the range that packets of the wire format can have. -/
def OpsValid (ops : List BatchOp) : Prop := ∀ p, BatchOp.packet p ∈ ops → PktValid p

/-- All packets of an operation are valid. -/
def _root_.Spead2.StreamOp.Valid : StreamOp → Prop
  | .batch ops => OpsValid ops
  | _ => True

/-- A new stream gets to state `s`, possibly in the middle of a batch, after handing over `hist`. -/
def Reachable (cfg : StreamConfig) (s : Stream) (hist : List Entry) : Prop :=
  ∃ ops ps s0 out st out', (∀ op ∈ ops, op.Valid) ∧ OpsValid ps ∧ Stream.run cfg ops (Stream.new cfg) = some (s0, out) ∧
    (s0.stopped = true → ps = []) ∧ Stream.batchLoop cfg ps s0 {} = some (s, st, out') ∧ hist = out ++ out'

/-- How many heaps of the same substream in `all` were started after `e`. -/
def newer (cfg : StreamConfig) (all : List Entry) (e : Entry) : Nat :=
  all.countP (fun x => decide (x.heap.cnt % cfg.substreams = e.heap.cnt % cfg.substreams) && decide (e.uid < x.uid))

/-- The packets of a batch. -/
def batchPackets (l : List BatchOp) : List Pkt := l.filterMap (fun b => match b with | .packet p => some p | .stop => none)

/-- The packets of a history. -/
def presented (ops : List StreamOp) : List Pkt :=
  ops.flatMap (fun op => match op with | .batch l => batchPackets l | _ => [])

/-- The numbers of packets in the batches of a history. -/
def batchSizes (ops : List StreamOp) : List Nat :=
  ops.filterMap (fun op => match op with | .batch l => some (batchPackets l).length | _ => none)

end Spead2.Spec

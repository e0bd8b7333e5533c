import Verif.Model.Stream
import Verif.Model.Descriptor

/-!
# Packets in memory, and descriptors of a heap

Models `mem_to_stream` (src/recv_stream.cpp:694-722) and `heap::get_descriptors` (src/recv_heap.cpp:276-319).
-/

namespace Spead2

/-- The loop of `mem_to_stream` (src/recv_stream.cpp:694-711) on the bytes `d` that remain: the stream, the
batch state, the heaps handed over, and the number of bytes that `ptr` advances. The first argument bounds the
number of iterations; running out of it is reported as `none`. -/
def memLoop (cfg : StreamConfig) : Nat → Bytes → Stream → Batch → Option (Stream × Batch × List Entry × Nat)
  | 0, _, _, _ => none
  | k + 1, d, s, st =>
    if d.length > 0 ∧ st.stopped = false then
      match decodePacket d with
      | none => none
      | some none => some (s, st, [], 0)
      | some (some (h, size)) =>
        match h.toPkt? d with
        | none => none
        | some p =>
          match s.addPacket cfg st p with
          | none => none
          | some r =>
            match memLoop cfg k (d.drop size) r.stream r.batch with
            | none => none
            | some (s', st', out, n) => some (s', st', r.out ++ out, size + n)
    else some (s, st, [], 0)

/-- `mem_to_stream(stream_base &, ptr, length)` (src/recv_stream.cpp:713-717): one batch. On a stopped stream
the state is stopped from the start and nothing is read. Returns the number of bytes consumed. -/
def memToStream (cfg : StreamConfig) (s : Stream) (d : Bytes) : Option (Stream × List Entry × Nat) :=
  if s.stopped then some (s, [], 0)
  else
    match memLoop cfg (d.length + 1) d s {} with
    | none => none
    | some (s', st, out, n) =>
      match s'.endBatch cfg st with
      | none => none
      | some (s'', out') => some (s'', out ++ out', n)

/-- The configuration of the stream in `get_descriptors` (src/recv_heap.cpp:304-306); the other settings have
their defaults (include/spead2/recv_stream.h:338-357). -/
def descriptorConfig : StreamConfig where
  maxHeaps := 1
  substreams := 1
  allowUnsized := true
  allowOoo := false
  stopOnStopItem := true

/-- `descriptor_stream::heap_ready` (src/recv_heap.cpp:288-300): the descriptors pushed. -/
def descriptorReady (bc : Nat) (h : LiveHeap) : Option (List Descriptor) :=
  if h.isContiguous then
    match h.load true with
    | none => none
    | some items =>
      match toDescriptor h.hab bc items with
      | none => none
      | some d => some (if d.id ≠ 0 then [d] else [])
  else some []

/-- `heap_ready` for each heap handed over, in order. -/
def descriptorsReady (bc : Nat) : List Entry → Option (List Descriptor)
  | [] => some []
  | e :: es =>
    match descriptorReady bc e.heap, descriptorsReady bc es with
    | some l, some r => some (l ++ r)
    | _, _ => none

/-- The loop of `get_descriptors` (src/recv_heap.cpp:308-315) and the final `stop` (line 316). Reading an
uninitialised byte of an item is undefined behaviour. -/
def descriptorLoop (bc : Nat) : List RxItem → Stream → Option (List Descriptor)
  | [], s =>
    match s.stop descriptorConfig with
    | none => none
    | some (_, out) => descriptorsReady bc out
  | it :: rest, s =>
    if it.id = DESCRIPTOR_ID then
      match it.data.mapM id with
      | none => none
      | some bytes =>
        match memToStream descriptorConfig s bytes with
        | none => none
        | some (s1, out1, _) =>
          match s1.flush descriptorConfig with
          | none => none
          | some (s2, out2) =>
            match descriptorsReady bc (out1 ++ out2), descriptorLoop bc rest s2 with
            | some l, some r => some (l ++ r)
            | _, _ => none
    else descriptorLoop bc rest s

/-- `heap::get_descriptors` (src/recv_heap.cpp:302-319) for a heap with the given items. -/
def getDescriptors (bc : Nat) (items : List RxItem) : Option (List Descriptor) :=
  descriptorLoop bc items (Stream.new descriptorConfig)

end Spead2

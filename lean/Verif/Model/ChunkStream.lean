import Verif.Model.ChunkWindow
import Verif.Model.Wire

/-!
# Chunk streams

Models `chunk_stream_state` (include/spead2/recv_chunk_stream.h:364-560, 695-819, src/recv_chunk_stream.cpp:144-286):
the callbacks through which a `stream_base` uses the chunk layer. A history is any sequence of those callbacks; the
stream makes each while it holds its queue mutex. Memory is modelled by the trace of writes: a chunk is identified
with the id for which it was requested (each id is requested at most once, see C29), and its contents are those with
which the user supplied it plus the writes in the trace. The place callback is modelled by its outputs, and so are the
callbacks that supply chunks. Undefined behaviour (writes outside the arrays of a chunk, null pointers) is `none`.
-/

namespace Spead2

/-- The outputs of the place callback (`chunk_place_data`, include/spead2/recv_chunk_stream.h:87-103). -/
structure Place where
  chunkId : Int := -1
  heapIndex : Nat := 0
  heapOffset : Nat := 0
  extraOffset : Nat := 0
  extra : Bytes := []
  deriving DecidableEq, Repr

/-- `heap_metadata` (include/spead2/recv_chunk_stream.h:424-433). -/
structure HeapMeta where
  chunkId : Int
  heapIndex : Nat
  heapOffset : Nat
  chunk : Option Chunk
  deriving DecidableEq, Repr

/-- The chunk configuration: `max_chunks`, `packet_presence_payload_size`, the stream's id, the ids for which the user
supplies a chunk, and the sizes of the arrays of that chunk. -/
structure ChunkConfig where
  maxChunks : Nat
  presenceSize : Nat := 0
  streamId : Nat := 0
  alloc : Nat → Bool
  dataSize : Nat → Nat
  presentSize : Nat → Nat
  extraSize : Nat → Nat

/-- Observable effects: callbacks of the window, writes to the arrays of a chunk, and the custom statistics. -/
inductive ChunkEv
  | win (e : WinEv)
  | write (c : Chunk) (off : Nat) (data : Bytes)
  | present (c : Chunk) (index : Nat)
  | extra (c : Chunk) (off : Nat) (data : Bytes)
  | tooOld | rejected
  deriving DecidableEq, Repr

/-- `chunk_stream_state`. `heaps` are the allocations made so far, with their metadata. -/
structure ChunkStream where
  window : Window
  heaps : List HeapMeta := []
  deriving DecidableEq, Repr

/-- Constructor (src/recv_chunk_stream.cpp:144-160). -/
def ChunkStream.new (cfg : ChunkConfig) : ChunkStream := { window := Window.new cfg.maxChunks }

/-- `chunk_too_old` (include/spead2/recv_chunk_stream.h:407-411). -/
def Window.tooOld (w : Window) (id : Int) : Bool := id < 0 || id.toNat < w.headChunk

/-- Copying the extra data (include/spead2/recv_chunk_stream.h:801-806). The assertions and the bounds of the array
are checked. -/
def copyExtra (cfg : ChunkConfig) (c : Chunk) (pl : Place) : Option (List ChunkEv) :=
  if pl.extra.length > 0 then
    if pl.extraOffset + pl.extra.length ≤ cfg.extraSize c.allocFor then some [.extra c pl.extraOffset pl.extra] else none
  else some []

/-- `allocate` (include/spead2/recv_chunk_stream.h:728-819), from the place callback on. -/
def ChunkStream.allocate (cfg : ChunkConfig) (s : ChunkStream) (pl : Place) : Option (ChunkStream × List ChunkEv) :=
  if s.window.tooOld pl.chunkId then
    some ({ s with heaps := s.heaps ++ [⟨-1, 0, 0, none⟩] }, [if pl.chunkId ≥ 0 then .tooOld else .rejected])
  else
    match s.window.getChunk cfg.alloc pl.chunkId.toNat cfg.streamId with
    | none => none
    | some (w, none, ev) => some (⟨w, s.heaps ++ [⟨-1, 0, 0, none⟩]⟩, ev.map .win)
    | some (w, some c, ev) =>
      match copyExtra cfg c pl with
      | none => none
      | some ev' => some (⟨w, s.heaps ++ [⟨pl.chunkId, pl.heapIndex, pl.heapOffset, some c⟩]⟩, ev.map .win ++ ev')

/-- Setting the flag for a packet (src/recv_chunk_stream.cpp:184-191). -/
def packetPresence (cfg : ChunkConfig) (c : Chunk) (m : HeapMeta) (off : Nat) : Option (List ChunkEv) :=
  if cfg.presenceSize ≠ 0 then
    if m.heapIndex + off / cfg.presenceSize < cfg.presentSize c.allocFor then
      some [.present c (m.heapIndex + off / cfg.presenceSize)]
    else none
  else some []

/-- `packet_memcpy` (src/recv_chunk_stream.cpp:172-192) for allocation `h`. The user's copy function is taken to be
the default one, which copies the payload to its offset from the address returned by `allocate`. -/
def ChunkStream.copy (cfg : ChunkConfig) (s : ChunkStream) (h : Nat) (off : Nat) (data : Bytes) : Option (ChunkStream × List ChunkEv) :=
  match s.heaps[h]? with
  | none => none
  | some m =>
    if s.window.tooOld m.chunkId then some (s, [])
    else
      match m.chunk with
      | none => none
      | some c =>
        if m.heapOffset + off + data.length ≤ cfg.dataSize c.allocFor then
          match packetPresence cfg c m off with
          | none => none
          | some ev => some (s, .write c (m.heapOffset + off) data :: ev)
        else none

/-- Setting the flag for a heap (src/recv_chunk_stream.cpp:207-211). -/
def heapPresence (cfg : ChunkConfig) (c : Chunk) (m : HeapMeta) : Option (List ChunkEv) :=
  if cfg.presenceSize = 0 then
    if m.heapIndex < cfg.presentSize c.allocFor then some [.present c m.heapIndex] else none
  else some []

/-- `do_heap_ready` (src/recv_chunk_stream.cpp:194-215) for a heap with allocation `h`. (A heap of length 0 has no
allocation, and nothing happens.) -/
def ChunkStream.heapReady (cfg : ChunkConfig) (s : ChunkStream) (h : Nat) (complete : Bool) : Option (ChunkStream × List ChunkEv) :=
  if complete then
    match s.heaps[h]? with
    | none => none
    | some m =>
      match m.chunk with
      | none => some (s, [])
      | some c =>
        if s.window.tooOld m.chunkId then some (s, [.tooOld])
        else
          match heapPresence cfg c m with
          | none => none
          | some ev => some (s, ev)
  else some (s, [])

/-- The callbacks. `flush` is `flush_chunks` (include/spead2/recv_chunk_stream.h:718-726); `flushUntil` is made only
for members of a group (src/recv_chunk_stream_group.cpp:180-199). -/
inductive ChunkOp
  | allocate (pl : Place)
  | copy (h off : Nat) (data : Bytes)
  | heapReady (h : Nat) (complete : Bool)
  | flush
  | flushUntil (target : Nat)
  deriving DecidableEq, Repr

/-- Replace the window, after an operation on it. -/
def ChunkStream.withWindow (s : ChunkStream) : Option (Window × List WinEv) → Option (ChunkStream × List ChunkEv)
  | none => none
  | some (w, ev) => some ({ s with window := w }, ev.map .win)

/-- One callback. -/
def ChunkStream.step (cfg : ChunkConfig) (s : ChunkStream) : ChunkOp → Option (ChunkStream × List ChunkEv)
  | .allocate pl => s.allocate cfg pl
  | .copy h off data => s.copy cfg h off data
  | .heapReady h complete => s.heapReady cfg h complete
  | .flush => s.withWindow (s.window.flushAll (2 ^ 64 - 1))
  | .flushUntil t => s.withWindow (s.window.flushUntil t)

/-- A history of callbacks. -/
def ChunkStream.run (cfg : ChunkConfig) : List ChunkOp → ChunkStream → Option (ChunkStream × List ChunkEv)
  | [], s => some (s, [])
  | op :: ops, s =>
    match s.step cfg op with
    | none => none
    | some (s, ev) =>
      match ChunkStream.run cfg ops s with
      | none => none
      | some (s, ev') => some (s, ev ++ ev')

end Spead2

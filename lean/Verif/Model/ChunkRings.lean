import Verif.Model.ChunkStream

/-!
# Chunk streams on ringbuffers

Models `chunk_ring_pair` and `chunk_ring_stream` (include/spead2/recv_chunk_stream.h:594-690, 822-947): any number of chunk
streams that take their chunks from a shared free ring and pass them to the consumer through a shared data ring.

The two rings are bounded queues with atomic operations: that the ringbuffer behaves like that under all schedules of its
threads is the subject of `Model/Ring` and C33-C35 (after a stop, pushes are refused and pops return what is left). Each chunk
stream is the one of `Model/ChunkStream`; the answers to its requests for chunks are those that the free ring gives during
the run. A history is any interleaving of single callbacks of the streams, calls of the user, and stops. The chunks themselves
are numbered, and their contents are modelled; the `extra` array is not (writes to it are recorded by `Model/ChunkStream`). The
optional `ready` callback of the user (lines 875-876), which must leave the chunk where it is, is not modelled. -/

namespace Spead2

/-- What one stream is going to do: the callbacks its `stream_base` makes (`ops`, see C70 for where they come from) and
whether they end with `stop_received`. (After that the stream makes no calls except, in `stop`, a `flush_chunks` on the
empty window.) The `alloc` of the configuration is not used. -/
structure Feed where
  cfg : ChunkConfig
  ops : List ChunkOp
  ends : Bool

/-- The answers that were given to requests. Other requests are taken to be refused; a request is answered before
anything that depends on the answer is done. -/
def answerFn (ans : List (Nat × Bool)) : Nat → Bool := fun id => (ans.lookup id).getD false

/-- An action of a stream: an effect of the chunk layer, or `remove_producer` on the data ring. -/
inductive FeedAct
  | ev (e : ChunkEv) | remove
  deriving DecidableEq, Repr

/-- The configuration with the given answers. -/
def Feed.cfgFor (fd : Feed) (ans : List (Nat × Bool)) : ChunkConfig := { fd.cfg with alloc := answerFn ans }

/-- The actions of a stream, in order, when it gets the answers `ans`. `stop_received`
(include/spead2/recv_chunk_stream.h:917-922) removes the producer after `chunk_stream::stop_received`, which ends with
`flush_chunks`. `none`: undefined behaviour. -/
def Feed.acts (fd : Feed) (ans : List (Nat × Bool)) : Option (List FeedAct) :=
  (ChunkStream.run (fd.cfgFor ans) fd.ops (ChunkStream.new (fd.cfgFor ans))).map
    (fun r => r.2.map FeedAct.ev ++ if fd.ends then [.remove] else [])

/-- The state of a stream. -/
structure Feeder where
  /-- Ghost: the answers it got from the free ring. -/
  ans : List (Nat × Bool) := []
  /-- Ghost: what it did. The next action is that at position `log.length`. -/
  log : List FeedAct := []
  /-- The chunks in its window: their ids (see include/spead2/recv_chunk_stream.h:336-341), and the number of the chunk. -/
  held : List (Chunk × Nat) := []
  /-- `graveyard`. -/
  grave : List Nat := []
  deriving DecidableEq, Repr

/-- The rings, the chunks and the streams. -/
structure ChunkRings where
  free : List Nat := []
  freeStopped : Bool := false
  freeCap : Nat
  /-- Each chunk with the (ghost) number of the stream that pushed it and its ids. -/
  data : List (Nat × Chunk × Nat) := []
  dataStopped : Bool := false
  dataCap : Nat
  producers : Nat
  /-- Chunks that the user owns. -/
  user : List Nat
  /-- Chunks that were freed. -/
  freed : List Nat := []
  /-- The `present` array of each chunk. -/
  present : Nat → Nat → Bool
  /-- The `data` array of each chunk. -/
  bytes : Nat → Nat → UInt8
  feeders : List Feeder

/-- The streams `fds` just after construction, each of which called `add_producer`
(include/spead2/recv_chunk_stream.h:891-903); the user has `n` chunks, with any contents. -/
def ChunkRings.new (fds : List Feed) (n freeCap dataCap : Nat) (present : Nat → Nat → Bool) (bytes : Nat → Nat → UInt8) : ChunkRings :=
  { freeCap := freeCap, dataCap := dataCap, producers := fds.length, user := List.range n, present := present, bytes := bytes, feeders := fds.map (fun _ => {}) }

/-- Assignment to one element of an array. -/
def setAt {α : Type} (f : Nat → α) (k : Nat) (v : α) : Nat → α := fun j => if j = k then v else f j

/-- Copying `data` to offset `off` of an array. -/
def writeBytes (m : Nat → UInt8) (off : Nat) (data : Bytes) : Nat → UInt8 :=
  fun k => if off ≤ k then (data[k - off]?).getD (m k) else m k

/-- Events. -/
inductive RingsOp
  /-- `add_free_chunk`. -/
  | add (p : Nat)
  /-- The consumer calls `pop` on the data ring. -/
  | pop
  /-- Stream `i` continues. -/
  | act (i : Nat)
  /-- `free_ring->stop()`, `data_ring->stop()` (from the `stop` of one of the streams, or from the user). -/
  | stopFree | stopData
  /-- The end of `chunk_ring_stream::stop`: the graveyard is freed. -/
  | reap (i : Nat)
  /-- The user writes to a chunk. -/
  | poke (p k : Nat) (b : UInt8) | mark (p k : Nat) (v : Bool)
  deriving DecidableEq, Repr

/-- The outcome of an event. -/
inductive RingsOut
  | moved | kept | full
  | got (i : Nat) (c : Chunk) (p : Nat) | stopped
  | done | wait | finished
  | invalid
  deriving DecidableEq, Repr

/-- `add_free_chunk` (include/spead2/recv_chunk_stream.h:829-842). `kept`: the ring was stopped, and the caller keeps the
chunk; `full`: `ringbuffer_full` is thrown, and the caller keeps the chunk. Only the owner of a chunk can pass it. -/
def ChunkRings.add (s : ChunkRings) (p : Nat) : ChunkRings × RingsOut :=
  if p ∈ s.user then
    let s := { s with present := setAt s.present p (fun _ => false) }
    if s.freeStopped then (s, .kept)
    else if s.free.length < s.freeCap then ({ s with free := s.free ++ [p], user := s.user.erase p }, .moved)
    else (s, .full)
  else (s, .invalid)

/-- `pop` on the data ring (include/spead2/common_ringbuffer.h:302-315, 568-587). -/
def ChunkRings.pop (s : ChunkRings) : ChunkRings × RingsOut :=
  match s.data with
  | (i, c, p) :: rest => ({ s with data := rest, user := s.user ++ [p] }, .got i c p)
  | [] => (s, if s.dataStopped then .stopped else .wait)

/-- Replace the state of stream `i`, which has done `a`. -/
def ChunkRings.advance (s : ChunkRings) (i : Nat) (f : Feeder) (a : FeedAct) : ChunkRings :=
  { s with feeders := s.feeders.set i { f with log := f.log ++ [a] } }

/-- The callback of `make_allocate` (include/spead2/recv_chunk_stream.h:844-860): blocks while the free ring is empty. -/
def ChunkRings.allocChunk (s : ChunkRings) (i : Nat) (f : Feeder) (id sid : Nat) : ChunkRings × RingsOut :=
  match s.free with
  | p :: rest => (({ s with free := rest }).advance i { f with ans := f.ans ++ [(id, true)], held := f.held ++ [(Chunk.mk id id sid, p)] } (.ev (.win (.alloc id sid))), .done)
  | [] =>
    if s.freeStopped then (s.advance i { f with ans := f.ans ++ [(id, false)] } (.ev (.win (.alloc id sid))), .done)
    else (s, .wait)

/-- The callback of `make_ready` (include/spead2/recv_chunk_stream.h:862-887) for chunk `p`: blocks while the data ring is
full. -/
def ChunkRings.readyChunk (s : ChunkRings) (i : Nat) (f : Feeder) (c : Chunk) (p : Nat) : ChunkRings × RingsOut :=
  let f' : Feeder := { f with held := f.held.filter (fun x => x.1 != c) }
  if s.dataStopped then (s.advance i { f' with grave := p :: f.grave } (.ev (.win (.ready c))), .done)
  else if s.data.length < s.dataCap then (({ s with data := s.data ++ [(i, c, p)] }).advance i f' (.ev (.win (.ready c))), .done)
  else (s, .wait)

/-- `remove_producer` (include/spead2/common_ringbuffer.h:317-340). -/
def ChunkRings.removeProducer (s : ChunkRings) (i : Nat) (f : Feeder) : Option (ChunkRings × RingsOut) :=
  if s.producers = 0 then none
  else some (({ s with producers := s.producers - 1, dataStopped := s.dataStopped || s.producers - 1 == 0 }).advance i f .remove, .done)

/-- An action that uses chunk `c` of stream `i`. -/
def ChunkRings.onChunk (s : ChunkRings) (i : Nat) (f : Feeder) (e : ChunkEv) (p : Nat) : ChunkRings × RingsOut :=
  match e with
  | .win (.ready c) => s.readyChunk i f c p
  | .write _ off data => (({ s with bytes := setAt s.bytes p (writeBytes (s.bytes p) off data) }).advance i f (.ev e), .done)
  | .present _ k => (({ s with present := setAt s.present p (setAt (s.present p) k true) }).advance i f (.ev e), .done)
  | _ => (s.advance i f (.ev e), .done)

/-- The chunk that an effect uses. -/
def ChunkEv.uses : ChunkEv → Option Chunk
  | .win (.ready c) => some c
  | .write c _ _ => some c
  | .present c _ => some c
  | .extra c _ _ => some c
  | _ => none

/-- Stream `i` performs its next action. Using a chunk that it does not hold is undefined. -/
def ChunkRings.perform (s : ChunkRings) (i : Nat) (f : Feeder) : FeedAct → Option (ChunkRings × RingsOut)
  | .remove => s.removeProducer i f
  | .ev (.win (.alloc id sid)) => some (s.allocChunk i f id sid)
  | .ev e =>
    match e.uses with
    | none => some (s.advance i f (.ev e), .done)
    | some c => (f.held.lookup c).map (s.onChunk i f e)

/-- Stream `i` continues. -/
def ChunkRings.act (fds : List Feed) (s : ChunkRings) (i : Nat) : Option (ChunkRings × RingsOut) :=
  match fds[i]?, s.feeders[i]? with
  | some fd, some f =>
    match fd.acts f.ans with
    | none => none
    | some l =>
      match l[f.log.length]? with
      | none => some (s, .finished)
      | some a => s.perform i f a
  | _, _ => some (s, .invalid)

/-- The end of `stop` (include/spead2/recv_chunk_stream.h:925-938): `chunk_stream::stop` has returned, so the stream has
finished; its graveyard is freed. -/
def ChunkRings.reap (fds : List Feed) (s : ChunkRings) (i : Nat) : Option (ChunkRings × RingsOut) :=
  match fds[i]?, s.feeders[i]? with
  | some fd, some f =>
    match fd.acts f.ans with
    | none => none
    | some l =>
      if l.length ≤ f.log.length then some ({ s with freed := s.freed ++ f.grave, feeders := s.feeders.set i { f with grave := [] } }, .done)
      else some (s, .wait)
  | _, _ => some (s, .invalid)

/-- One event. -/
def ChunkRings.step (fds : List Feed) (s : ChunkRings) : RingsOp → Option (ChunkRings × RingsOut)
  | .add p => some (s.add p)
  | .pop => some s.pop
  | .act i => s.act fds i
  | .stopFree => some ({ s with freeStopped := true }, .done)
  | .stopData => some ({ s with dataStopped := true }, .done)
  | .reap i => s.reap fds i
  | .poke p k b => if p ∈ s.user then some ({ s with bytes := setAt s.bytes p (setAt (s.bytes p) k b) }, .done) else some (s, .invalid)
  | .mark p k v => if p ∈ s.user then some ({ s with present := setAt s.present p (setAt (s.present p) k v) }, .done) else some (s, .invalid)

/-- A history, with the outcomes. `none`: undefined behaviour. -/
def ChunkRings.run (fds : List Feed) : List RingsOp → ChunkRings → Option (ChunkRings × List RingsOut)
  | [], s => some (s, [])
  | op :: ops, s =>
    match s.step fds op with
    | none => none
    | some (s, o) =>
      match ChunkRings.run fds ops s with
      | none => none
      | some (s, os) => some (s, o :: os)

end Spead2

import Verif.Model.Wire

/-!
# Sliding window of chunks

Models `chunk_window` (include/spead2/recv_chunk_stream.h:212-359, src/recv_chunk_stream.cpp:104). Chunk ids are 64-bit
unsigned in the code; here they are natural numbers: every subtraction in the code has a non-negative result and the
largest id that occurs is 2^64-1. A failed assertion or an index outside the storage is `none`. Callbacks are recorded
as events.
-/

namespace Spead2

/-- The parts of `class chunk` (include/spead2/recv_chunk_stream.h:50-79) that the window uses. `allocFor` is ghost:
the id that the allocation callback was called with. -/
structure Chunk where
  allocFor : Nat
  chunkId : Nat
  streamId : Nat
  deriving DecidableEq, Repr

/-- A callback made by the window: `ready_chunk`, `head_updated`, `allocate_chunk`. -/
inductive WinEv
  | ready (c : Chunk) | head (id : Nat) | alloc (id : Nat) (streamId : Nat)
  deriving DecidableEq, Repr

/-- The data members (include/spead2/recv_chunk_stream.h:222-225). -/
structure Window where
  chunks : List (Option Chunk)
  headChunk : Nat := 0
  tailChunk : Nat := 0
  headPos : Nat := 0
  tailPos : Nat := 0
  deriving DecidableEq, Repr

/-- Constructor (src/recv_chunk_stream.cpp:104). -/
def Window.new (maxChunks : Nat) : Window := { chunks := List.replicate maxChunks none }

/-- The event of a chunk that is not null. -/
def readyEv : Option Chunk → List WinEv
  | none => []
  | some c => [.ready c]

/-- `flush_head` with one callback (include/spead2/recv_chunk_stream.h:229-242). -/
def Window.flushHead (w : Window) : Option (Window × List WinEv) :=
  if w.headChunk < w.tailChunk then
    match w.chunks[w.headPos]? with
    | none => none
    | some c =>
      some ({ w with chunks := w.chunks.set w.headPos none, headChunk := w.headChunk + 1, headPos := if w.headPos + 1 = w.chunks.length then 0 else w.headPos + 1 }, readyEv c)
  else none

/-- `flush_head` with two callbacks (include/spead2/recv_chunk_stream.h:245-250). -/
def Window.flushHead2 (w : Window) : Option (Window × List WinEv) :=
  match w.flushHead with
  | none => none
  | some (w, ev) => some (w, ev ++ [.head w.headChunk])

/-- The loop of `flush_all` (include/spead2/recv_chunk_stream.h:260-261). The first argument bounds the number of
iterations. -/
def Window.flushLoop : Nat → Window → Option (Window × List WinEv)
  | 0, _ => none
  | fuel + 1, w =>
    if w.headChunk = w.tailChunk then some (w, [])
    else
      match w.flushHead with
      | none => none
      | some (w, ev) =>
        match Window.flushLoop fuel w with
        | none => none
        | some (w, ev') => some (w, ev ++ ev')

/-- `flush_all` (include/spead2/recv_chunk_stream.h:256-265). -/
def Window.flushAll (w : Window) (next : Nat) : Option (Window × List WinEv) :=
  match Window.flushLoop (w.chunks.length + 1) w with
  | none => none
  | some (w', ev) =>
    some ({ w' with headChunk := next, tailChunk := next }, ev ++ if next ≠ w.headChunk then [.head next] else [])

/-- The loop of `flush_until` (include/spead2/recv_chunk_stream.h:273-274). -/
def Window.untilLoop (target : Nat) : Nat → Window → Option (Window × List WinEv)
  | 0, _ => none
  | fuel + 1, w =>
    if w.headChunk ≠ w.tailChunk ∧ w.headChunk < target then
      match w.flushHead with
      | none => none
      | some (w, ev) =>
        match Window.untilLoop target fuel w with
        | none => none
        | some (w, ev') => some (w, ev ++ ev')
    else some (w, [])

/-- `flush_until` (include/spead2/recv_chunk_stream.h:268-279). -/
def Window.flushUntil (w : Window) (target : Nat) : Option (Window × List WinEv) :=
  if w.headChunk < target then
    match Window.untilLoop target (w.chunks.length + 1) w with
    | none => none
    | some (w, ev) =>
      some (if w.headChunk < target then { w with headChunk := target, tailChunk := target } else w, ev ++ [.head target])
  else some (w, [])

/-- The position of `id` in the storage (include/spead2/recv_chunk_stream.h:292-295, 345-347). -/
def Window.pos (w : Window) (id : Nat) : Nat :=
  if id - w.headChunk + w.headPos ≥ w.chunks.length then id - w.headChunk + w.headPos - w.chunks.length
  else id - w.headChunk + w.headPos

/-- `get_chunk` without allocation (include/spead2/recv_chunk_stream.h:288-300). -/
def Window.get (w : Window) (id : Nat) : Option (Option Chunk) :=
  if id ≥ w.headChunk ∧ id < w.tailChunk then w.chunks[w.pos id]? else some none

/-- Part of the body of the allocation loop (include/spead2/recv_chunk_stream.h:333-342): allocate a chunk for
`tail_chunk`. `alloc` says for which ids the allocation callback returns a chunk. -/
def Window.push (alloc : Nat → Bool) (streamId : Nat) (w : Window) : Option (Window × List WinEv) :=
  if w.tailPos < w.chunks.length then
    some ({ w with chunks := w.chunks.set w.tailPos (if alloc w.tailChunk then some ⟨w.tailChunk, w.tailChunk, streamId⟩ else none), tailChunk := w.tailChunk + 1, tailPos := if w.tailPos + 1 = w.chunks.length then 0 else w.tailPos + 1 },
      [.alloc w.tailChunk streamId])
  else none

/-- The body of the allocation loop (include/spead2/recv_chunk_stream.h:331-342). -/
def Window.extend (alloc : Nat → Bool) (streamId : Nat) (w : Window) : Option (Window × List WinEv) :=
  if w.tailChunk - w.headChunk = w.chunks.length then
    match w.flushHead2 with
    | none => none
    | some (w, ev) =>
      match w.push alloc streamId with
      | none => none
      | some (w, ev') => some (w, ev ++ ev')
  else w.push alloc streamId

/-- The allocation loop (include/spead2/recv_chunk_stream.h:329-343). -/
def Window.extendLoop (alloc : Nat → Bool) (streamId id : Nat) : Nat → Window → Option (Window × List WinEv)
  | 0, _ => none
  | fuel + 1, w =>
    if id ≥ w.tailChunk then
      match w.extend alloc streamId with
      | none => none
      | some (w, ev) =>
        match Window.extendLoop alloc streamId id fuel w with
        | none => none
        | some (w, ev') => some (w, ev ++ ev')
    else some (w, [])

/-- The test whether the whole window is stale, and the flush (include/spead2/recv_chunk_stream.h:320-328). -/
def Window.jump (w : Window) (id : Nat) : Option (Window × List WinEv) :=
  if id ≥ w.tailChunk ∧ id - w.tailChunk ≥ w.chunks.length then w.flushAll (id - (w.chunks.length - 1))
  else some (w, [])

/-- `get_chunk` (include/spead2/recv_chunk_stream.h:310-353): the window, the returned pointer and the callbacks. -/
def Window.getChunk (alloc : Nat → Bool) (w : Window) (id streamId : Nat) : Option (Window × Option Chunk × List WinEv) :=
  if id < 2 ^ 63 then
    if id ≥ w.headChunk then
      match w.jump id with
      | none => none
      | some (w, ev) =>
        match Window.extendLoop alloc streamId id (w.chunks.length + 1) w with
        | none => none
        | some (w, ev') =>
          match w.chunks[w.pos id]? with
          | none => none
          | some c => some (w, c, ev ++ ev')
    else some (w, none, [])
  else none

/-- An operation on a window. `flushAll` is called from outside only with 2^64-1
(include/spead2/recv_chunk_stream.h:721-722). -/
inductive WinOp
  | get (id streamId : Nat) | until (target : Nat) | all
  deriving DecidableEq, Repr

/-- One operation. -/
def Window.step (alloc : Nat → Bool) (w : Window) : WinOp → Option (Window × List WinEv)
  | .get id sid => (w.getChunk alloc id sid).map (fun r => (r.1, r.2.2))
  | .until t => w.flushUntil t
  | .all => w.flushAll (2 ^ 64 - 1)

/-- A sequence of operations. -/
def Window.run (alloc : Nat → Bool) : List WinOp → Window → Option (Window × List WinEv)
  | [], w => some (w, [])
  | op :: ops, w =>
    match w.step alloc op with
    | none => none
    | some (w, ev) =>
      match Window.run alloc ops w with
      | none => none
      | some (w, ev') => some (w, ev ++ ev')

end Spead2

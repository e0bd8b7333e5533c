import Verif.Model.ChunkWindow

/-!
# Chunk stream groups

Models `chunk_stream_group` and `chunk_stream_group_member` (src/recv_chunk_stream_group.cpp, include/spead2/
recv_chunk_stream_group.h) as a transition system. Each member runs on its own thread and holds its queue mutex while
it handles a packet, so the state of a member other than its copy in `head_chunks` is private to its thread. The shared
state (the group's window, `head_chunks`, `last_flush_until`, the queues of posted flush requests) changes only while
the group mutex is held. A transition is one critical section of the group mutex together with the private steps of the
same thread around it; other threads cannot tell the difference. `condition_variable::wait` is modelled by a
transition that is possible once the condition holds. A failed assertion is `none`; a transition that is not possible
leaves the state unchanged. What members do with the payload of packets (C30) is reduced to `touch`: a write through a
chunk pointer held in the member's window. The member's assignments to `chunk_id` and `stream_id` of a chunk that is
already in the group's window (include/spead2/recv_chunk_stream.h:334-338) are left out: they repeat the chunk's id, and
store the id of the member that last came upon the chunk.
-/

namespace Spead2

/-- Where the thread of a member is: not in the chunk layer; in `chunk_window::get_chunk` for the given id, before the
test of the loop, before the call of `chunk_stream_group::get_chunk`, or waiting in it. -/
inductive Pc
  | idle | loop (id : Nat) | alloc (id : Nat) | wait (id : Nat)
  deriving DecidableEq, Repr

/-- `chunk_stream_group_member`: its window, the flush requests posted to it, and its thread. -/
structure Member where
  window : Window
  pending : List Nat := []
  pc : Pc := .idle
  deriving DecidableEq, Repr

/-- `chunk_stream_group` (include/spead2/recv_chunk_stream_group.h:115-171). -/
structure Group where
  window : Window
  heads : List Nat
  lastFlush : Nat := 0
  members : List Member
  deriving DecidableEq, Repr

/-- The group's configuration: `max_chunks`, the eviction mode, and the ids for which the user supplies a chunk. -/
structure GroupConfig where
  maxChunks : Nat
  lossy : Bool
  alloc : Nat → Bool

/-- Observable effects: callbacks made by the group, and writes by a member. -/
inductive GroupEv
  | win (e : WinEv) | touch (i : Nat) (c : Chunk)
  deriving DecidableEq, Repr

/-- Construction: `emplace_back` for members with the given `max_chunks` (include/spead2/recv_chunk_stream_group.h:
337-353), which must not exceed that of the group (src/recv_chunk_stream_group.cpp:242-243). -/
def Group.new (cfg : GroupConfig) (maxs : List Nat) : Option Group :=
  if maxs.all (fun m => decide (m ≤ cfg.maxChunks)) then
    some { window := Window.new cfg.maxChunks, heads := maxs.map (fun _ => 0), members := maxs.map (fun m => { window := Window.new m }) }
  else none

/-- `stream_head_updated` (src/recv_chunk_stream_group.cpp:213-231). -/
def Group.headUpdated (g : Group) (i head : Nat) : Option (Group × List GroupEv) :=
  match g.heads[i]? with
  | none => none
  | some old =>
    if head > old then
      if g.window.headChunk = old then
        match (g.heads.set i head).min? with
        | none => none
        | some m =>
          match g.window.flushUntil m with
          | none => none
          | some (w, ev) => some ({ g with window := w, heads := g.heads.set i head }, ev.map .win)
      else some ({ g with heads := g.heads.set i head }, [])
    else none

/-- The calls of `head_updated` made by an operation on a member's window. -/
def Group.report (i : Nat) : List WinEv → Group → Option (Group × List GroupEv)
  | [], g => some (g, [])
  | .head n :: rest, g =>
    match g.headUpdated i n with
    | none => none
    | some (g, ev) =>
      match Group.report i rest g with
      | none => none
      | some (g, ev') => some (g, ev ++ ev')
  | _ :: rest, g => Group.report i rest g

/-- Replace a member. -/
def Group.setMember (g : Group) (i : Nat) (m : Member) : Group := { g with members := g.members.set i m }

/-- An operation on the window of member `i` that hands nothing to the user (src/recv_chunk_stream_group.cpp:248-261,
include/spead2/recv_chunk_stream_group.h:103), followed by the calls of `head_updated`. -/
def Group.local (g : Group) (i : Nat) (m : Member) : Option (Window × List WinEv) → Option (Group × List GroupEv)
  | none => none
  | some (w, ev) => (g.setMember i { m with window := w }).report i ev

/-- The calls of `async_flush_until` for all members (src/recv_chunk_stream_group.cpp:186-188). -/
def Group.post (g : Group) (target : Nat) : Group :=
  { g with members := g.members.map (fun m => { m with pending := m.pending ++ [target] }) }

/-- The rest of the loop body after `allocate_chunk` returns (include/spead2/recv_chunk_stream.h:333-342). -/
def Window.pushPtr (w : Window) (c : Option Chunk) : Option Window :=
  if w.tailPos < w.chunks.length then
    some { w with chunks := w.chunks.set w.tailPos c, tailChunk := w.tailChunk + 1, tailPos := if w.tailPos + 1 = w.chunks.length then 0 else w.tailPos + 1 }
  else none

/-- Whether any chunk is handed over. -/
def hasReady (ev : List WinEv) : Bool := ev.any (fun | .ready _ => true | _ => false)

/-- The end of `get_chunk` (src/recv_chunk_stream_group.cpp:196-209), in which the ready callback is an assertion
failure, and the return to the member's loop. The stream id is the member's index. -/
def Group.acquire (cfg : GroupConfig) (g : Group) (i : Nat) (m : Member) (id : Nat) : Option (Group × List GroupEv) :=
  match g.window.getChunk cfg.alloc m.window.tailChunk i with
  | none => none
  | some (w, c, ev) =>
    if hasReady ev then none
    else
      match m.window.pushPtr c with
      | none => none
      | some w' => some ({ g with window := w, members := g.members.set i { m with window := w', pc := .loop id } }, ev.map .win)

/-- The first chunk that need not be flushed (src/recv_chunk_stream_group.cpp:183). -/
def flushTarget (cfg : GroupConfig) (id : Nat) : Nat := id - (cfg.maxChunks - 1)

/-- `get_chunk` up to the wait (src/recv_chunk_stream_group.cpp:162-195). -/
def Group.request (cfg : GroupConfig) (g : Group) (i : Nat) (m : Member) (id : Nat) : Option (Group × List GroupEv) :=
  if m.window.tailChunk ≥ g.window.headChunk then
    if m.window.tailChunk - g.window.headChunk ≥ cfg.maxChunks then
      if cfg.lossy ∧ flushTarget cfg m.window.tailChunk > g.lastFlush then
        some ({ ((g.setMember i { m with pc := .wait id }).post (flushTarget cfg m.window.tailChunk)) with lastFlush := flushTarget cfg m.window.tailChunk }, [])
      else some (g.setMember i { m with pc := .wait id }, [])
    else g.acquire cfg i m id
  else none

/-- One transition of a member in `chunk_window::get_chunk` (include/spead2/recv_chunk_stream.h:329-343). -/
def Group.advance (cfg : GroupConfig) (g : Group) (i : Nat) (m : Member) : Option (Group × List GroupEv) :=
  match m.pc with
  | .idle => some (g, [])
  | .loop id =>
    if id ≥ m.window.tailChunk then
      if m.window.tailChunk - m.window.headChunk = m.window.chunks.length then
        g.local i { m with pc := .alloc id } m.window.flushHead2
      else some (g.setMember i { m with pc := .alloc id }, [])
    else some (g.setMember i { m with pc := .idle }, [])
  | .alloc id => g.request cfg i m id
  | .wait id =>
    if g.window.headChunk < flushTarget cfg m.window.tailChunk then some (g, [])
    else g.acquire cfg i m id

/-- A heap is placed in chunk `id` (include/spead2/recv_chunk_stream.h:771-790 and 310-328). -/
def Group.get (g : Group) (i : Nat) (m : Member) (id : Nat) : Option (Group × List GroupEv) :=
  if id < 2 ^ 63 then
    if id ≥ m.window.headChunk then g.local i { m with pc := .loop id } (m.window.jump id)
    else some (g, [])
  else none

/-- A transition. -/
inductive GroupOp
  | get (i id : Nat)      -- member `i` receives a heap for chunk `id`
  | advance (i : Nat)     -- member `i` continues in `get_chunk`
  | flush (i : Nat)       -- member `i` executes a posted flush request
  | stop (i : Nat)        -- member `i` stops, from the network or the user
  | stopAll               -- the user stops the group in lossless mode
  | touch (i id : Nat)    -- member `i` writes to its chunk `id`
  deriving DecidableEq, Repr

/-- Execution of a posted request (src/recv_chunk_stream_group.cpp:251-263). -/
def Group.runFlush (g : Group) (i : Nat) (m : Member) : Option (Group × List GroupEv) :=
  match m.pending with
  | [] => some (g, [])
  | t :: rest => g.local i { m with pending := rest } (m.window.flushUntil t)

/-- A write through a pointer in the member's window. -/
def Group.touch (g : Group) (i : Nat) (m : Member) (id : Nat) : Option (Group × List GroupEv) :=
  match m.window.get id with
  | none => none
  | some none => some (g, [])
  | some (some c) => some (g, [.touch i c])

/-- One transition. A member that is in `get_chunk` holds its queue mutex, so it can do nothing else. -/
def Group.step (cfg : GroupConfig) (g : Group) : GroupOp → Option (Group × List GroupEv)
  | .get i id =>
    match g.members[i]? with
    | none => some (g, [])
    | some m => if m.pc = .idle then g.get i m id else some (g, [])
  | .advance i =>
    match g.members[i]? with
    | none => some (g, [])
    | some m => g.advance cfg i m
  | .flush i =>
    match g.members[i]? with
    | none => some (g, [])
    | some m => if m.pc = .idle then g.runFlush i m else some (g, [])
  | .stop i =>
    match g.members[i]? with
    | none => some (g, [])
    | some m => if m.pc = .idle then g.local i m (m.window.flushAll (2 ^ 64 - 1)) else some (g, [])
  | .stopAll => some (g.post (2 ^ 64 - 1), [])
  | .touch i id =>
    match g.members[i]? with
    | none => some (g, [])
    | some m => if m.pc = .idle then g.touch i m id else some (g, [])

/-- An execution: any interleaving of the members' transitions. -/
def Group.run (cfg : GroupConfig) : List GroupOp → Group → Option (Group × List GroupEv)
  | [], g => some (g, [])
  | op :: ops, g =>
    match g.step cfg op with
    | none => none
    | some (g, ev) =>
      match Group.run cfg ops g with
      | none => none
      | some (g, ev') => some (g, ev ++ ev')

end Spead2

/-!
# Chunks in Python

A Python `Chunk` cannot be given away, so that putting it into a `ChunkRingbuffer` moves what it contains into a new object that refers to it, and getting it moves it back
(src/py_recv.cpp 345-410, 775-895).

Simplified: ringbuffers are queues (C33-C35); `present_size` and `stream_id` are left out; memory is one number for each buffer, 0 if it was cleared.
-/

namespace Spead2.PyChunk

/-- `chunk` (include/spead2/recv_chunk_stream.h 54-72): buffers are the exports of Python objects, numbered in the order in which they are assigned. -/
structure Content where
  data : Option Nat := none
  present : Option Nat := none
  extra : Option Nat := none
  id : Int := -1
  deriving DecidableEq, Repr

def Content.bufs (c : Content) : List Nat := c.data.toList ++ (c.present.toList ++ c.extra.toList)

/-- What `std::move` leaves: the pointers are null, the number stays. -/
def Content.moved (c : Content) : Content := { id := c.id }

/-- `chunk_wrapper` (src/py_recv.cpp 350-354). -/
structure Wrapper where
  c : Content
  obj : Nat
  deriving DecidableEq, Repr

structure Ring where
  q : List Wrapper := []
  cap : Nat
  stopped : Bool := false
  deriving DecidableEq, Repr

structure St where
  /-- the Python objects -/
  objs : List Content := []
  rings : List Ring
  /-- calls of `put` that wait, with their ring -/
  pend : List (Wrapper × Nat) := []
  /-- chunks that a stream is filling -/
  held : List Wrapper := []
  /-- buffers that were released -/
  released : List Nat := []
  /-- number of buffers that were assigned -/
  next : Nat := 0
  /-- memory of the buffers -/
  mem : List Nat := []
  deriving DecidableEq, Repr

inductive Field where
  | data
  | present
  | extra
  deriving DecidableEq, Repr

inductive Ev where
  /-- `Chunk()` -/
  | new
  /-- `chunk.data = array` and so on, with what the array contains, or `= None` -/
  | set (o : Nat) (f : Field) (v : Option Nat)
  | putNowait (o r : Nat)
  /-- `put` wraps the chunk, and waits -/
  | put (o r : Nat)
  /-- `put` has got space, or the ring is stopped -/
  | putEnd (i : Nat)
  /-- a signal handler raised an exception during `put` -/
  | putInterrupt (i : Nat)
  /-- `get`, `get_nowait`, `__next__`; one that waits is not yet an event -/
  | get (r : Nat)
  | addFree (o r : Nat)
  | stop (r : Nat)
  /-- a stream takes a chunk from its free ring -/
  | take (r : Nat)
  /-- a stream sets the number of a chunk, and writes into its buffers -/
  | work (i : Nat) (id : Int) (v : Nat)
  /-- a stream passes a chunk to its data ring -/
  | give (i r : Nat)
  deriving DecidableEq, Repr

inductive Res where
  | ok
  | obj (o : Nat)
  | valueError
  | full
  | empty
  | stopped
  | interrupted
  deriving DecidableEq, Repr

def Field.get : Field → Content → Option Nat
  | .data, c => c.data
  | .present, c => c.present
  | .extra, c => c.extra

def Field.put : Field → Content → Option Nat → Content
  | .data, c, b => { c with data := b }
  | .present, c, b => { c with present := b }
  | .extra, c, b => { c with extra := b }

/-- The assignments of src/py_recv.cpp 780-803. -/
def St.setField (s : St) (o : Nat) (c : Content) (f : Field) : Option Nat → St
  | some v => { s with objs := s.objs.set o (f.put c (some s.next)), released := s.released ++ (f.get c).toList, next := s.next + 1, mem := s.mem ++ [v] }
  | none => { s with objs := s.objs.set o (f.put c none), released := s.released ++ (f.get c).toList }

/-- `wrap_chunk` (src/py_recv.cpp 375-386), when its tests pass. -/
def St.wrap (s : St) (o : Nat) (c : Content) : St := { s with objs := s.objs.set o c.moved }

/-- The tests of `wrap_chunk` (src/py_recv.cpp 377-380). -/
def Content.valid (c : Content) : Bool := c.data.isSome && c.present.isSome

/-- The contents are moved back into the Python object (src/py_recv.cpp 365, 406); what it had is released. -/
def St.restore (s : St) (w : Wrapper) : St :=
  match s.objs[w.obj]? with
  | some c => { s with objs := s.objs.set w.obj w.c, released := s.released ++ c.bufs }
  | none => s

/-- A wrapper is destroyed. -/
def St.drop (s : St) (w : Wrapper) : St := { s with released := s.released ++ w.c.bufs }

def St.push (s : St) (r : Nat) (ring : Ring) (w : Wrapper) : St := { s with rings := s.rings.set r { ring with q := ring.q ++ [w] } }

/-- `memset` of the flags in `chunk_ring_pair::add_free_chunk` (include/spead2/recv_chunk_stream.h 832-833). -/
def St.clear (s : St) (c : Content) : St :=
  match c.present with
  | some b => { s with mem := s.mem.set b 0 }
  | none => s

/-- `put_nowait`: `push_chunk` with `try_push` (src/py_recv.cpp 391-410, 869-878; include/spead2/common_ringbuffer.h 551-566). -/
def St.putNowait (s : St) (o r : Nat) : Option (St × Res) :=
  match s.objs[o]?, s.rings[r]? with
  | some c, some ring =>
    if c.valid then
      if ring.stopped then some ((s.wrap o c).restore ⟨c, o⟩, .stopped)
      else if ring.q.length < ring.cap then some ((s.wrap o c).push r ring ⟨c, o⟩, .ok)
      else some ((s.wrap o c).restore ⟨c, o⟩, .full)
    else some (s, .valueError)
  | _, _ => none

/-- `put` up to where it waits (src/py_recv.cpp 391-401, 856-868). -/
def St.putBegin (s : St) (o r : Nat) : Option (St × Res) :=
  match s.objs[o]?, s.rings[r]? with
  | some c, some _ =>
    if c.valid then some ({ s.wrap o c with pend := s.pend ++ [(⟨c, o⟩, r)] }, .ok)
    else some (s, .valueError)
  | _, _ => none

/-- The end of `put` (include/spead2/common_ringbuffer.h 534-548, src/py_recv.cpp 402-408). -/
def St.putEnd (s : St) (i : Nat) : Option (St × Res) :=
  match s.pend[i]? with
  | some (w, r) =>
    match s.rings[r]? with
    | some ring =>
      if ring.stopped then some ({ s with pend := s.pend.eraseIdx i }.restore w, .stopped)
      else if ring.q.length < ring.cap then some ({ s with pend := s.pend.eraseIdx i }.push r ring w, .ok)
      else none
    | none => none
  | none => none

/-- An exception out of `semaphore_get` (include/spead2/py_common.h `semaphore_get`, src/py_recv.cpp 402-408). -/
def St.putInterrupt (s : St) (i : Nat) : Option (St × Res) :=
  match s.pend[i]? with
  | some (w, _) => some ({ s with pend := s.pend.eraseIdx i }.restore w, .interrupted)
  | none => none

/-- `get` and its variants: `unwrap_chunk` of what was popped (src/py_recv.cpp 360-367, 854-855, 886-895). -/
def St.get (s : St) (r : Nat) : Option (St × Res) :=
  match s.rings[r]? with
  | some ring =>
    match ring.q with
    | w :: q => some ({ s with rings := s.rings.set r { ring with q := q } }.restore w, .obj w.obj)
    | [] => some (s, if ring.stopped then .stopped else .empty)
  | none => none

/-- `add_free_chunk` (src/py_recv.cpp 810-822, 391-410; include/spead2/recv_chunk_stream.h 830-842): that the ring is stopped is suppressed below `push_chunk`, which then
destroys the wrapper. -/
def St.addFree (s : St) (o r : Nat) : Option (St × Res) :=
  match s.objs[o]?, s.rings[r]? with
  | some c, some ring =>
    if c.valid then
      if ring.stopped then some (((s.wrap o c).clear c).drop ⟨c, o⟩, .ok)
      else if ring.q.length < ring.cap then some (((s.wrap o c).clear c).push r ring ⟨c, o⟩, .ok)
      else some (((s.wrap o c).clear c).restore ⟨c, o⟩, .full)
    else some (s, .valueError)
  | _, _ => none

/-- `make_allocate` of a stream (include/spead2/recv_chunk_stream.h 844-862): a chunk is popped, if there is one. -/
def St.take (s : St) (r : Nat) : Option (St × Res) :=
  match s.rings[r]? with
  | some ring =>
    match ring.q with
    | w :: q => some ({ s with rings := s.rings.set r { ring with q := q }, held := s.held ++ [w] }, .ok)
    | [] => none
  | none => none

/-- A stream works on a chunk: its number is set, and data and flags are written. -/
def St.work (s : St) (i : Nat) (id : Int) (v : Nat) : Option (St × Res) :=
  match s.held[i]? with
  | some w => some ({ s with held := s.held.set i { w with c := { w.c with id := id } }, mem := w.c.bufs.foldl (fun m b => m.set b v) s.mem }, .ok)
  | none => none

/-- `make_ready` of a stream (include/spead2/recv_chunk_stream.h 864-886): `push`, which waits for space; if the ring is stopped, the chunk goes to the graveyard, which is
destroyed later. -/
def St.give (s : St) (i r : Nat) : Option (St × Res) :=
  match s.held[i]?, s.rings[r]? with
  | some w, some ring =>
    if ring.stopped then some ({ s with held := s.held.eraseIdx i }.drop w, .stopped)
    else if ring.q.length < ring.cap then some ({ s with held := s.held.eraseIdx i }.push r ring w, .ok)
    else none
  | _, _ => none

def St.step (s : St) : Ev → Option (St × Res)
  | .new => some ({ s with objs := s.objs ++ [{}] }, .obj s.objs.length)
  | .set o f v =>
    match s.objs[o]? with
    | some c => some (s.setField o c f v, .ok)
    | none => none
  | .putNowait o r => s.putNowait o r
  | .put o r => s.putBegin o r
  | .putEnd i => s.putEnd i
  | .putInterrupt i => s.putInterrupt i
  | .get r => s.get r
  | .addFree o r => s.addFree o r
  | .stop r =>
    match s.rings[r]? with
    | some ring => some ({ s with rings := s.rings.set r { ring with stopped := true } }, .ok)
    | none => none
  | .take r => s.take r
  | .work i id v => s.work i id v
  | .give i r => s.give i r

end Spead2.PyChunk

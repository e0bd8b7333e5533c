import Verif.Model.Wire

/-!
# The command line tool `spead2_send`

The class `sender` of src/spead2_send.cpp, on a stream that sends heaps in the order in which they were queued and then calls their callbacks in this
order (C38-C40, C64).  Everything but `run` itself happens in the one thread of the pool.

Not modelled: the parsing of options, the contents of descriptors, and time.  An index is a natural number (the code: 64 bits).
-/

namespace Spead2.SendTool

/-- What was asked for (src/spead2_send.cpp:49-58, src/spead2_cmdline.cpp:318-323).  `heaps` is an `int64_t`. -/
structure Options where
  heaps : Int
  dests : Nat
  maxHeaps : Nat
  items : Nat
  heapSize : Nat
  verify : Bool
  flavour : Flavour
  deriving DecidableEq

/-- The members of `sender` (src/spead2_send.cpp:124-141).  `cap` is the number of heaps that the stream takes at a time
(src/spead2_cmdline.cpp:332). -/
structure Sender where
  maxHeaps : Nat
  nSub : Nat
  nHeaps : Int
  elements : Nat
  items : Nat
  verify : Bool
  flavour : Flavour
  lastFlavour : Flavour
  cap : Nat
  deriving DecidableEq

/-- The constructor (src/spead2_send.cpp:157-213).  `flavour` is not in the list of initialisers (158-165), so it is the default.  `none`: a division by
zero, or (`memory_regions`, 215-218) the first element of an empty vector. -/
def Options.sender (o : Options) : Option Sender :=
  let maxHeaps := if o.heaps < 0 || o.heaps.toNat + o.dests > o.maxHeaps then o.maxHeaps else o.heaps.toNat + o.dests
  if o.items * 4 = 0 then none
  else if maxHeaps = 0 then none
  else some {
    maxHeaps := maxHeaps, nSub := o.dests, nHeaps := o.heaps, elements := o.heapSize / (o.items * 4), items := o.items, verify := o.verify,
    flavour := ⟨40, 0⟩, lastFlavour := o.flavour, cap := o.maxHeaps }

/-- `heap_size` (src/spead2_send.cpp:175-176). -/
def Sender.heapSize (c : Sender) : Nat := c.elements * 4 * c.items

/-- `pointers[i][j]` (src/spead2_send.cpp:206-207), from the start of the storage. -/
def Sender.pointer (c : Sender) (i j : Nat) : Nat := i * c.heapSize + j * (c.elements * 4)

/-- The three kinds of heaps: with descriptors and data, with data, and the end of the stream. -/
inductive What where
  | first
  | data
  | last
  deriving DecidableEq, Repr

/-- A heap that was given to the stream.  `contents` (ghost) is what its part of the storage held at that time. -/
structure Entry (α : Type) where
  idx : Nat
  what : What
  slot : Nat
  sub : Nat
  flavour : Flavour
  contents : α
  deriving DecidableEq

/-- The state of everything.  `sem` is `done_sem` and `gets` how often `run` has got something from it.  Ghosts: `queued` are the heaps that were given to
the stream, `done` the callbacks, `reads` what the stream has read of which heap. -/
structure St (α : Type) where
  started : Bool := false
  mem : Nat → α
  fills : Nat := 0
  inflight : List (Entry α) := []
  error : Option Nat := none
  bytes : Nat := 0
  sem : Nat := 0
  gets : Nat := 0
  queued : List (Entry α) := []
  done : List (Nat × Option Nat × Nat) := []
  reads : List (Nat × α) := []

variable {α : Type}

/-- Which heap `get_heap` chooses (src/spead2_send.cpp:220-228). -/
def Sender.what (c : Sender) (idx : Nat) : What :=
  if idx < c.nSub then .first
  else if 0 ≤ c.nHeaps && c.nHeaps.toNat ≤ idx then .last
  else .data

/-- `get_heap` (src/spead2_send.cpp:220-239), followed by `async_send_heap`.  `fill k` is what the `k`th filling with random values writes.  `none`: the
stream has no room, or an index is out of range. -/
def St.send (c : Sender) (fill : Nat → α) (s : St α) (idx : Nat) : Option (St α) :=
  let slot := idx % c.maxHeaps
  let what := c.what idx
  let s := if what ≠ .last && c.verify then { s with mem := fun j => if j = slot then fill s.fills else s.mem j, fills := s.fills + 1 } else s
  let e : Entry α := ⟨idx, what, slot, idx % c.nSub, if what = .last then c.lastFlavour else c.flavour, s.mem slot⟩
  if c.maxHeaps ≤ slot then none
  else if c.nSub = 0 then none
  else if c.cap ≤ s.inflight.length then none
  else some { s with inflight := s.inflight ++ [e], queued := s.queued ++ [e] }

/-- The loop that `run` posts (src/spead2_send.cpp:276-283), from `i` on. -/
def St.sendFrom (c : Sender) (fill : Nat → α) : Nat → Nat → St α → Option (St α)
  | 0, _, s => some s
  | k + 1, i, s => (s.send c fill i).bind fun s => s.sendFrom c fill k (i + 1)

/-- `std::uint64_t(n_heaps) + n_substreams` (src/spead2_send.cpp:256). -/
def Sender.limit (c : Sender) : Nat := ((c.nHeaps + c.nSub) % 2 ^ 64).toNat

/-- `callback` (src/spead2_send.cpp:241-266). -/
def St.callback (c : Sender) (fill : Nat → α) (s : St α) (idx : Nat) (ec : Option Nat) (bytes : Nat) : Option (St α) :=
  let s := { s with bytes := s.bytes + bytes, error := if ec.isSome && s.error.isNone then ec else s.error }
  if s.error.isSome then some { s with sem := s.sem + 1 }
  else if c.nHeaps = -1 || idx + c.maxHeaps < c.limit then s.send c fill (idx + c.maxHeaps)
  else some { s with sem := s.sem + 1 }

/-- What can happen: the posted function runs; the stream reads from the `k`th heap that it has; it is done with the first, with or without an error; `run`
gets something from the semaphore (src/spead2_send.cpp:284-285). -/
inductive Op where
  | start
  | read (k : Nat)
  | complete (ec : Option Nat) (bytes : Nat)
  | get
  deriving DecidableEq

/-- One step.  `none`: something went wrong.  A step that is not possible changes nothing. -/
def St.step (c : Sender) (fill : Nat → α) (s : St α) : Op → Option (St α)
  | .start => if s.started then some s else { s with started := true }.sendFrom c fill c.maxHeaps 0
  | .read k =>
    match s.inflight[k]? with
    | none => some s
    | some e => if e.what = .last then some s else some { s with reads := s.reads ++ [(e.idx, s.mem e.slot)] }
  | .complete ec bytes =>
    match s.inflight with
    | [] => some s
    | e :: rest => { s with inflight := rest, done := s.done ++ [(e.idx, ec, bytes)] }.callback c fill e.idx ec bytes
  | .get => if s.sem = 0 || c.maxHeaps ≤ s.gets then some s else some { s with sem := s.sem - 1, gets := s.gets + 1 }

/-- A history. -/
def St.run (c : Sender) (fill : Nat → α) (s : St α) : List Op → Option (St α)
  | [] => some s
  | op :: ops =>
    match s.step c fill op with
    | none => none
    | some s => s.run c fill ops

/-- What `run` returns, or throws (src/spead2_send.cpp:284-288); `none` if it is still waiting. -/
def St.result (c : Sender) (s : St α) : Option (Except Nat Nat) :=
  if s.gets < c.maxHeaps then none
  else
    match s.error with
    | some e => some (.error e)
    | none => some (.ok s.bytes)

end Spead2.SendTool

/-!
# The multi-packet receive queue

`ibv_wq_mprq_t` (include/spead2/common_ibv.h:370-400, src/common_ibv.cpp:543-620) and its use by `udp_ibv_mprq_reader`
(src/recv_udp_ibv_mprq.cpp:65-232), with a card that runs at the same time.  The card takes the work queue entries in the order
in which they were posted, puts a frame into as many strides of the entry as it needs, and reports each frame by a completion.
Three parties take turns in any order: the card, the thread that calls `start`, and the handler that polls.  (`start` holds
`reader_mutex`, the handler `queue_mutex`: include/spead2/recv_stream.h:1035-1054, 866-876.)

Not modelled: completions that report a failure, the lkey, and the waking of the handler (C63).
-/

namespace Spead2.Mprq

/-- The sizes that the constructor has chosen: bytes per stride, strides per work queue entry, entries, entries in the memory
of the work queue (a power of two), completions, and where a frame begins in its first stride (0, or 2 with
`two_byte_shift_en`). -/
structure Shape where
  stride : Nat
  n : Nat
  wqe : Nat
  cnt : Nat
  cqe : Nat
  shift : Nat
  deriving DecidableEq

/-- `wqe_size`. -/
def Shape.wqeSize (c : Shape) : Nat := c.n * c.stride

/-- `buffer_size`. -/
def Shape.bufSize (c : Shape) : Nat := c.wqe * c.wqeSize

/-- A work queue entry (`mlx5_mprq_wqe`, written at src/common_ibv.cpp:575-579): the address, counted from the start of the buffer, and the length. -/
structure Wqe where
  addr : Nat
  len : Nat
  deriving DecidableEq

/-- `ibv_wq_mprq_t`: counters modulo 2^32, and the two pieces of memory that the card reads. -/
structure Wq where
  head : Nat := 0
  tail : Nat := 0
  tailStrides : Nat := 0
  ring : List Wqe
  doorbell : Nat := 0

/-- `post_recv` (src/common_ibv.cpp:569-590).  `none`: the exception "Multi-packet receive queue is full". -/
def Wq.post (c : Shape) (q : Wq) (w : Wqe) : Option Wq :=
  if (q.head + 2 ^ 32 - q.tail) % 2 ^ 32 ≥ c.cnt then none
  else
    let head := (q.head + 1) % 2 ^ 32
    some { q with ring := q.ring.set (q.head &&& (c.cnt - 1)) w, head := head, doorbell := head &&& 0xffff }

/-- What `read_wc` gives. -/
structure Wc where
  len : Nat
  offset : Nat
  filler : Bool
  last : Bool
  deriving DecidableEq

/-- `read_wc` (src/common_ibv.cpp:592-620).  `none`: the assertion fails. -/
def Wq.readWc (c : Shape) (q : Wq) (word : Nat) : Option (Wq × Wc) :=
  let strides := word >>> 16
  let len := ((word &&& 0xffff) + 2 ^ 32 - c.shift) % 2 ^ 32
  let offset := (q.tailStrides * c.stride + c.shift) % 2 ^ 32
  let filler := strides &&& 0x8000 ≠ 0
  let strides := if filler then strides - 0x8000 else strides
  let ts := (q.tailStrides + strides) % 2 ^ 32
  if ts ≥ c.n then
    if ts ≤ c.n then some ({ q with tail := (q.tail + 1) % 2 ^ 32, tailStrides := 0 }, ⟨len, offset, filler, true⟩)
    else none
  else some ({ q with tailStrides := ts }, ⟨len, offset, filler, false⟩)

/-- The state of everything.  `posted` is how many entries `start` has posted; `view` is where the frame is that the handler
is working on; `last` says that the handler has seen the last completion of an entry and has not posted the entry again;
`polled` counts the completions that were read and whose places in the completion queue were not released; `out` are the frames
that the handler has got.  `hw` and `used` are the card's: entries used up, and strides of the current one.  `accepted` (ghost)
are the frames that the card has accepted. -/
structure St where
  q : Wq
  posted : Nat := 0
  start : Nat := 0
  last : Bool := false
  view : Option (Nat × Nat) := none
  polled : Nat := 0
  out : List (List UInt8) := []
  hw : Nat := 0
  used : Nat := 0
  mem : Nat → UInt8
  cq : List Nat := []
  accepted : List (List UInt8) := []

/-- After the constructor (src/recv_udp_ibv_mprq.cpp:132-223). -/
def St.init (c : Shape) (mem : Nat → UInt8) : St := { q := { ring := List.replicate c.cnt ⟨0, 0⟩ }, mem := mem }

/-- Bytes of the buffer. -/
def bytes (mem : Nat → UInt8) (pos len : Nat) : List UInt8 := (List.range len).map fun i => mem (pos + i)

/-- The card writes. -/
def write (mem : Nat → UInt8) (pos : Nat) (data : List UInt8) : Nat → UInt8 := fun a =>
  if pos ≤ a then (data[a - pos]?).getD (mem a) else mem a

/-- What can happen: `start` posts one more entry; a frame arrives; the card gives up the rest of an entry; the handler reads a
completion; the handler posts an entry again; the handler releases the completions and ends. -/
inductive Op where
  | start
  | frame (data : List UInt8)
  | filler
  | poll
  | repost
  | release

/-- How many strides a frame needs (at least one). -/
def Shape.strides (c : Shape) (len : Nat) : Nat := max 1 ((len + c.shift + c.stride - 1) / c.stride)

/-- The card uses `ns` strides and reports `word`. `none`: it would write outside the entry or the buffer, or the completion
queue is full. -/
def St.complete (c : Shape) (s : St) (w : Wqe) (ns word : Nat) : Option St :=
  if w.len < (s.used + ns) * c.stride ∨ c.bufSize < w.addr + w.len then none
  else if c.cqe ≤ s.polled + s.cq.length then none
  else
    let s := { s with cq := s.cq ++ [word] }
    if s.used + ns = c.n then some { s with hw := s.hw + 1, used := 0 } else some { s with used := s.used + ns }

/-- One step.  `none`: something went wrong (an exception, an assertion, a write outside the buffer, a full completion queue).
A step that is not possible changes nothing. -/
def St.step (c : Shape) (s : St) : Op → Option St
  | .start =>
    -- src/recv_udp_ibv_mprq.cpp:229-230, 65-72
    if s.posted < c.wqe then
      (s.q.post c ⟨s.posted * c.wqeSize, c.wqeSize⟩).map fun q => { s with q := q, posted := s.posted + 1 }
    else some s
  | .frame data =>
    -- the card: without an entry, or if the frame does not fit into the rest of the entry, the frame is dropped
    if s.q.doorbell = s.hw % 65536 then some s
    else
      match s.q.ring[s.hw % c.cnt]? with
      | none => none
      | some w =>
        let ns := c.strides data.length
        if c.n < s.used + ns ∨ 65536 ≤ data.length + c.shift then some s
        else
          (s.complete c w ns (data.length + c.shift + ns * 65536)).map fun t =>
            { t with mem := write s.mem (w.addr + s.used * c.stride + c.shift) data, accepted := s.accepted ++ [data] }
  | .filler =>
    if s.q.doorbell = s.hw % 65536 then some s
    else
      match s.q.ring[s.hw % c.cnt]? with
      | none => none
      | some w => s.complete c w (c.n - s.used) ((c.n - s.used) * 65536 + 0x80000000)
  | .poll =>
    -- src/recv_udp_ibv_mprq.cpp:84-116
    if s.last then some s
    else
      match s.cq with
      | [] => some s
      | word :: cq =>
        match s.q.readWc c word with
        | none => none
        | some (q, wc) =>
          let s := { s with cq := cq, q := q, polled := s.polled + 1, last := wc.last }
          if wc.filler then some { s with view := none }
          else some { s with view := some (s.start + wc.offset, wc.len), out := s.out ++ [bytes s.mem (s.start + wc.offset) wc.len] }
  | .repost =>
    -- src/recv_udp_ibv_mprq.cpp:117-128
    if s.last then
      (s.q.post c ⟨s.start, c.wqeSize⟩).map fun q =>
        { s with
          q := q, last := false, view := none, polled := 0
          start := if s.start + c.wqeSize = c.bufSize then 0 else s.start + c.wqeSize }
    else some s
  | .release => if s.last then some s else some { s with view := none, polled := 0 }

/-- A history. -/
def St.run (c : Shape) (s : St) : List Op → Option St
  | [] => some s
  | op :: ops =>
    match s.step c op with
    | none => none
    | some s => s.run c ops

/-! ## The constructor -/

/-- What the card says about itself (`mlx5dv_striding_rq_caps` and `ibv_device_attr`). -/
structure Caps where
  minStrideLog : Nat
  maxStrideLog : Nat
  minNumLog : Nat
  maxNumLog : Nat
  maxCqe : Nat
  maxQpWr : Nat

/-- `std::clamp`. -/
def clamp (x lo hi : Nat) : Nat := if x < lo then lo else if hi < x then hi else x

/-- The sizes (src/recv_udp_ibv_mprq.cpp:146-182, 200-206).  `none`: "Insufficient resources".  `cnt`, the number of entries in the
memory of the work queue, is chosen by the driver for `wqe` entries.  The second part is the buffer size. -/
def sizes (bufferSize : Nat) (d : Caps) (cnt : Nat → Nat) : Option (Shape × Nat) :=
  let strideLog := clamp 6 d.minStrideLog d.maxStrideLog
  let numLog := clamp (20 - strideLog) d.minNumLog d.maxNumLog
  let wqeSize := 2 ^ (strideLog + numLog)
  let buffer := if bufferSize < 2 * wqeSize then 2 * wqeSize else bufferSize
  let strides := buffer >>> strideLog
  let strides := if d.maxCqe < strides then d.maxCqe else strides
  let wqe := strides >>> numLog
  let wqe := if d.maxQpWr < wqe then d.maxQpWr else wqe
  if wqe < 2 then none
  else some (⟨2 ^ strideLog, 2 ^ numLog, wqe, cnt wqe, strides, 0⟩, wqe * wqeSize)

end Spead2.Mprq

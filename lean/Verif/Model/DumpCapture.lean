/-!
# The capture of mcdump

Model of `capture_base` (src/mcdump.cpp 420-559, 646-723) with its two kinds, `capture` (725-904) and
`capture_mprq` (908-1129): the network thread, the collecting thread, the chunks of memory that go around
between them and the network card, and what the card does with frames.  The bytes that the collecting
thread passes to `writer::write` are `out`; C77 says that they become the file.  The rings are
queues (C33-C35).  The host is little-endian.  Not modelled: the mode without a file, the report of
rates, flow steering and multicast.
-/

namespace Spead2.Cap

/-- What does not change. -/
structure Cfg where
  /-- `capture_mprq` rather than `capture` -/
  mprq : Bool
  snaplen : Nat
  /-- `chunking.max_records`: packets per chunk (`capture`) or strides per chunk (`capture_mprq`) -/
  maxRecords : Nat
  /-- bytes per stride (`capture_mprq`) -/
  stride : Nat
  /-- `opts.count`; `none` is the default, which is never counted down -/
  count : Option Nat
  /-- `timestamp_support` -/
  timestamps : Bool

/-- A frame and the time at which it arrives in nanoseconds. -/
structure Frame where
  data : List UInt8
  ns : Nat
  deriving DecidableEq

/-- A 16-bit field in memory. -/
def le16 (n : Nat) : List UInt8 := [UInt8.ofNat n, UInt8.ofNat (n / 256)]

/-- A 32-bit field in memory. -/
def le32 (n : Nat) : List UInt8 :=
  [UInt8.ofNat n, UInt8.ofNat (n / 256), UInt8.ofNat (n / 65536), UInt8.ofNat (n / 16777216)]

/-- `file_header` (src/mcdump.cpp 183-192). -/
def fileHeader (snaplen : Nat) : List UInt8 :=
  le32 0xa1b23c4d ++ le16 2 ++ le16 4 ++ le32 0 ++ le32 0 ++ le32 snaplen ++ le32 1

/-- `record_header` (src/mcdump.cpp 195-201). -/
structure Header where
  sec : Nat
  nsec : Nat
  incl : Nat
  orig : Nat
  deriving DecidableEq

def Header.bytes (h : Header) : List UInt8 := le32 h.sec ++ le32 h.nsec ++ le32 h.incl ++ le32 h.orig

/-- `chunk` (src/mcdump.cpp 214-223): `header i` is `entries[i].record`, `base i` the position in
`storage` to which `iov[2 * i + 1].iov_base` points and `len i` its `iov_len`.  Positions are counted in
slots of `snaplen` bytes (`capture`) or in strides (`capture_mprq`). -/
structure Chunk where
  id : Nat
  n : Nat
  full : Bool
  header : Nat → Header
  base : Nat → Nat
  len : Nat → Nat

/-- Entries of the completion queue.  For a frame: the slot and how many slots it takes, the length, the
time, and whether it is the last of the chunk.  `capture_mprq` also gets fillers, which use up a chunk. -/
inductive Cqe where
  | ok (c slot k len ns : Nat) (last : Bool)
  | filler (c slot k : Nat)
  | fail
  deriving DecidableEq

/-- The network thread: before the test of the outer loop, waiting for a chunk (`free_ring.pop()`), in the
inner loop (with `expect`), finished. -/
inductive Net where
  | top
  | pop
  | inner (c : Chunk) (expect : Nat)
  | done

/-- The collecting thread: before the file header, waiting for a chunk, writing the `i`th piece of a chunk,
finished. -/
inductive Coll where
  | start
  | idle
  | writing (c : Chunk) (i : Nat)
  | finished

structure St where
  /-- slots that the card may write to, in order -/
  posted : List (Nat × Nat)
  /-- the queue pair is in the error state -/
  broken : Bool
  /-- what a chunk has at a slot -/
  mem : Nat → Nat → List UInt8
  cq : List Cqe
  free : List Chunk
  ring : List Chunk
  ringStopped : Bool
  net : Net
  coll : Coll
  out : List UInt8
  stop : Bool
  /-- `remaining_count` -/
  remaining : Option Nat
  packets : Nat
  bytes : Nat
  errors : Nat
  /-- history: the frames that the card has put into memory, in order -/
  delivered : List Frame

/-- `make_chunk` (src/mcdump.cpp 469-497).  The fields that it leaves uninitialised have any value. -/
def makeChunk (junkHeader : Nat → Header) (junkLen : Nat → Nat) (id : Nat) : Chunk :=
  { id := id, n := 0, full := false, header := junkHeader, base := fun i => i, len := junkLen }

/-- The slots of a chunk. -/
def slots (cfg : Cfg) (id : Nat) : List (Nat × Nat) := (List.range cfg.maxRecords).map (fun i => (id, i))

/-- The start (src/mcdump.cpp 672-682): every chunk is posted and put on the free ring. -/
def St.init (cfg : Cfg) (nChunks : Nat) (mem : Nat → Nat → List UInt8) (junkHeader : Nat → Header)
    (junkLen : Nat → Nat) : St :=
  { posted := (List.range nChunks).flatMap (slots cfg), broken := false, mem := mem, cq := []
    free := (List.range nChunks).map (makeChunk junkHeader junkLen), ring := [], ringStopped := false
    net := .top, coll := .start, out := [], stop := false, remaining := cfg.count, packets := 0, bytes := 0
    errors := 0, delivered := [] }

/-! ## The network card -/

/-- How many slots a frame takes. -/
def width (cfg : Cfg) (len : Nat) : Nat :=
  if cfg.mprq then max 1 ((len + cfg.stride - 1) / cfg.stride) else 1

def updMem (m : Nat → Nat → List UInt8) (c i : Nat) (d : List UInt8) : Nat → Nat → List UInt8 :=
  fun c' i' => if c' = c ∧ i' = i then d else m c' i'

/-- An error: the queue pair goes to the error state, no work request that is posted will be used, and
there is a completion with an error (further ones for the other work requests are further such steps). -/
def hwFail (s : St) : St := { s with broken := true, posted := [], cq := s.cq ++ [.fail] }

/-- A frame arrives.  Without a buffer for it the card drops it.  Without MPRQ a frame that is longer than
the buffer is an error.  With MPRQ a frame that does not fit into the strides left in the chunk needs a
filler first. -/
def hwFrame (cfg : Cfg) (s : St) (f : Frame) : St :=
  match s.posted with
  | [] => s
  | (c, i) :: _ =>
    let k := width cfg f.data.length
    if cfg.mprq = false ∧ cfg.snaplen < f.data.length then hwFail s
    else if i + k ≤ cfg.maxRecords then
      { s with posted := s.posted.drop k, mem := updMem s.mem c i f.data, cq := s.cq ++ [.ok c i k f.data.length f.ns (i + k = cfg.maxRecords)], delivered := s.delivered ++ [f] }
    else s

/-- The card gives up the rest of a chunk (MPRQ only). -/
def hwFiller (cfg : Cfg) (s : St) : St :=
  match s.posted with
  | [] => s
  | (c, i) :: _ =>
    if cfg.mprq then
      { s with posted := s.posted.drop (cfg.maxRecords - i), cq := s.cq ++ [.filler c i (cfg.maxRecords - i)] }
    else s

/-- `post_chunk` (src/mcdump.cpp 884-887, 1115-1123). -/
def post (cfg : Cfg) (s : St) (id : Nat) : St :=
  if s.broken then s else { s with posted := s.posted ++ slots cfg id }

/-! ## The network thread -/

/-- `remaining_count--` unless there is no limit (src/mcdump.cpp 862-863, 1070-1071). -/
def dec : Option Nat → Option Nat
  | none => none
  | some r => some (r - 1)

/-- The record header (src/mcdump.cpp 843-855, 1074-1086). -/
def mkHeader (cfg : Cfg) (len ns : Nat) : Header :=
  { sec := if cfg.timestamps then ns / 1000000000 else 0
    nsec := if cfg.timestamps then ns % 1000000000 else 0
    incl := if cfg.mprq then (if len ≤ cfg.snaplen then len else cfg.snaplen) else len
    orig := len }

def upd {γ : Type} (f : Nat → γ) (i : Nat) (b : γ) : Nat → γ := fun j => if j = i then b else f j

/-- src/mcdump.cpp 839-859: the record at index `cq->wr_id`, which is the slot. -/
def recordPlain (cfg : Cfg) (c : Chunk) (slot len ns : Nat) : Chunk :=
  { c with header := upd c.header slot (mkHeader cfg len ns), len := upd c.len slot len, n := c.n + 1 }

/-- src/mcdump.cpp 1072-1094: the record at index `c.n_records`, with the position that the completion gives. -/
def recordMprq (cfg : Cfg) (c : Chunk) (slot len ns : Nat) (last : Bool) : Chunk :=
  { c with header := upd c.header c.n (mkHeader cfg len ns), base := upd c.base c.n slot, len := upd c.len c.n (mkHeader cfg len ns).incl, n := c.n + 1, full := c.full || last }

/-- One completion in `capture::network_thread` (src/mcdump.cpp 828-864). -/
def pollPlain (cfg : Cfg) (s : St) (c : Chunk) (e : Nat) : Cqe → St
  | .ok _ slot _ len ns _ =>
    { s with net := .inner (recordPlain cfg c slot len ns) (e - 1), packets := s.packets + 1, bytes := s.bytes + len, remaining := dec s.remaining }
  | .filler _ _ _ => s
  | .fail => { s with net := .inner c (e - 1), errors := s.errors + 1, remaining := dec s.remaining }

/-- One completion in `capture_mprq::network_thread` (src/mcdump.cpp 1054-1096). -/
def pollMprq (cfg : Cfg) (s : St) (c : Chunk) : Cqe → St
  | .ok _ slot _ len ns last =>
    { s with net := .inner (recordMprq cfg c slot len ns last) 0, packets := s.packets + 1, bytes := s.bytes + len, remaining := dec s.remaining }
  | .filler _ _ _ => { s with net := .inner { c with full := true } 0 }
  | .fail => { s with errors := s.errors + 1 }

/-- The test of the inner loop fails (src/mcdump.cpp 826, 1052). -/
def leaves (cfg : Cfg) (s : St) (c : Chunk) (e : Nat) : Bool :=
  s.stop || (if cfg.mprq then s.remaining == some 0 || c.full else e == 0)

/-- The end of the inner loop (src/mcdump.cpp 879-880, 1111). -/
def leave (cfg : Cfg) (s : St) (c : Chunk) : St :=
  { s with ring := s.ring ++ [if cfg.mprq then c else { c with full := c.n == cfg.maxRecords }], net := .top }

/-- `expect` (src/mcdump.cpp 823-825). -/
def expect (cfg : Cfg) (remaining : Option Nat) : Nat :=
  match remaining with
  | none => cfg.maxRecords
  | some r => if r < cfg.maxRecords then r else cfg.maxRecords

/-- The network thread goes on (src/mcdump.cpp 820-881, 1049-1112); `run` stops the ring after it (line 700). -/
def netStep (cfg : Cfg) (s : St) : St :=
  match s.net with
  | .top =>
    if s.stop ∨ s.remaining = some 0 then { s with net := .done, ringStopped := true }
    else { s with net := .pop }
  | .pop =>
    match s.free with
    | [] => s
    | c :: fs => { s with free := fs, net := .inner c (if cfg.mprq then 0 else expect cfg s.remaining) }
  | .inner c e =>
    if leaves cfg s c e then leave cfg s c
    else
      match s.cq with
      | [] => s
      | q :: qs => if cfg.mprq then pollMprq cfg { s with cq := qs } c q else pollPlain cfg { s with cq := qs } c e q
  | .done => s

/-! ## The collecting thread -/

/-- What `iov[i]` refers to. -/
def iov (m : Nat → Nat → List UInt8) (c : Chunk) (i : Nat) : List UInt8 :=
  if i % 2 = 0 then (c.header (i / 2)).bytes else (m c.id (c.base (i / 2))).take (c.len (i / 2))

/-- `add_to_free` (src/mcdump.cpp 499-506). -/
def addToFree (cfg : Cfg) (s : St) (c : Chunk) : St :=
  let s := post cfg s c.id
  { s with free := s.free ++ [{ c with n := 0, full := false }] }

/-- `chunk_done` (src/mcdump.cpp 508-524). -/
def chunkDone (cfg : Cfg) (s : St) (c : Chunk) : St :=
  if c.full then addToFree cfg s c else { s with free := s.free ++ [c] }

/-- `collect_thread` goes on (src/mcdump.cpp 534-559). -/
def collStep (cfg : Cfg) (s : St) : St :=
  match s.coll with
  | .start => { s with out := s.out ++ fileHeader cfg.snaplen, coll := .idle }
  | .idle =>
    match s.ring with
    | c :: r => { s with ring := r, coll := .writing c 0 }
    | [] => if s.ringStopped then { s with coll := .finished } else s
  | .writing c i =>
    if i < 2 * c.n then { s with out := s.out ++ iov s.mem c i, coll := .writing c (i + 1) }
    else chunkDone cfg { s with coll := .idle } c
  | .finished => s

/-! ## All together -/

/-- What can happen next. -/
inductive Op where
  | frame (f : Frame)
  | filler
  | fail
  | net
  | coll
  | interrupt

/-- One step. -/
def step (cfg : Cfg) (s : St) : Op → St
  | .frame f => hwFrame cfg s f
  | .filler => hwFiller cfg s
  | .fail => hwFail s
  | .net => netStep cfg s
  | .coll => collStep cfg s
  | .interrupt => { s with stop := true }

/-- A history. -/
def run (cfg : Cfg) : St → List Op → St
  | s, [] => s
  | s, op :: ops => run cfg (step cfg s op) ops

end Spead2.Cap

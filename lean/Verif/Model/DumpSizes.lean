/-!
# How mcdump divides its network buffer

Model of `capture::sizes` and `capture_mprq::sizes` (src/mcdump.cpp 767-800, 981-1035), of what the two
constructors ask the network card for (743-765, 930-979), of `make_chunk` (468-497) and of `post_chunk`
(884-887, 1115-1123).  `std::size_t` has 64 bits.  The limits that the card reports are not negative.
-/

namespace Spead2.Sizes

/-- Conversion to `std::size_t`. -/
def u64 (n : Nat) : Nat := n % 2 ^ 64

/-- Conversion to `std::uint32_t` or `unsigned int`. -/
def u32 (n : Nat) : Nat := n % 2 ^ 32

/-- The fields of `ibv_device_attr` that are used (src/mcdump.cpp 779-783, 1018). -/
structure Device where
  maxCqe : Nat
  maxQpWr : Nat
  maxMr : Nat

/-- `chunking_scheme` (src/mcdump.cpp 385-390). -/
structure Scheme where
  maxRecords : Nat
  nChunks : Nat
  chunkSize : Nat
  deriving DecidableEq

/-- `capture::sizes` (src/mcdump.cpp 767-800).  `none`: a division by zero.  `device_chunks` (lines 781-783)
is computed there but not used. -/
def plainSizes (snaplen netBuffer : Nat) (dev : Device) : Option Scheme :=
  if snaplen = 0 then none
  else
    let records0 := if 2 * 1024 * 1024 / snaplen = 0 then 1 else 2 * 1024 * 1024 / snaplen
    let chunkSize := u64 (records0 * snaplen)
    if chunkSize = 0 then none
    else
      let chunks0 := if netBuffer / chunkSize = 0 then 1 else netBuffer / chunkSize
      let slots := min dev.maxCqe dev.maxQpWr
      let records := if slots < records0 then slots else records0
      if slots < u64 (chunks0 * records) then
        if records = 0 then none
        else some ⟨records, slots / records, u64 (snaplen * records)⟩
      else some ⟨records, chunks0, u64 (snaplen * records)⟩

/-- `striding_rq_caps` of `mlx5dv_context` (src/mcdump.cpp 1000-1011). -/
structure Striding where
  minStride : Nat
  maxStride : Nat
  minStrides : Nat
  maxStrides : Nat

/-- `std::clamp`. -/
def clamp (v lo hi : Nat) : Nat := if v < lo then lo else if hi < v then hi else v

/-- `capture_mprq::sizes` for a card that supports it (src/mcdump.cpp 996-1034): the logarithms of the bytes
per stride and of the strides per chunk, and the result.  `1 << log_strides_per_chunk` is computed as an
`int`, so the model is faithful for logarithms below 31. -/
def mprqSizes (netBuffer : Nat) (dev : Device) (caps : Striding) : Option Scheme :=
  let logStride := clamp 6 caps.minStride caps.maxStride
  let logStrides := clamp (u32 (u64 (2 ^ 64 + 21 - logStride))) caps.minStrides caps.maxStrides
  let records := 2 ^ logStrides
  let chunkSize := u64 (records * 2 ^ logStride)
  if chunkSize = 0 then none
  else
    let chunks0 := if netBuffer / chunkSize = 0 then 1 else netBuffer / chunkSize
    let deviceChunks := min dev.maxQpWr dev.maxMr
    some ⟨records, if deviceChunks < chunks0 then deviceChunks else chunks0, chunkSize⟩

/-- `log2i` (src/mcdump.cpp 924-931); `none` if the loop does not end or the assertion fails. -/
def log2i (v : Nat) : Option Nat :=
  if h : v ≤ 1 then (if v = 1 then some 0 else none)
  else if v % 2 = 1 then none
  else (log2i (v / 2)).map (· + 1)
termination_by v
decreasing_by omega

/-- What is asked of the card: entries of the completion queue, outstanding receives, memory regions
(one per chunk, lines 478, 679-680) and the bytes of memory. -/
structure Request where
  cqe : Nat
  wr : Nat
  regions : Nat
  bytes : Nat

/-- `capture::capture` (src/mcdump.cpp 743-765) and `run` (679-680). -/
def plainRequest (s : Scheme) : Request :=
  { cqe := u32 (s.nChunks * s.maxRecords), wr := u32 (s.nChunks * s.maxRecords)
    regions := s.nChunks, bytes := s.nChunks * s.chunkSize }

/-- `capture_mprq::capture_mprq` (src/mcdump.cpp 930-956): a receive is for a whole chunk. -/
def mprqRequest (s : Scheme) : Request :=
  { cqe := u32 (s.maxRecords * s.nChunks), wr := u32 s.nChunks
    regions := s.nChunks, bytes := s.nChunks * s.chunkSize }

/-- The shape of the receive queue (src/mcdump.cpp 946, 955-956): `log2i` of the stride and of the number of
strides. -/
def mprqShape (s : Scheme) : Option (Nat × Nat) :=
  match log2i (s.chunkSize / s.maxRecords), log2i s.maxRecords with
  | some a, some b => some (a, b)
  | _, _ => none

/-- `chunk_entry` (src/mcdump.cpp 206-211) and the second `iovec` that belongs to it. -/
structure Entry where
  wrId : Nat
  next : Option Nat
  addr : Nat
  length : Nat
  iovBase : Nat

/-- The loop of `make_chunk` from `i` on, with `left` rounds to go (src/mcdump.cpp 481-495). -/
def entriesFrom (snaplen maxRecords : Nat) : Nat → Nat → Nat → List Entry
  | 0, _, _ => []
  | left + 1, i, ptr =>
    { wrId := i, next := if i + 1 < maxRecords then some (i + 1) else none
      addr := ptr, length := snaplen, iovBase := ptr } ::
      entriesFrom snaplen maxRecords left (i + 1) (ptr + snaplen)

/-- `make_chunk` (src/mcdump.cpp 468-497) for a chunk whose memory starts at `storage`. -/
def makeChunk (snaplen maxRecords storage : Nat) : List Entry :=
  entriesFrom snaplen maxRecords maxRecords 0 storage

/-- `post_recv` of the entry `i` and those that follow it by `next` (src/mcdump.cpp 884-887); at most `fuel` of
them are looked at. -/
def follow (es : List Entry) : Nat → Nat → List Entry
  | 0, _ => []
  | fuel + 1, i =>
    match es[i]? with
    | none => []
    | some e => e :: (match e.next with | none => [] | some j => follow es fuel j)

end Spead2.Sizes

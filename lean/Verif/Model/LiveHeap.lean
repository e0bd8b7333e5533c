import Verif.Model.Wire

/-!
# Receiver: heaps under construction

Models src/recv_live_heap.cpp. Signed 64-bit quantities are natural numbers here: offsets, lengths and
addresses come from fields of at most 56 bits, so none of the sums can overflow. "-1 for unknown" is
`none`. The memory allocator returns a fresh buffer of the requested size with unspecified contents
(`none` bytes); allocators that hand out other memory (chunk streams) are modelled separately.
-/

namespace Spead2

/-- A decoded packet (`struct packet_header`, include/spead2/recv_packet.h:33-59) with its item pointers
loaded and its payload bytes extracted. -/
structure Pkt where
  hab : Nat
  heapCnt : Nat
  heapLength : Option Nat
  payloadOffset : Nat
  payload : Bytes
  pointers : List Nat
  deriving DecidableEq, Repr

/-- Read `n` item pointers starting at byte `pos` (`load_be` in the loop of src/recv_live_heap.cpp:104-106).
`none`: out of bounds. -/
def loadPointers? (d : Bytes) : Nat → Nat → Option (List Nat)
  | 0, _ => some []
  | n + 1, pos =>
    match load64? d pos with
    | none => none
    | some p =>
      match loadPointers? d n (pos + 8) with
      | none => none
      | some l => some (p :: l)

/-- The view of a decoded header that the rest of the receiver uses. `none`: reading the item pointers or
the payload would leave the datagram. -/
def PacketHeader.toPkt? (d : Bytes) (h : PacketHeader) : Option Pkt :=
  match loadPointers? d h.nItems h.pointers, slice? d h.payload h.payloadLength.toNat with
  | some ptrs, some payload =>
    some { hab := h.heapAddressBits, heapCnt := h.heapCnt.toNat,
           heapLength := if h.heapLength < 0 then none else some h.heapLength.toNat,
           payloadOffset := h.payloadOffset.toNat, payload := payload, pointers := ptrs }
  | _, _ => none

/-- What a reader does with a datagram before `add_packet` (src/recv_udp_base.cpp:39-45,
src/recv_stream.cpp:700-704): decode it. Outer `none`: a read outside the datagram; inner `none`: rejected. -/
def recvPkt? (d : Bytes) : Option (Option Pkt) :=
  match decodePacket d with
  | none => none
  | some none => some none
  | some (some (h, _)) => (h.toPkt? d).map some

/-- Storage of the item pointers (include/spead2/recv_live_heap.h:105-129): an inline array of at most 8,
later a vector together with a set (a list used only for membership). -/
inductive PtrStore
  | inline (l : List Nat)
  | external (vec : List Nat) (set : List Nat)
  deriving DecidableEq, Repr

/-- `pointers_begin` .. `pointers_end` (src/recv_live_heap.cpp:264-278). -/
def PtrStore.list : PtrStore → List Nat
  | .inline l => l
  | .external v _ => v

/-- `class live_heap` (include/spead2/recv_live_heap.h:71-155). `payload` holds `payload_reserved` bytes. -/
structure LiveHeap where
  cnt : Nat
  hab : Nat
  heapLength : Option Nat := none
  received : Nat := 0
  minLength : Nat := 0
  endOfStream : Bool := false
  payload : List (Option UInt8) := []
  ptrs : PtrStore := .inline []
  ranges : List (Nat × Nat) := []
  deriving DecidableEq, Repr

/-- Constructor (src/recv_live_heap.cpp:35-42). -/
def LiveHeap.new (p : Pkt) : LiveHeap := { cnt := p.heapCnt, hab := p.hab }

/-- `payload_reserve` (src/recv_live_heap.cpp:44-60): the old contents are copied to the start of the new
buffer, the rest is uninitialised. -/
def payloadReserve (payload : List (Option UInt8)) (size : Nat) (exact : Bool) : List (Option UInt8) :=
  if size > payload.length then
    let size := if !exact && size < payload.length * 2 then payload.length * 2 else size
    payload ++ List.replicate (size - payload.length) none
  else payload

/-- End of `add_payload_range` (src/recv_live_heap.cpp:93-98): the entry ending at `last` is merged with the
following one if they touch. -/
def joinRange (pre : List (Nat × Nat)) (start last : Nat) : List (Nat × Nat) → List (Nat × Nat)
  | [] => pre ++ [(start, last)]
  | nx :: rest =>
    if nx.1 = last then pre ++ (start, nx.2) :: rest
    else pre ++ (start, last) :: nx :: rest

/-- `add_payload_range` (src/recv_live_heap.cpp:62-99). The `std::map` is a list sorted by key; `lo` are
the entries up to `upper_bound(first)`, `hi` the entries from there. `none`: rejected, map unchanged. -/
def addRange (m : List (Nat × Nat)) (first last : Nat) : Option (List (Nat × Nat)) :=
  let lo := m.takeWhile (fun r => r.1 ≤ first)
  let hi := m.dropWhile (fun r => r.1 ≤ first)
  if hi.head?.any (fun nx => nx.1 < last) then none
  else
    let merged : Option (List (Nat × Nat) × Nat) :=
      match lo.getLast? with
      | none => some (lo, first)
      | some prev =>
        if prev.2 < first then some (lo, first)
        else if prev.2 = first then some (lo.dropLast, prev.1)
        else none
    merged.map (fun x => joinRange x.1 x.2 last hi)

/-- `max_inline_pointers` (include/spead2/recv_live_heap.h:80). -/
def maxInlinePointers : Nat := 8

/-- The test at src/recv_live_heap.cpp:116-120. -/
def PtrStore.seen : PtrStore → Nat → Bool
  | .inline l, p => l.contains p
  | .external _ s, p => s.contains p

/-- Storing a new pointer (src/recv_live_heap.cpp:123-142). -/
def PtrStore.insert (st : PtrStore) (p : Nat) : PtrStore :=
  match st with
  | .inline l =>
    if l.length = maxInlinePointers then .external (l ++ [p]) (p :: l) else .inline (l ++ [p])
  | .external v s => .external (v ++ [p]) (p :: s)

/-- One iteration of `add_pointers` (src/recv_live_heap.cpp:104-148). -/
def LiveHeap.addPointer (s : LiveHeap) (p : Nat) : LiveHeap :=
  let s := if isImmediate p then s else { s with minLength := max s.minLength (getAddress s.hab p) }
  let id := getId s.hab p
  if id = 0 ∨ id > PAYLOAD_LENGTH_ID then
    if s.ptrs.seen p then s
    else
      let s := { s with ptrs := s.ptrs.insert p }
      if id = STREAM_CTRL_ID ∧ isImmediate p ∧ getImmediate s.hab p = CTRL_STREAM_STOP then
        { s with endOfStream := true }
      else s
  else s

/-- `add_pointers` (src/recv_live_heap.cpp:101-149). -/
def LiveHeap.addPointers (s : LiveHeap) (ps : List Nat) : LiveHeap := ps.foldl LiveHeap.addPointer s

/-- The default `packet_memcpy` (src/recv_stream.cpp:310-325): copy the payload to its offset.
`none`: the copy would leave the buffer. -/
def writePayload (buf : List (Option UInt8)) (off : Nat) (data : Bytes) : Option (List (Option UInt8)) :=
  if off + data.length ≤ buf.length then
    some (buf.take off ++ data.map some ++ buf.drop (off + data.length))
  else none

/-- The test at src/recv_live_heap.cpp:161-163. -/
def lengthConflict : Option Nat → Option Nat → Bool
  | some a, some b => decide (b ≠ a)
  | _, _ => false

/-- The test at src/recv_live_heap.cpp:169. -/
def lengthTooSmall (minLength : Nat) : Option Nat → Bool
  | some b => decide (b < minLength)
  | none => false

/-- The acceptance test that precedes any change of state (src/recv_live_heap.cpp:160-203): the new
`payload_ranges`, or `none` when the packet is rejected. -/
def LiveHeap.admit (s : LiveHeap) (p : Pkt) (ooo : Bool) : Option (List (Nat × Nat)) :=
  if lengthConflict s.heapLength p.heapLength then none
  else if lengthTooSmall s.minLength p.heapLength then none
  else if p.hab ≠ s.hab then none
  else if ooo then addRange s.ranges p.payloadOffset (p.payloadOffset + p.payload.length)
  else if p.payloadOffset = s.received then some s.ranges
  else none

/-- Recording the heap length and reserving memory (src/recv_live_heap.cpp:209-222). -/
def LiveHeap.grow (s : LiveHeap) (p : Pkt) : LiveHeap :=
  match p.heapLength with
  | some b =>
    match s.heapLength with
    | none =>
      let m := max s.minLength b
      { s with heapLength := some b, minLength := m, payload := payloadReserve s.payload m true }
    | some _ => s
  | none =>
    let m := max s.minLength (p.payloadOffset + p.payload.length)
    { s with minLength := m, payload := payloadReserve s.payload m false }

/-- `add_packet` (src/recv_live_heap.cpp:151-233): the new state and whether the packet was accepted.
`none`: undefined behaviour (copy outside the buffer). -/
def LiveHeap.addPacket (s : LiveHeap) (p : Pkt) (ooo : Bool) : Option (LiveHeap × Bool) :=
  match s.admit p ooo with
  | none => some (s, false)
  | some ranges =>
    let s := { s with ranges := ranges }
    let s := s.grow p
    let s := s.addPointers p.pointers
    if p.payload.length > 0 then
      match writePayload s.payload p.payloadOffset p.payload with
      | none => none
      | some buf => some ({ s with payload := buf, received := s.received + p.payload.length }, true)
    else some (s, true)

/-- `is_contiguous` (src/recv_live_heap.cpp:244-247). -/
def LiveHeap.isContiguous (s : LiveHeap) : Bool := s.received = s.minLength

/-- `is_complete` (src/recv_live_heap.cpp:235-242). -/
def LiveHeap.isComplete (s : LiveHeap) : Bool := s.heapLength = some s.received ∧ s.received = s.minLength

/-- The ranges of an `incomplete_heap` built from the heap with `keep_payload_ranges`
(src/recv_heap.cpp:322-337). -/
def LiveHeap.reportedRanges (s : LiveHeap) : List (Nat × Nat) :=
  if s.ranges = [] ∧ s.received > 0 then [(0, s.received)] else s.ranges

/-- Feed packets to a live heap; the second component lists the accepted ones in order. -/
def LiveHeap.run (s : LiveHeap) (ooo : Bool) : List Pkt → Option (LiveHeap × List Pkt)
  | [] => some (s, [])
  | p :: ps =>
    match s.addPacket p ooo with
    | none => none
    | some (s', acc) =>
      match s'.run ooo ps with
      | none => none
      | some (s'', l) => some (s'', if acc then p :: l else l)

end Spead2

import Verif.Model.Wire

/-!
# Sender: heaps and the packet generator

Models src/send_packet.cpp and the parts of include/spead2/send_heap.h it uses. Buffers referenced by
items are modelled by their contents (the code requires that they do not change while sending).
-/

namespace Spead2

/-- The value of an item (the union in include/spead2/send_heap.h:60-77): an inline integer, or a buffer
with its `allow_immediate` flag. -/
inductive ItemValue
  | inline (v : Nat)
  | buffer (bytes : Bytes) (allowImmediate : Bool)
  deriving DecidableEq, Repr

/-- `struct item` (include/spead2/send_heap.h:42-114). -/
structure SendItem where
  id : Nat
  value : ItemValue
  deriving DecidableEq, Repr

/-- `class heap` (include/spead2/send_heap.h:119-257): flavour, repeat flag and items. `hab` is the
flavour's `heap_address_bits`. -/
structure SendHeap where
  hab : Nat
  repeatPointers : Bool := false
  items : List SendItem
  deriving DecidableEq, Repr

/-- `use_immediate` (src/send_packet.cpp:38-42). -/
def useImmediate (it : SendItem) (maxImm : Nat) : Bool :=
  match it.value with
  | .inline _ => true
  | .buffer b allow => allow && b.length ≤ maxImm

/-- Length of the payload contribution of an item in the loop at src/send_packet.cpp:64-68. -/
def itemPayloadLength (it : SendItem) (maxImm : Nat) : Nat :=
  if useImmediate it maxImm then 0
  else match it.value with
    | .inline _ => 0
    | .buffer b _ => b.length

/-- The constant members of `packet_generator` (include/spead2/send_packet.h:42-45,63,66). -/
structure Gen where
  heap : SendHeap
  cnt : Nat
  maxPacketSize : Nat
  maxItemPointers : Nat
  payloadSize : Nat
  needNull : Bool
  deriving DecidableEq, Repr

/-- The mutable members of `packet_generator` (include/spead2/send_packet.h:47-63). -/
structure GenState where
  nextItemPointer : Nat := 0
  nextAddress : Nat := 0
  nextItem : Nat := 0
  nextItemOffset : Nat := 0
  payloadOffset : Nat := 0
  deriving DecidableEq, Repr

/-- The two `invalid_argument` exceptions of the constructor. -/
inductive GenError
  | tooSmall | tooSmallToRepeat
  deriving DecidableEq, Repr

/-- `prefix_size` (include/spead2/send_packet.h:40). -/
def prefixSize : Nat := 8 + 4 * 8

/-- `packet_generator::packet_generator` (src/send_packet.cpp:44-92).
`max_packet_size - 48` wraps in C++ when the packet size is below 48, but then the constructor throws
before the value is used; here the subtraction truncates to 0. -/
def Gen.new (h : SendHeap) (cnt maxPacketSizeArg : Nat) : Except GenError Gen :=
  let maxPacketSize := maxPacketSizeArg / 8 * 8
  let maxItemPointers := (maxPacketSize - (prefixSize + 8)) / 8
  if maxPacketSize < prefixSize + 2 * 8 then .error .tooSmall
  else
    let maxImm := h.hab / 8
    let payloadSize := (h.items.map (fun it => itemPayloadLength it maxImm)).sum
    let itemPackets := h.items.length / maxItemPointers + 1
    if h.repeatPointers ∧ itemPackets > 1 then .error .tooSmallToRepeat
    else
      let minPayloadSize := (itemPackets - 1) * 8 + 1
      if payloadSize < minPayloadSize then
        .ok ⟨h, cnt, maxPacketSize, maxItemPointers, minPayloadSize, true⟩
      else
        .ok ⟨h, cnt, maxPacketSize, maxItemPointers, payloadSize, false⟩

/-- `packet_generator::has_next_packet` (src/send_packet.cpp:99-102). -/
def Gen.hasNext (g : Gen) (st : GenState) : Bool := st.payloadOffset < g.payloadSize

/-- The bytes of one item pointer (src/send_packet.cpp:149-168): wire bytes, new `next_address`, and
whether the encoder assertions held. -/
def itemPointerBytes (hab : Nat) (it : SendItem) (nextAddress : Nat) : Bytes × Nat × Bool :=
  let maxImm := hab / 8
  match it.value with
  | .inline v => (beBytes 8 (encodeImmediate hab it.id v), nextAddress, encodeAsserts hab it.id v)
  | .buffer b allow =>
    if allow && b.length ≤ maxImm then
      ((beBytes 8 (encodeImmediate hab it.id 0)).take (8 - b.length) ++ b, nextAddress,
        encodeAsserts hab it.id 0)
    else
      (beBytes 8 (encodeAddress hab it.id nextAddress), nextAddress + b.length,
        encodeAsserts hab it.id nextAddress)

/-- The item pointer loop (src/send_packet.cpp:140-172), `k` iterations from `next_item_pointer = nip`:
the bytes written, the new `next_address`, and whether all assertions held.
`none`: an out-of-bounds access to `h.items`. -/
def pointerLoop (g : Gen) : Nat → Nat → Nat → Option (Bytes × Nat × Bool)
  | 0, _, addr => some ([], addr, true)
  | k + 1, nip, addr =>
    if nip = g.heap.items.length then
      match pointerLoop g k (nip + 1) addr with
      | none => none
      | some (bs, addr', ok) =>
        some (beBytes 8 (encodeAddress g.heap.hab NULL_ID addr) ++ bs, addr',
          g.needNull && encodeAsserts g.heap.hab NULL_ID addr && ok)
    else
      match g.heap.items[nip]? with
      | none => none
      | some it =>
        let r := itemPointerBytes g.heap.hab it addr
        match pointerLoop g k (nip + 1) r.2.1 with
        | none => none
        | some (bs, addr', ok) => some (r.1 ++ bs, addr', r.2.2 && ok)

/-- Result of the payload loop: number of padding bytes appended to the first buffer, the further buffers
pushed on `out`, and the new `next_item` / `next_item_offset`. -/
structure PayloadOut where
  pad : Nat
  slices : List Bytes
  nextItem : Nat
  nextItemOffset : Nat
  deriving DecidableEq, Repr

/-- The payload loop (src/send_packet.cpp:175-209). The first argument is the tail of `h.items` starting
at `next_item = ni`; `len` is `packet_payload_length`. In the last branch the C++ loop ends because
`send_bytes` was less than the rest of the buffer, hence equal to the remaining length. -/
def payloadLoop (maxImm : Nat) : List SendItem → Nat → Nat → Nat → PayloadOut
  | [], ni, off, len => ⟨len, [], ni, off⟩
  | it :: rest, ni, off, len =>
    if len = 0 then ⟨0, [], ni, off⟩
    else if useImmediate it maxImm then payloadLoop maxImm rest (ni + 1) 0 len
    else
      match it.value with
      | .inline _ => payloadLoop maxImm rest (ni + 1) 0 len   -- unreachable: inline items are immediate
      | .buffer b _ =>
        let send := min (b.length - off) len
        let s := (b.drop off).take send
        if off + send = b.length then
          let r := payloadLoop maxImm rest (ni + 1) 0 (len - send)
          { r with slices := s :: r.slices }
        else ⟨0, [s], ni, off + send⟩

/-- One packet: the scratch prefix (header and pointers), the padding that the code appends to that first
buffer, the further buffers, and whether every assertion met on the way held. -/
structure GenPacket where
  header : Bytes
  pad : Nat
  slices : List Bytes
  assertsOk : Bool
  deriving DecidableEq, Repr

/-- The buffer sequence `out` (src/send_packet.cpp:173,189,202). Padding extends the first buffer; the
scratch bytes it covers are zero because of `*pointer = 0` (line 184) as long as `pad ≤ 8`. -/
def GenPacket.buffers (p : GenPacket) : List Bytes :=
  (p.header ++ List.replicate p.pad 0) :: p.slices

/-- What goes on the wire: the concatenated buffers. -/
def GenPacket.bytes (p : GenPacket) : Bytes := p.buffers.flatten

/-- The 8-byte packet header word (src/send_packet.cpp:129-133). -/
def packetHeaderWord (maxImm nItemPointers : Nat) : Nat :=
  (0x5304 <<< 48) ||| ((8 - maxImm) <<< 40) ||| (maxImm <<< 32) ||| (nItemPointers + 4)

/-- `packet_generator::next_packet` (src/send_packet.cpp:104-211), called while `has_next_packet`.
`none`: undefined behaviour (an index or a size computation out of range). -/
def Gen.nextPacket (g : Gen) (st0 : GenState) : Option (GenPacket × GenState) :=
  let st := if g.heap.repeatPointers then { st0 with nextItemPointer := 0, nextAddress := 0 } else st0
  let maxImm := g.heap.hab / 8
  let total := g.heap.items.length + (if g.needNull then 1 else 0)
  if total < st.nextItemPointer then none
  else
    let nItemPointers := min g.maxItemPointers (total - st.nextItemPointer)
    if g.maxPacketSize < nItemPointers * 8 + prefixSize then none
    else
      let len := min (g.payloadSize - st.payloadOffset) (g.maxPacketSize - nItemPointers * 8 - prefixSize)
      let hab := g.heap.hab
      match pointerLoop g nItemPointers st.nextItemPointer st.nextAddress with
      | none => none
      | some (ptrs, addr, ok) =>
        let header := beBytes 8 (packetHeaderWord maxImm nItemPointers)
          ++ beBytes 8 (encodeImmediate hab HEAP_CNT_ID g.cnt)
          ++ beBytes 8 (encodeImmediate hab HEAP_LENGTH_ID g.payloadSize)
          ++ beBytes 8 (encodeImmediate hab PAYLOAD_OFFSET_ID st.payloadOffset)
          ++ beBytes 8 (encodeImmediate hab PAYLOAD_LENGTH_ID len)
          ++ ptrs
        let r := payloadLoop maxImm (g.heap.items.drop st.nextItem) st.nextItem st.nextItemOffset len
        let asserts := decide (0 < len) && encodeAsserts hab HEAP_CNT_ID g.cnt &&
          encodeAsserts hab HEAP_LENGTH_ID g.payloadSize &&
          encodeAsserts hab PAYLOAD_OFFSET_ID st.payloadOffset && encodeAsserts hab PAYLOAD_LENGTH_ID len &&
          ok && (decide (r.pad = 0) || (g.needNull && decide (r.pad ≤ 8) && r.slices.isEmpty))
        some (⟨header, r.pad, r.slices, asserts⟩,
              { nextItemPointer := st.nextItemPointer + nItemPointers, nextAddress := addr,
                nextItem := r.nextItem, nextItemOffset := r.nextItemOffset,
                payloadOffset := st.payloadOffset + len })

/-- The sender's loop `while (has_next_packet()) next_packet()` (as driven by src/send_writer.cpp:106-198),
with a bound on the number of packets so that the function is total. -/
def Gen.run (g : Gen) : Nat → GenState → Option (List GenPacket × GenState)
  | 0, st => some ([], st)
  | fuel + 1, st =>
    if g.hasNext st then
      match g.nextPacket st with
      | none => none
      | some (p, st') =>
        match g.run fuel st' with
        | none => none
        | some (ps, st'') => some (p :: ps, st'')
    else some ([], st)

/-- Sending `h` with heap cnt `cnt` and packet size `mps` produces exactly the packets `pkts`: the
generator is constructed (src/send_writer.cpp via send_packet.cpp:44-92) and run until `has_next_packet`
is false. -/
def Sends (h : SendHeap) (cnt mps : Nat) (pkts : List GenPacket) : Prop :=
  ∃ g fuel st', Gen.new h cnt mps = .ok g ∧ g.run fuel {} = some (pkts, st') ∧ g.hasNext st' = false

end Spead2

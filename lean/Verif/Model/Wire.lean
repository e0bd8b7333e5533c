import Verif.Model.Bytes

/-!
# SPEAD wire format: flavours, item pointers, packet decoding

All integers that are `uint64_t`/`int64_t` in the code are `Nat`/`Int` here, with `% 2^64` written
explicitly where a C++ shift can drop bits.
-/

namespace Spead2

/-! ## Constants (include/spead2/common_defines.h:44-85) -/

/-- `magic_version` (include/spead2/common_defines.h:47). -/
def magicVersion : Nat := 0x5304
/-- `immediate_mask` (include/spead2/common_defines.h:46). -/
def immediateMask : Nat := 1 <<< 63
/-- `NULL_ID` (include/spead2/common_defines.h:62). -/
def NULL_ID : Nat := 0x00
/-- `HEAP_CNT_ID` (include/spead2/common_defines.h:63). -/
def HEAP_CNT_ID : Nat := 0x01
/-- `HEAP_LENGTH_ID` (include/spead2/common_defines.h:64). -/
def HEAP_LENGTH_ID : Nat := 0x02
/-- `PAYLOAD_OFFSET_ID` (include/spead2/common_defines.h:65). -/
def PAYLOAD_OFFSET_ID : Nat := 0x03
/-- `PAYLOAD_LENGTH_ID` (include/spead2/common_defines.h:66). -/
def PAYLOAD_LENGTH_ID : Nat := 0x04
/-- `DESCRIPTOR_ID` (include/spead2/common_defines.h:67). -/
def DESCRIPTOR_ID : Nat := 0x05
/-- `STREAM_CTRL_ID` (include/spead2/common_defines.h:68). -/
def STREAM_CTRL_ID : Nat := 0x06
/-- `DESCRIPTOR_NAME_ID` (include/spead2/common_defines.h:70). -/
def DESCRIPTOR_NAME_ID : Nat := 0x10
/-- `DESCRIPTOR_DESCRIPTION_ID` (include/spead2/common_defines.h:71). -/
def DESCRIPTOR_DESCRIPTION_ID : Nat := 0x11
/-- `DESCRIPTOR_SHAPE_ID` (include/spead2/common_defines.h:72). -/
def DESCRIPTOR_SHAPE_ID : Nat := 0x12
/-- `DESCRIPTOR_FORMAT_ID` (include/spead2/common_defines.h:73). -/
def DESCRIPTOR_FORMAT_ID : Nat := 0x13
/-- `DESCRIPTOR_ID_ID` (include/spead2/common_defines.h:74). -/
def DESCRIPTOR_ID_ID : Nat := 0x14
/-- `DESCRIPTOR_DTYPE_ID` (include/spead2/common_defines.h:75). -/
def DESCRIPTOR_DTYPE_ID : Nat := 0x15
/-- `CTRL_STREAM_STOP` (include/spead2/common_defines.h:82). -/
def CTRL_STREAM_STOP : Nat := 2

/-! ## Flavour (src/common_flavour.cpp) -/

/-- `class flavour` (include/spead2/common_flavour.h:31-51): the two stored members. -/
structure Flavour where
  heapAddressBits : Int := 40
  bugCompat : Nat := 0
  deriving DecidableEq, Repr

/-- The four ways the constructor can throw `std::invalid_argument`. -/
inductive FlavourError
  | version | itemPointerBits | addressRange | addressMultiple
  deriving DecidableEq, Repr

/-- `flavour::flavour` (src/common_flavour.cpp:28-43). -/
def Flavour.mk? (version itemPointerBits heapAddressBits : Int) (bugCompat : Nat) :
    Except FlavourError Flavour :=
  if version ≠ 4 then .error .version
  else if itemPointerBits ≠ 64 then .error .itemPointerBits
  else if heapAddressBits ≤ 0 ∨ heapAddressBits ≥ itemPointerBits then .error .addressRange
  else if heapAddressBits.tmod 8 ≠ 0 then .error .addressMultiple
  else .ok { heapAddressBits, bugCompat }

/-! ## Item pointers -/

/-- `pointer_encoder::encode_immediate` (include/spead2/send_utils.h:46-51), without the assertions. -/
def encodeImmediate (hab id value : Nat) : Nat :=
  immediateMask ||| ((id <<< hab) % 2 ^ 64) ||| value

/-- `pointer_encoder::encode_address` (include/spead2/send_utils.h:53-58), without the assertions. -/
def encodeAddress (hab id address : Nat) : Nat :=
  ((id <<< hab) % 2 ^ 64) ||| address

/-- The assertions of both encoder functions (include/spead2/send_utils.h:41-43,48-49,55-56). -/
def encodeAsserts (hab id value : Nat) : Prop :=
  0 < hab ∧ hab < 64 ∧ hab % 8 = 0 ∧ id < 1 <<< (64 - 1 - hab) ∧ value < 1 <<< hab

instance (hab id value : Nat) : Decidable (encodeAsserts hab id value) := by
  unfold encodeAsserts; infer_instance

/-- `pointer_decoder::address_mask` (include/spead2/recv_utils.h:61). -/
def addressMask (hab : Nat) : Nat := (1 <<< hab) - 1
/-- `pointer_decoder::id_mask` (include/spead2/recv_utils.h:62). -/
def idMask (hab : Nat) : Nat := (1 <<< (64 - 1 - hab)) - 1
/-- `pointer_decoder::get_id` (include/spead2/recv_utils.h:66-69). -/
def getId (hab p : Nat) : Nat := (p >>> hab) &&& idMask hab
/-- `pointer_decoder::get_address` (include/spead2/recv_utils.h:75-78). -/
def getAddress (hab p : Nat) : Nat := p &&& addressMask hab
/-- `pointer_decoder::get_immediate` (include/spead2/recv_utils.h:84-87). -/
def getImmediate (hab p : Nat) : Nat := getAddress hab p
/-- `pointer_decoder::is_immediate` (include/spead2/recv_utils.h:90-93). -/
def isImmediate (p : Nat) : Bool := (p >>> (64 - 1)) ≠ 0

/-! ## Packet decoding (src/recv_packet.cpp) -/

/-- `extract_bits` (src/recv_packet.cpp:38-44). -/
def extractBits (value first cnt : Nat) : Nat := (value >>> first) &&& ((1 <<< cnt) - 1)

/-- `decode_header` (src/recv_packet.cpp:46-69). Outer `none`: out-of-bounds read.
Inner `none`: returned `false`. Otherwise `(heap_address_bits, n_items)`. -/
def decodeHeader (d : Bytes) : Option (Option (Nat × Nat)) := do
  let header ← load64? d 0
  if extractBits header 48 16 ≠ magicVersion then
    return none
  else
    let itemIdBits := extractBits header 40 8 * 8
    let heapAddressBits := extractBits header 32 8 * 8
    if itemIdBits = 0 ∨ heapAddressBits = 0 then
      return none
    else if itemIdBits + heapAddressBits ≠ 8 * 8 then
      return none
    else
      return some (heapAddressBits, extractBits header 0 16)

/-- The search loop of `get_packet_size` (src/recv_packet.cpp:83-91), at index `i` with `k`
iterations left: the first immediate `PAYLOAD_LENGTH_ID` pointer, or -1. -/
def findPayloadLength (d : Bytes) (hab : Nat) : Nat → Nat → Option Int
  | 0, _ => some (-1)
  | k + 1, i => do
    let p ← load64? d (8 + i * 8)
    if isImmediate p ∧ getId hab p = PAYLOAD_LENGTH_ID then
      return (getImmediate hab p : Int)
    else
      findPayloadLength d hab k (i + 1)

/-- `get_packet_size` (src/recv_packet.cpp:71-95), with `length = d.length`.
`none`: out-of-bounds read. 0: need more data. -1: malformed. -/
def getPacketSize (d : Bytes) : Option Int :=
  if d.length < 8 then some 0
  else do
    match ← decodeHeader d with
    | none => return -1
    | some (hab, n) =>
      if n * 8 + 8 > d.length then return 0
      else
        let pl ← findPayloadLength d hab n 0
        if pl = -1 then return -1
        else return pl + n * 8 + 8

/-- `struct packet_header` (include/spead2/recv_packet.h:34-57). The three pointers are offsets from
the start of the datagram (`packet` is offset 0 and is left out); -1 marks a missing field. -/
structure PacketHeader where
  heapAddressBits : Nat
  nItems : Nat
  heapCnt : Int
  heapLength : Int
  payloadOffset : Int
  payloadLength : Int
  pointers : Nat
  payload : Nat
  deriving DecidableEq, Repr

/-- The variables updated by the loop of `decode_packet` (src/recv_packet.cpp:114-121). -/
structure DecodeAcc where
  heapCnt : Int := -1
  heapLength : Int := -1
  payloadOffset : Int := -1
  payloadLength : Int := -1
  firstRegular : Nat
  deriving DecidableEq, Repr

/-- One iteration of the loop of `decode_packet` on pointer value `p` at index `i`
(src/recv_packet.cpp:123-150). -/
def decodeStep (hab : Nat) (acc : DecodeAcc) (i p : Nat) : DecodeAcc :=
  if isImmediate p then
    let id := getId hab p
    let v : Int := getImmediate hab p
    if id = HEAP_CNT_ID then { acc with heapCnt := v }
    else if id = HEAP_LENGTH_ID then { acc with heapLength := v }
    else if id = PAYLOAD_OFFSET_ID then { acc with payloadOffset := v }
    else if id = PAYLOAD_LENGTH_ID then { acc with payloadLength := v }
    else { acc with firstRegular := min acc.firstRegular i }
  else { acc with firstRegular := min acc.firstRegular i }

/-- The loop of `decode_packet` (src/recv_packet.cpp:121-151) at index `i`, `k` iterations left. -/
def decodeLoop (d : Bytes) (hab : Nat) : Nat → Nat → DecodeAcc → Option DecodeAcc
  | 0, _, acc => some acc
  | k + 1, i, acc => do
    let p ← load64? d (8 + i * 8)
    decodeLoop d hab k (i + 1) (decodeStep hab acc i p)

/-- `decode_packet` (src/recv_packet.cpp:97-176), with `max_size = d.length`.
Outer `none`: out-of-bounds read. Inner `none`: the function returned 0. Otherwise the header and the
returned size. The sums cannot wrap in C++ because every field is below 2^56. -/
def decodePacket (d : Bytes) : Option (Option (PacketHeader × Nat)) :=
  if d.length < 8 then some none
  else do
    match ← decodeHeader d with
    | none => return none
    | some (hab, n) =>
      if n * 8 + 8 > d.length then return none
      else
        let a ← decodeLoop d hab n 0 { firstRegular := n }
        if a.heapCnt = -1 ∨ a.payloadOffset = -1 ∨ a.payloadLength = -1 then return none
        else
          let size := a.payloadLength.toNat + n * 8 + 8
          if size > d.length then return none
          else if a.heapLength ≥ 0 ∧ a.payloadOffset + a.payloadLength > a.heapLength then return none
          else
            let pointers := 8 + a.firstRegular * 8
            let nItems := n - a.firstRegular
            return some ({ heapAddressBits := hab, nItems := nItems, heapCnt := a.heapCnt,
                           heapLength := a.heapLength, payloadOffset := a.payloadOffset,
                           payloadLength := a.payloadLength, pointers := pointers,
                           payload := pointers + nItems * 8 }, size)

end Spead2

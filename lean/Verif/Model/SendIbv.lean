import Verif.Model.RawPacket

/-!
# Sending with ibverbs: one packet

Models how src/send_udp_ibv.cpp turns a packet into a work request: the prefilled headers, the header fields set for each packet, the list of
scatter-gather entries, and how the network card gathers them. `Verif.Model.SendIbvRing` adds the ring of slots.

The internal buffer, of which each slot has a part, is one `Bytes`; the memory of the user is a function of the address. An access of the code
outside the internal buffer, an access of the card outside the memory region that an entry names, a fifth entry, and an exception from the header
classes are all `none`. Pointers do not wrap around, and the two memories are disjoint.
-/

namespace Spead2

/-- A registered memory region of the user (`memory_region`, src/send_udp_ibv.cpp:57-85). -/
structure IRegion where
  ptr : Nat
  size : Nat
  deriving DecidableEq, Repr

/-- The destination of a substream: IPv4 address (four bytes) and port. -/
structure IEndpoint where
  addr : Bytes
  port : Nat
  deriving DecidableEq, Repr

/-- What the constructor gets: `stream_config` and `udp_ibv_config`, and what it asks the system for. -/
structure IbvCfg where
  /-- `get_max_packet_size` -/
  maxPacket : Nat
  /-- `get_buffer_size` -/
  bufferSize : Nat
  endpoints : List IEndpoint
  /-- `get_memory_regions` -/
  regions : List IRegion := []
  ttl : UInt8 := 1
  /-- of the interface -/
  srcMac : Bytes
  srcAddr : Bytes
  /-- the port the socket was bound to -/
  srcPort : Nat
  /-- the address of the internal buffer -/
  base : Nat
  /-- `IBV_RAW_PACKET_CAP_IP_CSUM` -/
  csum : Bool := false
  /-- there is a completion channel -/
  channel : Bool := true
  /-- a request for notification is also answered for completions that are already in the queue. The documentation of ibverbs does not promise it. -/
  pending : Bool := false
  /-- `get_max_poll` -/
  maxPoll : Nat := 10
  deriving DecidableEq, Repr

/-- `max_sge` (src/send_udp_ibv.cpp:49). -/
def maxSge : Nat := 4

/-- `header_length` (src/send_udp_ibv.cpp:160-161). -/
def ibvHeader : Nat := 42

/-- `max_raw_size` (src/send_udp_ibv.cpp:486). -/
def IbvCfg.maxRaw (c : IbvCfg) : Nat := c.maxPacket + ibvHeader

/-- `calc_n_slots` (src/send_udp_ibv.cpp:443-446). -/
def IbvCfg.nSlots (c : IbvCfg) : Nat := max 1 (c.bufferSize / c.maxRaw)

/-- `calc_target_batch` (src/send_udp_ibv.cpp:448-452), if the bounds given to `std::clamp` are in the right order. -/
def IbvCfg.targetBatch (c : IbvCfg) : Nat := min (max (c.nSlots / 4) 1) (262144 / c.maxRaw)

/-- `multicast_mac` (src/common_raw_packet.cpp:55-65). -/
def multicastMac (addr : Bytes) : Bytes := [0x01, 0x00, 0x5e, (addr.getD 1 0) &&& 0x7f, addr.getD 2 0, addr.getD 3 0]

/-- `set` of an object of several bytes (include/spead2/common_raw_packet.h:74-83), and `memcpy` to the internal buffer. -/
def setBytes? (d : Bytes) (o : Nat) (v : Bytes) : Option Bytes :=
  if o + v.length ≤ d.length then some (d.take o ++ v ++ d.drop (o + v.length)) else none

/-- `payload_ipv4` (src/common_raw_packet.cpp:237-241). -/
def PBuf.payloadIpv4 (f : PBuf) : Option PBuf := (PBuf.make 20 (f.off + 14) (f.size - 14)).toOption

/-- `payload_udp` (src/common_raw_packet.cpp:217-226). -/
def PBuf.payloadUdp? (d : Bytes) (ip : PBuf) : Option PBuf := (ip.payloadUdp d).bind Except.toOption

/-- `payload` (src/common_raw_packet.cpp:172-178). -/
def PBuf.udpPayload? (d : Bytes) (udp : PBuf) : Option PBuf := (udp.udpPayload d).bind Except.toOption

/-- `slots[i].frame` (src/send_udp_ibv.cpp:532). -/
def IbvCfg.frame (c : IbvCfg) (i : Nat) : PBuf := ⟨i * c.maxRaw, c.maxRaw⟩

/-- The constructor prefills slot `i` (src/send_udp_ibv.cpp:532-554). The result is the buffer and `payload`, as an offset into the buffer. -/
def IbvCfg.prefill (c : IbvCfg) (d : Bytes) (i : Nat) : Option (Bytes × Nat) := do
  let f := c.frame i
  let e ← c.endpoints[0]?
  let d ← setBytes? d f.off (multicastMac e.addr)
  let d ← setBytes? d (f.off + 6) c.srcMac
  let d ← setBe? d f 12 2 0x0800
  let ip ← f.payloadIpv4
  let d ← setBe? d ip 0 1 0x45
  let d ← setBe? d ip 2 2 (c.maxPacket + 20 + 8)
  let d ← setBe? d ip 6 2 0x4000
  let d ← setBe? d ip 8 1 c.ttl.toNat
  let d ← setBe? d ip 9 1 0x11
  let d ← setBytes? d (ip.off + 12) c.srcAddr
  let d ← setBytes? d (ip.off + 16) e.addr
  let udp ← ip.payloadUdp? d
  let d ← setBe? d udp 0 2 c.srcPort
  let d ← setBe? d udp 2 2 e.port
  let d ← setBe? d udp 4 2 (c.maxPacket + 8)
  let d ← setBe? d udp 6 2 0
  let pl ← udp.udpPayload? d
  some (d, pl.off)

/-- The loop over the slots in the constructor (src/send_udp_ibv.cpp:530-555): `n` slots from slot `i`. -/
def IbvCfg.prefillAll (c : IbvCfg) : Nat → Nat → Bytes → Option (Bytes × List Nat)
  | 0, _, d => some (d, [])
  | n + 1, i, d => do
    let (d, pl) ← c.prefill d i
    let (d, pls) ← c.prefillAll n (i + 1) d
    some (d, pl :: pls)

/-- With several substreams, the destination is set for each packet (src/send_udp_ibv.cpp:327-334). -/
def IbvCfg.setDest (c : IbvCfg) (d : Bytes) (f ip udp : PBuf) (sub : Nat) : Option Bytes :=
  if 1 < c.endpoints.length then do
    let e ← c.endpoints[sub]?
    let d ← setBytes? d f.off (multicastMac e.addr)
    let d ← setBytes? d (ip.off + 16) e.addr
    setBe? d udp 2 2 e.port
  else some d

/-- The header fields that are set for each packet (src/send_udp_ibv.cpp:321-337). -/
def IbvCfg.setHeader (c : IbvCfg) (d : Bytes) (f : PBuf) (size sub : Nat) : Option Bytes := do
  let ip ← f.payloadIpv4
  let h ← ip.headerLength? d
  let d ← setBe? d ip 2 2 (size + 8 + h)
  let udp ← ip.payloadUdp? d
  let d ← setBe? d udp 4 2 (size + 8)
  let d ← c.setDest d f ip udp sub
  if c.csum then some d else updateChecksum d ip

/-- The key of the internal buffer or of a region of the user. Distinct regions have distinct keys. -/
inductive LKey
  | own | user (r : IRegion)
  deriving DecidableEq, Repr

/-- `ibv_sge`. -/
structure Sge where
  addr : Nat
  len : Nat
  key : LKey
  deriving DecidableEq, Repr

/-- A packet from `get_packet`: the bytes of the first buffer, which the packet generator writes to the slot, and the other buffers, which are memory of
the user. -/
structure IPkt where
  hdr : Bytes
  bufs : List (Nat × Nat)
  sub : Nat := 0
  item : Nat := 0
  last : Bool := false
  deriving DecidableEq, Repr

/-- `transmit_packet::size`. -/
def IPkt.size (p : IPkt) : Nat := p.hdr.length + (p.bufs.map (·.2)).sum

/-- Memory of the user. -/
def memBytes (um : Nat → UInt8) (a n : Nat) : Bytes := (List.range n).map (fun i => um (a + i))

/-- `memory_regions.emplace` (src/send_udp_ibv.cpp:524-525). A set is a list in the order of `operator<` (lines 73-77), which is by decreasing
address. -/
def emplaceRegion : List IRegion → IRegion → List IRegion
  | [], r => [r]
  | x :: xs, r => if r.ptr > x.ptr then r :: x :: xs else if x.ptr > r.ptr then x :: emplaceRegion xs r else x :: xs

/-- `memory_regions`. -/
def IbvCfg.regionSet (c : IbvCfg) : List IRegion := c.regions.foldl emplaceRegion []

/-- `std::sort` of the regions as pairs (src/send_udp_ibv.cpp:479), as an insertion sort. -/
def insertRegion (r : IRegion) : List IRegion → List IRegion
  | [] => [r]
  | x :: xs => if r.ptr < x.ptr ∨ r.ptr = x.ptr ∧ r.size ≤ x.size then r :: x :: xs else x :: insertRegion r xs

/-- `std::sort`. -/
def sortRegions : List IRegion → List IRegion
  | [] => []
  | r :: rs => insertRegion r (sortRegions rs)

/-- The check that sorted regions do not overlap (src/send_udp_ibv.cpp:480-483). -/
def noOverlap : List IRegion → Bool
  | a :: b :: rest => !(a.ptr + a.size > b.ptr) && noOverlap (b :: rest)
  | _ => true

/-- The configuration is accepted: `validate_memory_region` (src/send_udp_ibv.cpp:570-574) and the constructor (lines 470-483). -/
def IbvCfg.accepted (c : IbvCfg) : Bool :=
  !c.endpoints.isEmpty && c.regions.all (fun r => r.size != 0) && noOverlap (sortRegions c.regions)

/-- `memory_regions.lower_bound(cmp)` and `contains` (src/send_udp_ibv.cpp:367-371, 79-84): the first region of the set that is not less. -/
def findRegion (set : List IRegion) (ptr len : Nat) : Option IRegion :=
  match set.find? (fun r => !(r.ptr > ptr)) with
  | none => none
  | some r => if r.ptr ≤ ptr ∧ r.ptr + r.size ≥ ptr + len then some r else none

/-- The state of the loop over the buffers: the internal buffer, `copy_target` as an offset into it, and the entries. -/
structure SgeSt where
  buf : Bytes
  copy : Nat
  sges : List Sge
  deriving DecidableEq, Repr

/-- Merge with the last entry or append a new one (src/send_udp_ibv.cpp:384-395). -/
def addSge (sges : List Sge) (cur : Sge) : Option (List Sge) :=
  match sges.getLast? with
  | none => none
  | some prev =>
    if prev.key = cur.key ∧ prev.addr + prev.len = cur.addr then some (sges.dropLast ++ [{ prev with len := prev.len + cur.len }])
    else if sges.length < maxSge then some (sges ++ [cur]) else none

/-- One iteration of the loop over the buffers (src/send_udp_ibv.cpp:357-396). -/
def IbvCfg.bufStep (c : IbvCfg) (um : Nat → UInt8) (skip : Bool) (st : SgeSt) (b : Nat × Nat) : Option SgeSt := do
  match if skip then findRegion c.regionSet b.1 b.2 else none with
  | some r =>
    let sges ← addSge st.sges ⟨b.1, b.2, .user r⟩
    some { st with sges := sges }
  | none =>
    let buf ← setBytes? st.buf st.copy (memBytes um b.1 b.2)
    let sges ← addSge st.sges ⟨c.base + st.copy, b.2, .own⟩
    some ⟨buf, st.copy + b.2, sges⟩

/-- The loop over the buffers. -/
def IbvCfg.bufLoop (c : IbvCfg) (um : Nat → UInt8) (skip : Bool) : SgeSt → List (Nat × Nat) → Option SgeSt
  | st, [] => some st
  | st, b :: bs => (c.bufStep um skip st b).bind fun st => c.bufLoop um skip st bs

/-- A packet is put in slot `i`, whose payload is at `pl` (src/send_udp_ibv.cpp:316-396). `get_packet` writes the first buffer to the payload. -/
def IbvCfg.fill (c : IbvCfg) (um : Nat → UInt8) (d : Bytes) (i pl : Nat) (p : IPkt) : Option (Bytes × List Sge) := do
  let f := c.frame i
  let d ← setBytes? d pl p.hdr
  let d ← c.setHeader d f p.size p.sub
  let st ← c.bufLoop um (decide (1 + p.bufs.length ≤ maxSge)) ⟨d, pl + p.hdr.length, [⟨c.base + f.off, pl + p.hdr.length - f.off, .own⟩]⟩ p.bufs
  some (st.buf, st.sges)

/-- The card reads one entry. -/
def IbvCfg.gatherOne (c : IbvCfg) (um : Nat → UInt8) (d : Bytes) (s : Sge) : Option Bytes :=
  match s.key with
  | .own => if c.base ≤ s.addr then slice? d (s.addr - c.base) s.len else none
  | .user r => if r.ptr ≤ s.addr ∧ s.addr + s.len ≤ r.ptr + r.size then some (memBytes um s.addr s.len) else none

/-- The frame that the card puts on the wire. -/
def IbvCfg.gather (c : IbvCfg) (um : Nat → UInt8) (d : Bytes) : List Sge → Option Bytes
  | [] => some []
  | s :: ss => do
    let a ← c.gatherOne um d s
    let b ← c.gather um d ss
    some (a ++ b)

end Spead2

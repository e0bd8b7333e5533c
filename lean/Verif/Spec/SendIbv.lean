import Verif.Model.SendIbv
import Verif.Spec.RawPacket

/-!
# What an ibverbs sender has to put on the wire
-/

namespace Spead2.Spec

/-- The ethernet address of an IPv4 multicast group (RFC 1112): the prefix 01-00-5e, a zero bit and the low 23 bits of the address. -/
def groupMac (addr : Bytes) : Bytes := [0x01, 0x00, 0x5e] ++ beBytes 3 (beNat addr % 2 ^ 23)

/-- An IPv4 header (RFC 791) without options for a UDP datagram with `n` bytes of payload that must not be fragmented. -/
def ipHeader (n : Nat) (ttl : UInt8) (sum src dst : Bytes) : Bytes :=
  [0x45, 0] ++ beBytes 2 (20 + 8 + n) ++ [0, 0] ++ [0x40, 0] ++ [ttl, 17] ++ sum ++ src ++ dst

/-- A UDP header (RFC 768) without a checksum. -/
def udpHeader (n sport dport : Nat) : Bytes := beBytes 2 sport ++ beBytes 2 dport ++ beBytes 2 (8 + n) ++ [0, 0]

/-- `frame` carries `payload` from the sender to the endpoint. The checksum of the IP header is right, unless the card is to compute it. -/
def IsFrameTo (c : IbvCfg) (e : IEndpoint) (payload frame : Bytes) : Prop :=
  ∃ sum, sum.length = 2 ∧
    frame = groupMac e.addr ++ c.srcMac ++ [0x08, 0x00] ++ ipHeader payload.length c.ttl sum c.srcAddr e.addr ++
      udpHeader payload.length c.srcPort e.port ++ payload ∧
    (c.csum = false → ChecksumOk (ipHeader payload.length c.ttl sum c.srcAddr e.addr))

/-- The configuration is accepted; addresses have the right length; frames fit in an IP packet. -/
structure IbvValid (c : IbvCfg) : Prop where
  accepted : c.accepted = true
  mac : c.srcMac.length = 6
  src : c.srcAddr.length = 4
  dst : ∀ e ∈ c.endpoints, e.addr.length = 4
  fits : c.maxPacket + 28 ≤ 65535

/-- The bytes of a packet. -/
def ipktBytes (um : Nat → UInt8) (p : IPkt) : Bytes := p.hdr ++ (p.bufs.map (fun b => memBytes um b.1 b.2)).flatten

/-- A packet the packet generator may produce: no larger than the maximum, for a substream that exists. -/
def IPktOk (c : IbvCfg) (p : IPkt) : Prop := p.size ≤ c.maxPacket ∧ p.sub < c.endpoints.length

/-- The contents the internal buffer may have: after the constructor, and after packets were put in slots, in any order. -/
inductive IbvBuf (c : IbvCfg) (um : Nat → UInt8) : Bytes → Prop
  | init {d : Bytes} {pls : List Nat} : c.prefillAll c.nSlots 0 (List.replicate (c.maxRaw * c.nSlots) 0) = some (d, pls) → IbvBuf c um d
  | fill {d d' : Bytes} {sges : List Sge} (i : Nat) (p : IPkt) : IbvBuf c um d → i < c.nSlots → IPktOk c p →
      c.fill um d i (i * c.maxRaw + 42) p = some (d', sges) → IbvBuf c um d'

/-- The part of the internal buffer that belongs to slot `i`. -/
def slotBytes (c : IbvCfg) (d : Bytes) (i : Nat) : Bytes := (d.drop (i * c.maxRaw)).take c.maxRaw

/-- A buffer of the user is inside a registered region. -/
def inRegion (c : IbvCfg) (b : Nat × Nat) : Prop := ∃ r ∈ c.regions, r.ptr ≤ b.1 ∧ b.1 + b.2 ≤ r.ptr + r.size

end Spead2.Spec

import Verif.Model.Bytes

/-!
# Ethernet, Linux SLL, IPv4 and UDP headers

Models src/common_raw_packet.cpp and include/spead2/common_raw_packet.h. A frame is a `Bytes` of its exact size; an access outside
it is `none`. A `packet_buffer` is an offset into the frame and a size.
-/

namespace Spead2

/-- The exceptions: `std::length_error`, `packet_type_error`. -/
inductive RawErr
  | length | type
  deriving DecidableEq, Repr

/-- `packet_buffer` (include/spead2/common_raw_packet.h:58-99), relative to the start of the frame. -/
structure PBuf where
  off : Nat
  size : Nat
  deriving DecidableEq, Repr

/-- `get_be<T>` with `sizeof(T) = k` (include/spead2/common_raw_packet.h:65-84). -/
def getBe? (d : Bytes) (b : PBuf) (o k : Nat) : Option Nat := (slice? d (b.off + o) k).map beNat

/-- Constructors `udp_packet`, `ipv4_packet`, `ethernet_frame`, `linux_sll_frame` (src/common_raw_packet.cpp:165-170, 182-187,
230-235, 245-250), which differ in the minimum size. -/
def PBuf.make (min off size : Nat) : Except RawErr PBuf := if size < min then .error .length else .ok ⟨off, size⟩

/-- `udp_packet::payload` (src/common_raw_packet.cpp:172-178). -/
def PBuf.udpPayload (d : Bytes) (u : PBuf) : Option (Except RawErr PBuf) :=
  match getBe? d u 4 2 with
  | none => none
  | some len => some (if len > u.size ∨ len < 8 then .error .length else .ok ⟨u.off + 8, len - 8⟩)

/-- `ipv4_packet::header_length` (src/common_raw_packet.cpp:207-210). -/
def PBuf.headerLength? (d : Bytes) (p : PBuf) : Option Nat := (getBe? d p 0 1).map (fun v => 4 * (v &&& 0xf))

/-- `ipv4_packet::payload_udp` (src/common_raw_packet.cpp:217-226). -/
def PBuf.payloadUdp (d : Bytes) (p : PBuf) : Option (Except RawErr PBuf) :=
  match p.headerLength? d, getBe? d p 2 2 with
  | some h, some len =>
    some (if h < 20 then .error .length
      else if len > p.size ∨ len < h then .error .length
      else PBuf.make 8 (p.off + h) (len - h))
  | _, _ => none

/-- `payload_udp().payload()` (src/common_raw_packet.cpp:273). -/
def PBuf.payloadUdpPayload (d : Bytes) (p : PBuf) : Option (Except RawErr PBuf) :=
  match p.payloadUdp d with
  | none => none
  | some (.error e) => some (.error e)
  | some (.ok u) => u.udpPayload d

/-- `udp_from_ipv4` (src/common_raw_packet.cpp:260-275), `version` (lines 212-215) and `is_fragment` (lines 201-205). The code
compares the ethertype and masks the flags in network byte order; that is the same comparison. -/
def udpFromIpv4 (d : Bytes) (ethertype : Nat) (p : PBuf) : Option (Except RawErr PBuf) :=
  if ethertype ≠ 0x0800 then some (.error .type)
  else
    match getBe? d p 0 1, getBe? d p 6 2, getBe? d p 9 1 with
    | some v, some f, some pr =>
      if v >>> 4 ≠ 4 then some (.error .type)
      else if f &&& (0x2000 ||| 0x1fff) ≠ 0 then some (.error .type)
      else if pr ≠ 0x11 then some (.error .type)
      else p.payloadUdpPayload d
    | _, _, _ => none

/-- `udp_from_ethernet` and `udp_from_linux_sll` (src/common_raw_packet.cpp:277-287) with `payload_ipv4` (lines 237-241, 252-256).
`n` is the size of the link header, which ends with the ethertype (include/spead2/common_raw_packet.h:180, 203). -/
def udpFromFrame (n : Nat) (d : Bytes) : Option (Except RawErr PBuf) :=
  match PBuf.make n 0 d.length with
  | .error e => some (.error e)
  | .ok f =>
    match getBe? d f (n - 2) 2 with
    | none => none
    | some et =>
      match PBuf.make 20 (f.off + n) (f.size - n) with
      | .error e => some (.error e)
      | .ok p => udpFromIpv4 d et p

/-- `udp_from_ethernet` (src/common_raw_packet.cpp:277-281). -/
def udpFromEthernet (d : Bytes) : Option (Except RawErr PBuf) := udpFromFrame 14 d

/-- `udp_from_linux_sll` (src/common_raw_packet.cpp:283-287). -/
def udpFromLinuxSll (d : Bytes) : Option (Except RawErr PBuf) := udpFromFrame 16 d

/-- `set_be<T>` with `sizeof(T) = k` (include/spead2/common_raw_packet.h:74-90). -/
def setBe? (d : Bytes) (b : PBuf) (o k v : Nat) : Option Bytes :=
  if b.off + o + k ≤ d.length then some (d.take (b.off + o) ++ beBytes k v ++ d.drop (b.off + o + k)) else none

/-- The loop over the header in `update_checksum` (src/common_raw_packet.cpp:194-195), `n` iterations from offset `i`. -/
def sumLoop (d : Bytes) (p : PBuf) : Nat → Nat → Nat → Option Nat
  | 0, _, sum => some sum
  | n + 1, i, sum =>
    match getBe? d p i 2 with
    | none => none
    | some v => sumLoop d p n (i + 2) ((sum + v) % 2 ^ 32)

/-- `while (sum > 0xffff)` (src/common_raw_packet.cpp:196-197); `f` bounds the iterations. `none`: it goes on. -/
def carryLoop : Nat → Nat → Option Nat
  | 0, _ => none
  | f + 1, sum => if sum > 0xffff then carryLoop f ((sum &&& 0xffff) + sum >>> 16) else some sum

/-- `update_checksum` (src/common_raw_packet.cpp:189-199). -/
def updateChecksum (d : Bytes) (p : PBuf) : Option Bytes :=
  match p.headerLength? d with
  | none => none
  | some h =>
    match setBe? d p 10 2 0 with
    | none => none
    | some d =>
      match sumLoop d p ((h + 1) / 2) 0 0 with
      | none => none
      | some sum =>
        match carryLoop 4 sum with
        | none => none
        | some sum => setBe? d p 10 2 (0xffff - sum)

end Spead2

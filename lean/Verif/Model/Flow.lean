import Verif.Model.SendIbv
import Verif.Model.RecvUdp

/-!
# Which frames an ibverbs reader gets

The endpoints of the configuration become flow rules of the card (src/common_ibv.cpp:455-522), the multicast groups among them are
joined (src/recv_udp_ibv.cpp:102-116), and the frames that a rule takes arrive in the reader's queue.
-/

namespace Spead2.Flow

/-- `boost::asio::ip::address`: the bytes, 4 or 16, in network order. -/
inductive Addr where
  | v4 (b : Bytes)
  | v6 (b : Bytes)
  deriving DecidableEq

/-- `is_unspecified`. -/
def Addr.unspecified : Addr → Bool
  | .v4 b => b == [0, 0, 0, 0]
  | .v6 b => b == List.replicate 16 0

/-- `is_multicast`. -/
def Addr.multicast : Addr → Bool
  | .v4 b => b.getD 0 0 &&& 0xf0 == 0xe0
  | .v6 b => b.getD 0 0 == 0xff

/-- `to_v4`.  `none`: the exception `bad_address_cast`. -/
def Addr.toV4 : Addr → Option Bytes
  | .v4 b => some b
  | .v6 _ => none

/-- An endpoint. -/
structure Endpoint where
  addr : Addr
  port : Nat
  deriving DecidableEq

/-- `recv::udp_ibv_config::validate_endpoint` (src/recv_udp_ibv.cpp:50-54). -/
def Endpoint.valid (e : Endpoint) : Bool :=
  e.addr.unspecified || (match e.addr with | .v4 _ => true | .v6 _ => false)

/-- `ifa_addr` (src/common_raw_packet.cpp:82-146): an IPv4 or IPv6 address, the link layer with `sll_hatype` and the `sll_halen` bytes
of its address, anything else, or null. -/
inductive IfData where
  | inet (b : Bytes)
  | inet6 (b : Bytes)
  | link (hatype : Nat) (b : Bytes)
  | other
  deriving DecidableEq

/-- One `ifaddrs`. -/
structure IfAddr where
  name : String
  data : IfData
  deriving DecidableEq

/-- The first loop of `interface_mac` (src/common_raw_packet.cpp:87-115): the name. -/
def findName (a : Addr) : List IfAddr → Option String
  | [] => none
  | x :: xs =>
    match x.data, a with
    | .inet b, .v4 c => if b = c then some x.name else findName a xs
    | .inet6 b, .v6 c => if b = c then some x.name else findName a xs
    | _, _ => findName a xs

/-- The second loop (src/common_raw_packet.cpp:118-145, Linux).  `ARPHRD_ETHER` is 1. -/
def findMac (name : String) : List IfAddr → Option Bytes
  | [] => none
  | x :: xs =>
    match x.data with
    | .link t b => if x.name = name ∧ t = 1 ∧ b.length = 6 then some b else findMac name xs
    | _ => findMac name xs

/-- `interface_mac` (src/common_raw_packet.cpp:80-147).  `none`: an exception. -/
def interfaceMac (ifs : List IfAddr) (a : Addr) : Option Bytes :=
  match findName a ifs with
  | none => none
  | some name => findMac name ifs

/-- The part of `flow_rule` that is not constant (src/common_ibv.cpp:459-466): values and masks of the destination ethernet address, the
destination IP address and the destination port, as they are in memory. -/
structure Rule where
  mac : Bytes := [0, 0, 0, 0, 0, 0]
  macMask : Bytes := [0, 0, 0, 0, 0, 0]
  ip : Bytes := [0, 0, 0, 0]
  ipMask : Bytes := [0, 0, 0, 0]
  port : Bytes := [0, 0]
  portMask : Bytes := [0, 0]
  deriving DecidableEq

/-- `create_flow` (src/common_ibv.cpp:455-505).  `none`: an exception. -/
def createFlow (ifs : List IfAddr) (e : Endpoint) : Option Rule :=
  let addressed : Option Rule :=
    if e.addr.unspecified then some {}
    else
      let mac := if e.addr.multicast then e.addr.toV4.map multicastMac else interfaceMac ifs e.addr
      match mac, e.addr.toV4 with
      | some mac, some ip =>
        some { mac := mac, macMask := List.replicate 6 0xff, ip := ip, ipMask := List.replicate 4 0xff }
      | _, _ => none
  addressed.map fun r => { r with port := beBytes 2 e.port, portMask := [0xff, 0xff] }

/-- `create_flows` (src/common_ibv.cpp:507-522).  An exception leaves no flow behind: the vector is destroyed. -/
def createFlows (ifs : List IfAddr) : List Endpoint → Option (List Rule)
  | [] => some []
  | e :: es =>
    match createFlow ifs e, createFlows ifs es with
    | some r, some rs => some (r :: rs)
    | _, _ => none

/-- `groups` (src/recv_udp_ibv.cpp:102-104). -/
def groups (es : List Endpoint) : List Addr := (es.filter fun e => e.addr.multicast).map Endpoint.addr

/-- Bits that the mask selects. -/
def masked (v m : Bytes) : Bytes := List.zipWith (· &&& ·) v m

/-- Trusted about the card (manual page of `ibv_create_flow`): a rule of the three specifications ethernet, IPv4 and UDP takes an ethernet frame
without a VLAN tag that holds an IPv4 packet that holds UDP, and whose destination ethernet address, IP address and port agree with the
values in the bits of the masks. -/
def Rule.takes (r : Rule) (f : Bytes) : Bool :=
  match slice? f 0 6, slice? f 12 2, f[14]?, f[23]?, slice? f 30 4 with
  | some mac, some et, some v, some pr, some ip =>
    et == [0x08, 0x00] && v.toNat / 16 == 4 && pr == 17 &&
    masked mac r.macMask == masked r.mac r.macMask && masked ip r.ipMask == masked r.ip r.ipMask &&
    match slice? f (16 + 4 * (v.toNat % 16)) 2 with
    | some port => masked port r.portMask == masked r.port r.portMask
    | none => false
  | _, _, _, _, _ => false

/-- The frames that arrive in the queue of the reader, of those that reach the card. -/
def steered (rules : List Rule) (fs : List Bytes) : List Bytes := fs.filter fun f => rules.any fun r => r.takes f

/-- Handlers of a reader with plain receive requests, one after the other. -/
def ibvRun (cfg : StreamConfig) (maxSize slots : Nat) : List (List (List IbvWc)) → Stream → Option (Stream × List Entry)
  | [], s => some (s, [])
  | polls :: rest, s =>
    (ibvHandler cfg maxSize slots s polls).bind fun r => (ibvRun cfg maxSize slots rest r.1).map fun r' => (r'.1, r.2 ++ r'.2)

/-- Handlers of a reader with a multi-packet receive queue, one after the other; each with the `wqe_start` it begins with. -/
def mprqRun (cfg : StreamConfig) (maxSize wqeSize bufSize : Nat) : List (Nat × List (List MprqWc)) → Stream → Option (Stream × List Entry)
  | [], s => some (s, [])
  | (start, polls) :: rest, s =>
    (mprqHandler cfg maxSize wqeSize bufSize start s polls).bind fun r =>
      (mprqRun cfg maxSize wqeSize bufSize rest r.1).map fun r' => (r'.1, r.2 ++ r'.2)

end Spead2.Flow

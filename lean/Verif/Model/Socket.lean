/-!
# Sockets of UDP readers and senders

The functions that make sockets in src/recv_udp.cpp 97-199 and src/send_udp.cpp 405-525, `udp_reader::start` (src/recv_udp.cpp 90-95), and `set_socket_buffer_size` (src/common_socket.cpp 32-56),
over a model of what Linux does with sockets: joining groups, binding, and handing datagrams to sockets (`IP_MULTICAST_ALL` has its default, and a socket bound to `::` also gets datagrams of IPv4).
Simplified: addresses are numbers with a family; ports are not 0; datagrams for addresses of the host are accepted on every interface; broadcasts do not exist.
-/

namespace Spead2.Socket

inductive Addr where
  | v4 (n : Nat) | v6 (n : Nat)
  deriving DecidableEq, Repr

def Addr.isV4 : Addr → Bool
  | .v4 _ => true
  | .v6 _ => false

/-- `is_unspecified`: 0.0.0.0 or ::. -/
def Addr.unspec : Addr → Bool
  | .v4 n => n == 0
  | .v6 n => n == 0

/-- `is_multicast`: 224.0.0.0/4 or ff00::/8. -/
def Addr.multicast : Addr → Bool
  | .v4 n => decide (0xE0000000 ≤ n ∧ n < 0xF0000000)
  | .v6 n => decide (0xFF * 2 ^ 120 ≤ n)

structure Endpoint where
  addr : Addr
  port : Nat
  deriving DecidableEq, Repr

/-- The addresses of the host, with their interfaces (numbered from 1), and the interface that the routing table has for a group. -/
structure Host where
  addrs : List (Nat × Addr)
  route : Addr → Option Nat

/-- How an interface is chosen: by the system, by address, or by index. -/
inductive IfSel where
  | any | byAddr (a : Addr) | byIndex (k : Nat)
  deriving DecidableEq, Repr

inductive Err where
  | invalid | noDevice | inUse | notAvailable | range | protocol
  deriving DecidableEq, Repr

/-- The interface on which a group is joined: unspecified addresses and index 0 mean the routing table. -/
def Host.pick (h : Host) (group : Addr) : IfSel → Option Nat
  | .any => h.route group
  | .byAddr a => if a.unspec then h.route group else (h.addrs.find? fun x => x.2 == a).map fun x => x.1
  | .byIndex k => if k = 0 then h.route group else if h.addrs.any (fun x => x.1 == k) then some k else none

/-- The constructors of `udp_reader` (include/spead2/recv_udp.h 113-170). -/
inductive Ctor where
  | plain (ep : Endpoint) | iface (ep : Endpoint) (a : Addr) | index (ep : Endpoint) (k : Nat)
  deriving DecidableEq, Repr

/-- A socket: `SO_REUSEADDR`, groups with interfaces, and where it is bound.  `owner` is the reader that has it; other programs' sockets have none. -/
structure Sock where
  v4 : Bool
  reuse : Bool := false
  joined : List (Addr × Nat) := []
  bound : Option Endpoint := none
  owner : Option Ctor := none
  deriving DecidableEq, Repr

/-- `join_group`: the family must be that of the socket. -/
def Sock.join (h : Host) (s : Sock) (group : Addr) (sel : IfSel) : Except Err Sock :=
  if group.isV4 != s.v4 then .error .invalid
  else
    match h.pick group sel with
    | some i => .ok { s with joined := s.joined ++ [(group, i)] }
    | none => .error .noDevice

/-- `make_socket` (src/recv_udp.cpp 140-153). -/
def makeSocket (h : Host) (ep : Endpoint) : Except Err Sock :=
  let s : Sock := { v4 := ep.addr.isV4 }
  if ep.addr.multicast then ({ s with reuse := true } : Sock).join h ep.addr .any else .ok s

/-- What the constructor with an interface listens to: the interface if the address is unspecified (src/recv_udp.cpp 105-107, 181-185). -/
def effective (ep : Endpoint) (a : Addr) : Endpoint := if ep.addr.unspec then { ep with addr := a } else ep

/-- `make_v4_socket` (src/recv_udp.cpp 97-121). -/
def makeV4Socket (h : Host) (ep0 : Endpoint) (a : Addr) : Except Err Sock :=
  if !a.isV4 then .error .invalid
  else
    let ep := effective ep0 a
    if !ep.addr.isV4 then .error .invalid
    else if !ep.addr.multicast && ep.addr != a then .error .invalid
    else
      let s : Sock := { v4 := ep.addr.isV4 }
      if ep.addr.multicast then ({ s with reuse := true } : Sock).join h ep.addr (.byAddr a) else .ok s

/-- `make_multicast_v6_socket` (src/recv_udp.cpp 123-138). -/
def makeV6Socket (h : Host) (ep : Endpoint) (k : Nat) : Except Err Sock :=
  if ep.addr.isV4 || !ep.addr.multicast then .error .invalid
  else ({ v4 := ep.addr.isV4, reuse := true } : Sock).join h ep.addr (.byIndex k)

/-- The socket of a reader (src/recv_udp.cpp 155-199). -/
def Ctor.make (h : Host) : Ctor → Except Err Sock
  | .plain ep => makeSocket h ep
  | .iface ep a => makeV4Socket h ep a
  | .index ep k => makeV6Socket h ep k

/-- `bind_endpoint` (src/recv_udp.cpp 165, 185, 198). -/
def Ctor.endpoint : Ctor → Endpoint
  | .plain ep => ep
  | .iface ep a => effective ep a
  | .index ep _ => ep

/-- A socket bound to `b` gets datagrams for `dst`. -/
def covers (b dst : Addr) : Bool := b == dst || (b.unspec && (dst.isV4 == b.isV4 || !b.isV4))

/-- Two sockets that cannot both be bound, unless both have `SO_REUSEADDR`. -/
def conflict (a b : Endpoint) : Bool := a.port == b.port && (covers a.addr b.addr || covers b.addr a.addr)

/-- The sockets that are bound. -/
abbrev Kernel := List Sock

/-- `bind`: to an address of the host, a group or the unspecified address, of the family of the socket, if no other socket is in the way. -/
def bind (h : Host) (k : Kernel) (s : Sock) (ep : Endpoint) : Except Err Kernel :=
  if ep.addr.isV4 != s.v4 then .error .protocol
  else if !(ep.addr.unspec || ep.addr.multicast || h.addrs.any fun x => x.2 == ep.addr) then .error .notAvailable
  else if k.any (fun o => (match o.bound with | some b => conflict b ep | none => false) && !(o.reuse && s.reuse)) then .error .inUse
  else .ok (k ++ [{ s with bound := some ep }])

/-- A reader is made and started (`emplace_reader`; src/recv_udp.cpp 90-95); if that throws, its socket is closed. -/
def addReader (h : Host) (k : Kernel) (c : Ctor) : Except Err Kernel :=
  match c.make h with
  | .error e => .error e
  | .ok s => bind h k { s with owner := some c } c.endpoint

/-- What happens on the host: readers are added and removed, and other programs bind sockets with whatever groups they like. -/
inductive Ev where
  | reader (c : Ctor) | other (s : Sock) (ep : Endpoint) | close (i : Nat)
  deriving DecidableEq, Repr

def step (h : Host) (k : Kernel) : Ev → Kernel
  | .reader c => match addReader h k c with | .ok k' => k' | .error _ => k
  | .other s ep => match bind h k { s with owner := none } ep with | .ok k' => k' | .error _ => k
  | .close i => k.eraseIdx i

def run (h : Host) : Kernel → List Ev → Kernel
  | k, [] => k
  | k, e :: es => run h (step h k e) es

/-- A datagram: its destination, and the interface it arrives on. -/
structure Dgram where
  dst : Addr
  port : Nat
  iface : Nat
  deriving DecidableEq, Repr

/-- The host takes datagrams for its own addresses, and for groups that any socket has joined on the interface. -/
def accepts (h : Host) (k : Kernel) (d : Dgram) : Bool :=
  if d.dst.multicast then k.any fun s => s.joined.any fun j => j == (d.dst, d.iface)
  else h.addrs.any fun x => x.2 == d.dst

/-- Whether a socket is bound to where a datagram goes. -/
def Sock.matches (s : Sock) (d : Dgram) : Bool :=
  match s.bound with
  | some b => b.port == d.port && covers b.addr d.dst
  | none => false

/-- The sockets that get a datagram: with `IP_MULTICAST_ALL`, all that match, whatever they have joined. -/
def deliver (h : Host) (k : Kernel) (d : Dgram) : List Sock := if accepts h k d then k.filter fun s => s.matches d else []

/-! ## Sockets of senders -/

/-- A socket that sends: its family, local address, hops and interface for groups (`none` is the default of the system). -/
structure OutSock where
  v4 : Bool
  «local» : Option Addr := none
  hops : Option Nat := none
  out : Option IfSel := none
  deriving DecidableEq, Repr

/-- The constructors of `udp_stream` that make a socket. -/
inductive SendCtor where
  | plain (a : Addr) | multicast (ttl : Int) | multicastV4 (ttl : Int) (a : Addr) | multicastV6 (ttl : Int) (k : Nat)
  deriving DecidableEq, Repr

/-- `get_protocol` (src/send_udp.cpp 423-428). -/
def getProtocol : List Endpoint → Except Err Bool
  | [] => .error .invalid
  | e :: _ => .ok e.addr.isV4

/-- `multicast::hops` (boost) takes 0 to 255. -/
def setHops (s : OutSock) (ttl : Int) : Except Err OutSock :=
  if 0 ≤ ttl ∧ ttl ≤ 255 then .ok { s with hops := some ttl.toNat } else .error .range

/-- `make_socket` (src/send_udp.cpp 412-421). -/
def sendPlain (h : Host) (eps : List Endpoint) (a : Addr) : Except Err OutSock :=
  match getProtocol eps with
  | .error e => .error e
  | .ok v4 =>
    if a.unspec then .ok { v4 := v4 }
    else if a.isV4 != v4 then .error .protocol
    else if h.addrs.any fun x => x.2 == a then .ok { v4 := v4, «local» := some a }
    else .error .notAvailable

/-- `make_multicast_socket` (src/send_udp.cpp 442-453). -/
def sendMulticast (eps : List Endpoint) (ttl : Int) : Except Err OutSock :=
  if eps.any (fun e => !e.addr.multicast) then .error .invalid
  else
    match getProtocol eps with
    | .error e => .error e
    | .ok v4 => setHops { v4 := v4 } ttl

/-- `make_multicast_v4_socket` (src/send_udp.cpp 455-471). -/
def sendMulticastV4 (h : Host) (eps : List Endpoint) (ttl : Int) (a : Addr) : Except Err OutSock :=
  if eps.any (fun e => !e.addr.isV4 || !e.addr.multicast) then .error .invalid
  else if !a.unspec && !a.isV4 then .error .invalid
  else
    match setHops { v4 := true } ttl with
    | .error e => .error e
    | .ok s =>
      if a.unspec then .ok s
      else if h.addrs.any fun x => x.2 == a then .ok { s with out := some (.byAddr a) }
      else .error .notAvailable

/-- `make_multicast_v6_socket` (src/send_udp.cpp 473-485). -/
def sendMulticastV6 (h : Host) (eps : List Endpoint) (ttl : Int) (k : Nat) : Except Err OutSock :=
  if eps.any (fun e => e.addr.isV4 || !e.addr.multicast) then .error .invalid
  else
    match setHops { v4 := false } ttl with
    | .error e => .error e
    | .ok s =>
      if k = 0 ∨ h.addrs.any (fun x => x.1 == k) then .ok { s with out := some (.byIndex k) } else .error .noDevice

/-- A stream is made: the socket, and then the check of `udp_writer` (src/send_udp.cpp 392-396) that every endpoint has the family of the socket. -/
def makeStream (h : Host) (eps : List Endpoint) (c : SendCtor) : Except Err OutSock :=
  let r := match c with
    | .plain a => sendPlain h eps a
    | .multicast ttl => sendMulticast eps ttl
    | .multicastV4 ttl a => sendMulticastV4 h eps ttl a
    | .multicastV6 ttl k => sendMulticastV6 h eps ttl k
  match r with
  | .error e => .error e
  | .ok s => if eps.any (fun e => e.addr.isV4 != s.v4) then .error .invalid else .ok s

/-! ## Sizes of buffers -/

/-- `set_socket_buffer_size` (src/common_socket.cpp 32-56): the size that is asked for is converted to `int`.  `kernel` is what the system makes of a request: nothing if it fails.
The new size (if any) and whether a warning is logged. -/
def setBuffer (kernel : Int → Option Nat) (old size : Nat) : Nat × Bool :=
  if size = 0 then (old, false)
  else
    let asked : Int := if size % 2 ^ 32 < 2 ^ 31 then (size % 2 ^ 32 : Nat) else (size % 2 ^ 32 : Nat) - 2 ^ 32
    match kernel asked with
    | none => (old, true)
    | some actual => (actual, decide (actual < size))

/-- Linux: the request is taken as unsigned and clipped to the maximum, and never below the minimum (boost undoes the doubling). -/
def linux (lo hi : Nat) (asked : Int) : Option Nat := some (max lo (min (if asked < 0 then (asked + 2 ^ 32).toNat else asked.toNat) hi))

end Spead2.Socket

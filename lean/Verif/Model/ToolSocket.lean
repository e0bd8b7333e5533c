import Verif.Model.Socket

/-!
# Which sockets the tools ask for

`sender_options::make_stream` (src/spead2_cmdline.cpp 336-403) and `SenderOptions.make_stream` (src/spead2/tools/cmdline.py 379-407) for UDP without ibverbs, with the overloads of `UdpStream` (src/py_send.cpp 427-482, 553-577);
and the UDP readers of `receiver_options::add_readers` (src/spead2_cmdline.cpp 222-244) and `ReceiverOptions.add_readers` (src/spead2/tools/cmdline.py 254-277).
Simplified: endpoints and addresses have been resolved.
-/

namespace Spead2.ToolSocket

open Socket

/-- `--bind` and `--ttl`. -/
structure SOpts where
  bind : Option Addr := none
  ttl : Option Int := none
  deriving DecidableEq, Repr

/-- The constructor that spead2_send uses (src/spead2_cmdline.cpp 381-400), by its first endpoint; the TTL is 1 by default (src/spead2_cmdline.h 263). -/
def cppSend (o : SOpts) (e : Endpoint) : SendCtor :=
  if e.addr.multicast then
    if e.addr.isV4 then .multicastV4 (o.ttl.getD 1) (o.bind.getD (.v4 0)) else .multicast (o.ttl.getD 1)
  else .plain (o.bind.getD (.v4 0))

/-- The overload that send_asyncio.py uses (src/spead2/tools/cmdline.py 400-407), by its keyword arguments. -/
def pySend (o : SOpts) : SendCtor :=
  match o.ttl, o.bind with
  | none, none => .plain (.v4 0)
  | none, some a => .plain a
  | some t, none => .multicast t
  | some t, some a => .multicastV4 t a

def cppStream (h : Host) (o : SOpts) (e : Endpoint) (eps : List Endpoint) : Except Err OutSock := makeStream h (e :: eps) (cppSend o e)

def pyStream (h : Host) (o : SOpts) (e : Endpoint) (eps : List Endpoint) : Except Err OutSock := makeStream h (e :: eps) (pySend o)

/-- What becomes of a datagram on Linux: its hops (1 by default for groups, and not affected by the option otherwise), its interface (for groups: that of the option, or of the address the socket is bound to, or of the routing table) and its source address if it is fixed. -/
structure Effect where
  hops : Option Nat
  iface : Option Nat
  source : Option Addr
  deriving DecidableEq, Repr

def effect (h : Host) (s : OutSock) (dst : Addr) : Effect :=
  if dst.multicast then
    match s.out, s.«local» with
    | some (.byAddr a), _ => ⟨some (s.hops.getD 1), h.pick dst (.byAddr a), some a⟩
    | some sel, l => ⟨some (s.hops.getD 1), h.pick dst sel, l⟩
    | none, some a => ⟨some (s.hops.getD 1), h.pick dst (.byAddr a), some a⟩
    | none, none => ⟨some (s.hops.getD 1), h.route dst, none⟩
  else ⟨none, h.route dst, s.«local»⟩

/-- The reader of spead2_recv (src/spead2_cmdline.cpp 232-243); `none` if `make_address_v4` throws.  For IPv6 `--bind` is ignored (with a message). -/
def cppReader (bind : Option Addr) (ep : Endpoint) : Option Ctor :=
  match bind with
  | some a => if ep.addr.isV4 then (if a.isV4 then some (.iface ep a) else none) else some (.plain ep)
  | none => some (.plain ep)

/-- The reader of recv_asyncio.py (src/spead2/tools/cmdline.py 274-277). -/
def pyReader (bind : Option Addr) (ep : Endpoint) : Ctor :=
  match bind with
  | some a => .iface ep a
  | none => .plain ep

end Spead2.ToolSocket

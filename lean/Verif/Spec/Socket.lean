import Verif.Model.Socket

/-!
# What users expect of the sockets of readers and senders

From include/spead2/recv_udp.h 97-170, include/spead2/send_udp.h 60-170 and the documentation of the buffer sizes.
-/

namespace Spead2.Socket

/-- Where a reader is asked to listen: with an interface, an unspecified address stands for that of the interface. -/
def Listens : Ctor → Addr → Nat → Prop
  | .plain ep, a, p => ep.addr = a ∧ ep.port = p
  | .iface ep i, a, p => ep.port = p ∧ ((ep.addr.unspec = true ∧ i = a) ∨ (ep.addr.unspec = false ∧ ep.addr = a))
  | .index ep _, a, p => ep.addr = a ∧ ep.port = p

/-- Datagrams for `dst` are meant for those that listen on `a`: the same address, any of IPv4 for 0.0.0.0, all for ::. -/
def MeantFor (a dst : Addr) : Prop := a = dst ∨ (a = .v4 0 ∧ ∃ n, dst = .v4 n) ∨ a = .v6 0

/-- The interface on which a reader of a group is asked to join it: that of the address or index, or else the choice of the system. -/
def Chosen (h : Host) : Ctor → Addr → Nat → Prop
  | .plain _, g, i => h.route g = some i
  | .iface _ a, g, i => (a.unspec = true ∧ h.route g = some i) ∨ (a.unspec = false ∧ (i, a) ∈ h.addrs)
  | .index _ k, g, i => (k = 0 ∧ h.route g = some i) ∨ (k ≠ 0 ∧ i = k ∧ ∃ a, (i, a) ∈ h.addrs)

/-- The arguments that the documentation says are refused. -/
def BadArguments : Ctor → Prop
  | .plain _ => False
  | .iface ep a => a.isV4 = false ∨ (ep.addr.unspec = false ∧ ¬ (ep.addr.isV4 = true ∧ ep.addr.multicast = true) ∧ ep.addr ≠ a)
  | .index ep _ => ¬ (ep.addr.isV4 = false ∧ ep.addr.multicast = true)

/-- No address is on two interfaces. -/
def Host.Unique (h : Host) : Prop := ∀ i j a, (i, a) ∈ h.addrs → (j, a) ∈ h.addrs → i = j

/-- Two places to listen that some datagram is meant for both of. -/
def Clash (a : Addr) (p : Nat) (b : Addr) (q : Nat) : Prop := p = q ∧ (MeantFor a b ∨ MeantFor b a)

/-- The endpoints that the constructors of senders take, as the documentation has it. -/
def GoodEndpoints : SendCtor → List Endpoint → Prop
  | .plain _, eps => ∃ f, ∀ e ∈ eps, e.addr.isV4 = f
  | .multicast _, eps => ∃ f, ∀ e ∈ eps, e.addr.isV4 = f ∧ e.addr.multicast = true
  | .multicastV4 _ _, eps => ∀ e ∈ eps, e.addr.isV4 = true ∧ e.addr.multicast = true
  | .multicastV6 _ _, eps => ∀ e ∈ eps, e.addr.isV4 = false ∧ e.addr.multicast = true

/-- The times to live that exist. -/
def GoodTtl : SendCtor → Prop
  | .plain _ => True
  | .multicast t | .multicastV4 t _ | .multicastV6 t _ => 0 ≤ t ∧ t ≤ 255

/-- The interfaces a sender can use: the choice of the system, or one the host has, of the family of the endpoints. -/
def GoodInterface (h : Host) (eps : List Endpoint) : SendCtor → Prop
  | .plain a => a.unspec = true ∨ ((∃ i, (i, a) ∈ h.addrs) ∧ ∀ e ∈ eps, e.addr.isV4 = a.isV4)
  | .multicast _ => True
  | .multicastV4 _ a => a.unspec = true ∨ (a.isV4 = true ∧ ∃ i, (i, a) ∈ h.addrs)
  | .multicastV6 _ k => k = 0 ∨ ∃ a, (k, a) ∈ h.addrs

/-- The socket that a constructor is to make: its family, and what it is set to. -/
def wanted (c : SendCtor) (f : Bool) : OutSock :=
  match c with
  | .plain a => { v4 := f, «local» := if a.unspec then none else some a }
  | .multicast t => { v4 := f, hops := some t.toNat }
  | .multicastV4 t a => { v4 := f, hops := some t.toNat, out := if a.unspec then none else some (.byAddr a) }
  | .multicastV6 t k => { v4 := f, hops := some t.toNat, out := some (.byIndex k) }

end Spead2.Socket

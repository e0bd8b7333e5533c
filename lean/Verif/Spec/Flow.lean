import Verif.Model.Flow
import Verif.Spec.SendIbvRing
import Verif.Spec.RecvUdp

/-!
# What a subscription should get
-/

namespace Spead2.Flow
open Spec

/-- The destination of a UDP frame: ethernet address, IP address and port, where the standards put them. -/
structure Dest where
  mac : Bytes
  ip : Bytes
  port : Nat
  deriving DecidableEq

/-- `f` is a UDP frame to `d` with the payload `p`. -/
def FrameFor (d : Dest) (p f : Bytes) : Prop :=
  IsUdpFrame 14 f p ∧ f.take 6 = d.mac ∧ (f.drop 30).take 4 = d.ip ∧ d.port < 65536 ∧
  ∃ v, f[14]? = some v ∧ (f.drop (14 + 4 * (v.toNat % 16) + 2)).take 2 = beBytes 2 d.port

/-- An IPv4 multicast group (RFC 5771): 224.0.0.0 to 239.255.255.255. -/
def IsGroup (a : Bytes) : Prop := ∃ x, a[0]? = some x ∧ 224 ≤ x.toNat ∧ x.toNat < 240

instance (a : Bytes) : Decidable (IsGroup a) := by
  unfold IsGroup
  cases h : a[0]? with
  | none => exact isFalse (by simp)
  | some x => exact decidable_of_iff (224 ≤ x.toNat ∧ x.toNat < 240) (by simp)

/-- `mac` is the ethernet address of the interface that has the address `a`: of the first such interface, and its first one. -/
def MacOf (ifs : List IfAddr) (a mac : Bytes) : Prop :=
  ∃ (i j : Nat) (name : String), ifs[i]? = some ⟨name, .inet a⟩ ∧ ifs[j]? = some ⟨name, .link 1 mac⟩ ∧ mac.length = 6 ∧
    (∀ i' < i, ∀ n, ifs[i']? ≠ some ⟨n, .inet a⟩) ∧ (∀ j' < j, ∀ m : Bytes, m.length = 6 → ifs[j']? ≠ some ⟨name, .link 1 m⟩)

/-- The endpoint asks for frames to `d`. -/
def Wants (ifs : List IfAddr) (e : Endpoint) (d : Dest) : Prop :=
  d.port = e.port ∧
  (e.addr = .v4 [0, 0, 0, 0] ∨ e.addr = .v6 (List.replicate 16 0) ∨
    ∃ a, e.addr = .v4 a ∧ d.ip = a ∧ if IsGroup a then d.mac = groupMac a else MacOf ifs a d.mac)

/-- An endpoint that the type allows. -/
structure Endpoint.Ok (e : Endpoint) : Prop where
  v4 : ∀ b, e.addr = .v4 b → b.length = 4
  v6 : ∀ b, e.addr = .v6 b → b.length = 16
  port : e.port < 65536

/-- One of the endpoints is this destination of a sender, or its port on any address. -/
def Subscribes (es : List Endpoint) (i : IEndpoint) : Prop :=
  ∃ e ∈ es, e.port = i.port ∧ (e.addr = .v4 [0, 0, 0, 0] ∨ e.addr = .v6 (List.replicate 16 0) ∨ e.addr = .v4 i.addr)

/-- What reaches the card is what was sent, in order, and in between frames for others, frames that are not UDP, and UDP frames that do not
hold a packet. -/
inductive Reaches (ifs : List IfAddr) (es : List Endpoint) : List Bytes → List Bytes → Prop
  | nil : Reaches ifs es [] []
  | sent {f sent got} : Reaches ifs es sent got → Reaches ifs es (f :: sent) (f :: got)
  | other {f sent got} : (∀ d p, FrameFor d p f → (∃ e ∈ es, Wants ifs e d) → ¬ ∃ q, IsPacket p q) → Reaches ifs es sent got →
      Reaches ifs es sent (f :: got)

end Spead2.Flow

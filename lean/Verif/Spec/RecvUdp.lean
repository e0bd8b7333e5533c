import Verif.Spec.Mem
import Verif.Spec.RawPacket
import Verif.Model.RecvUdp

/-!
# Specification: what readers of datagrams give to the stream
-/

namespace Spead2.Spec

/-- `l` holds the packets of those datagrams of `ds` that are exactly one packet and whose size is acceptable, in order. -/
inductive PacketsOf (fits : Nat → Prop) : List Bytes → List Pkt → Prop
  | nil : PacketsOf fits [] []
  | take {d p ds l} : fits d.length → IsPacket d p → PacketsOf fits ds l → PacketsOf fits (d :: ds) (p :: l)
  | skip {d ds l} : (¬ (fits d.length ∧ ∃ p, IsPacket d p)) → PacketsOf fits ds l → PacketsOf fits (d :: ds) l

/-- `ds` holds the UDP payloads of the frames that are UDP over IPv4, in order. -/
inductive Payloads (n : Nat) : List Bytes → List Bytes → Prop
  | nil : Payloads n [] []
  | take {f p fs ds} : IsUdpFrame n f p → Payloads n fs ds → Payloads n (f :: fs) (p :: ds)
  | skip {f fs ds} : (¬ ∃ p, IsUdpFrame n f p) → Payloads n fs ds → Payloads n (f :: fs) ds

/-- A sequence of datagrams that the kernel may coalesce with segment size `n`: all have `n` bytes, except that the last may be shorter. -/
def Segments (n : Nat) : List Bytes → Prop
  | [] => False
  | [d] => 0 < d.length ∧ d.length ≤ n
  | d :: ds => d.length = n ∧ Segments n ds

/-- The kernel gives the datagrams `ds` as the message `m`, cutting it if it does not fit in `buf` bytes. Without `gro` there is one
datagram to a message; with it, several may be coalesced and the segment size is given. -/
inductive Delivers (gro : Bool) (buf : Nat) : List Bytes → RxMsg → Prop
  | one {d} : Delivers gro buf [d] ⟨d.take buf, -1⟩
  | coalesced {ds n} : gro = true → Segments n ds → ds.flatten.length ≤ buf → Delivers gro buf ds ⟨ds.flatten, n⟩

/-- The kernel gives the datagrams `ds` as the messages `ms`. -/
inductive DeliversAll (gro : Bool) (buf : Nat) : List Bytes → List RxMsg → Prop
  | nil : DeliversAll gro buf [] []
  | cons {ds m ds' ms} : Delivers gro buf ds m → DeliversAll gro buf ds' ms → DeliversAll gro buf (ds ++ ds') (m :: ms)

/-- The complete records of a capture. -/
def wholeRecords : List PcapRec → List Bytes
  | [] => []
  | .error :: rs => wholeRecords rs
  | .record len d :: rs => if len ≤ d.length then d :: wholeRecords rs else wholeRecords rs

/-- The frames of completions of receive requests that succeeded. -/
def ibvFrames (wcs : List IbvWc) : List Bytes := wcs.filterMap IbvWc.frame

/-- The frames of completions of a multi-packet queue. -/
def mprqFrames : List MprqWc → List Bytes
  | [] => []
  | .ok (some d) _ :: r => d :: mprqFrames r
  | _ :: r => mprqFrames r

end Spead2.Spec

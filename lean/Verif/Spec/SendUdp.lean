import Verif.Model.SendUdp

/-!
# What is seen of a UDP writer

Functions of the trace alone.
-/

namespace Spead2.Spec

/-- The packets that the writer was given, in order. -/
def gotPkts : List UEv → List UPkt
  | [] => []
  | .got ps :: evs => ps ++ gotPkts evs
  | _ :: evs => gotPkts evs

/-- The packets that were accounted for, in order, each as sent (`none`) or with its error. -/
def accounted : List UEv → List (UPkt × Option Nat)
  | [] => []
  | .done p e :: evs => (p, e) :: accounted evs
  | _ :: evs => accounted evs

/-- The datagrams that left, in order, with their destinations. -/
def datagrams : List UEv → List (Nat × Bytes)
  | [] => []
  | .dgram n d :: evs => (n, d) :: datagrams evs
  | _ :: evs => datagrams evs

/-- How many groups were reported as complete. -/
def groupsDone : List UEv → Nat
  | [] => 0
  | .completed k :: evs => k + groupsDone evs
  | _ :: evs => groupsDone evs

/-- How many of some packets are the last of their groups. -/
def lastCount (l : List (UPkt × Option Nat)) : Nat := (l.filter (fun x => x.1.last)).length

/-- The datagrams that should have left: the packets that were sent, each to the endpoint of its substream. -/
def wanted (l : List (UPkt × Option Nat)) : List (Nat × Bytes) := (l.filter (fun x => x.2.isNone)).map (fun x => (x.1.sub, x.1.bytes))

/-- The bytes sent for a group. -/
def sentFor (item : Nat) (l : List (UPkt × Option Nat)) : Nat :=
  ((l.filter (fun x => x.2.isNone && decide (x.1.item = item))).map (fun x => x.1.bytes.length)).sum

/-- The first error of a group. -/
def errorFor (item : Nat) (l : List (UPkt × Option Nat)) : Option Nat := l.findSome? (fun x => if x.1.item = item then x.2 else none)

/-- Packets are not empty. -/
def PktsOk : List UdpOp → Prop
  | [] => True
  | .wakeup ps _ :: ops => (∀ p ∈ ps, 0 < p.bytes.length) ∧ PktsOk ops
  | .send _ _ :: ops => PktsOk ops

end Spead2.Spec

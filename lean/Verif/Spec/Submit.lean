import Verif.Spec.Delivery
import Verif.Spec.SendWriter

/-!
# Specification: from calls of `async_send_heaps` to the heaps that are sent
-/

namespace Spead2.Spec

/-- `g` is the accepted group `a`: it is the group of a call of `async_send_heaps`, with these heaps in this order, the explicit
cnts where the caller gave them, and the packets that the heaps have with the maximum packet size `mps`. -/
def Submitted (ops : List (WOp SendHeap)) (mps : Nat) (a : Accepted GenPacket) (g : SentGroup) : Prop :=
  ∃ refs, WOp.caller (.enter refs a.mode) ∈ ops ∧ g.mode = a.mode ∧ g.heaps.map Sent.heap = refs.map SendRef.heap ∧
    g.cnts = a.hs.map Admitted.cnt ∧ g.heaps.map Sent.pkts = a.hs.map Admitted.pkts ∧ a.hs.map Admitted.substream = refs.map SendRef.substream ∧
    (∀ (i : Nat) (r : SendRef SendHeap) (c : Nat), refs[i]? = some r → r.cnt = some c → g.cnts[i]? = some c) ∧
    ∀ x ∈ g.heaps, x.mps = mps ∧ x.width = x.heap.hab / 8

/-- All heaps that callers give can be sent faithfully, and say how many address bits they have. -/
def FaithfulCalls (mps : Nat) (ops : List (WOp SendHeap)) : Prop :=
  ∀ refs mode, WOp.caller (.enter refs mode) ∈ ops → ∀ r ∈ refs, r.bits = r.heap.hab ∧ Faithful mps r.heap

/-- What a receiver needs so that it drops nothing: the cnts of the accepted heaps are distinct, the heaps of an accepted group that
is sent round robin are no more than the receiver can assemble at a time, and if the receiver looks for stop items then callers send none. -/
structure Receivable (cfg : StreamConfig) (ops : List (WOp SendHeap)) (as : List (Accepted GenPacket)) : Prop where
  distinct : (as.flatMap (fun a => a.hs.map Admitted.cnt)).Nodup
  few : ∀ a ∈ as, a.mode = .roundRobin → a.hs.length ≤ cfg.maxHeaps
  nostop : cfg.stopOnStopItem = true → ∀ refs mode, WOp.caller (.enter refs mode) ∈ ops → ∀ r ∈ refs, (6, 2) ∉ immediateItems (r.heap.hab / 8) r.heap.items

end Spead2.Spec

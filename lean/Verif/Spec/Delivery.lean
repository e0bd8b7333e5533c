import Verif.Spec.Arrival
import Verif.Spec.SendQueue

/-!
# Specification: groups of heaps that arrive in order
-/

namespace Spead2.Spec

/-- A group of heaps that was sent. -/
structure SentGroup where
  mode : GroupMode
  heaps : List Sent

/-- The datagrams of a group in the order in which they are sent: heap by heap, or round robin. -/
def SentGroup.wire (g : SentGroup) : List Bytes :=
  match g.mode with
  | .serial => (g.heaps.map Sent.wire).flatten
  | .roundRobin => roundRobin (g.heaps.map Sent.wire)

/-- The cnts of a group. -/
def SentGroup.cnts (g : SentGroup) : List Nat := g.heaps.map Sent.cnt

/-- A heap that can be sent faithfully with every cnt that fits in its address bits (see C09 and C10 for what can go wrong
otherwise): it has no empty item in the payload, or no two identical items. -/
structure Faithful (mps : Nat) (h : SendHeap) : Prop where
  fits : ∀ cnt, cnt < 2 ^ h.hab → Fits h cnt mps
  ids : ∀ it ∈ h.items, 4 < it.id
  payload : minPayload mps h ≤ (realPayload (h.hab / 8) h.items).length ∨ (realPayload (h.hab / 8) h.items).length % 8 = 0
  items : NoEmpty (h.hab / 8) h.items ∨ (heapPtrs mps h).Nodup

/-- What a receiver with configuration `cfg` needs of the groups so that nothing is dropped: the cnts are distinct, the heaps of
a group that are sent round robin are not too many, and if the receiver looks for stop items there are none. -/
structure Deliverable (cfg : StreamConfig) (gs : List SentGroup) : Prop where
  distinct : (gs.flatMap SentGroup.cnts).Nodup
  few : ∀ g ∈ gs, g.mode = .roundRobin → g.heaps.length ≤ cfg.maxHeaps
  nostop : cfg.stopOnStopItem = true → ∀ g ∈ gs, ∀ x ∈ g.heaps, (6, 2) ∉ immediateItems x.width x.heap.items

/-- What is handed over for a group: each heap once, complete and with the items that were sent; for a serial group in order. -/
def Arrives (g : SentGroup) (out : List Entry) : Prop :=
  (out.map (fun e => e.heap.cnt)).Perm g.cnts ∧ (∀ x ∈ g.heaps, ∃ e ∈ out, SameItems x e.heap) ∧
  (g.mode = .serial → out.map (fun e => e.heap.cnt) = g.cnts)

end Spead2.Spec

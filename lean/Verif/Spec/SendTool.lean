import Verif.Model.SendTool

/-!
# What `spead2_send` should do
-/

namespace Spead2.SendTool

/-- Options that are numbers of the right size, with something to send to. -/
structure Options.Ok (o : Options) : Prop where
  dests : 1 ≤ o.dests
  maxHeaps : 1 ≤ o.maxHeaps
  items : 1 ≤ o.items
  heaps64 : o.heaps < 2 ^ 63
  dests64 : o.dests < 2 ^ 63

/-- `--heaps` heaps are sent in all, and each destination is sent some of them (the first one with the descriptors) and then one end of stream; all in the
flavour that was asked for. -/
structure Asked {α : Type} (o : Options) (q : List (Entry α)) : Prop where
  count : ((q.map Entry.what).filter (· ≠ .last)).length = o.heaps.toNat
  subs : ∀ e ∈ q, e.sub < o.dests
  dest : ∀ t < o.dests, ∃ l, (q.filter (·.sub = t)).map Entry.what = l ++ [.last] ∧ (l = [] ∨ ∃ n, l = .first :: List.replicate n .data)
  flavour : ∀ e ∈ q, e.flavour = o.flavour

/-- Whatever the stream has read of a heap is what was in it when it was given to the stream. -/
def Intact {α : Type} (s : St α) : Prop := ∀ r ∈ s.reads, ∃ e ∈ s.queued, e.idx = r.1 ∧ e.contents = r.2

end Spead2.SendTool

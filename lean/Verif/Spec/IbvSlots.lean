import Verif.Model.IbvSlots

/-!
# What the receive requests should do
-/

namespace Spead2.Slots

/-- There are slots, and the card is not told more than there is of one. -/
structure Shape.Ok (c : Shape) : Prop where
  len : c.len ≤ c.raw
  pos : 0 < c.n

/-- The handler has looked at the frames that the card has accepted, in their order, unchanged and without gaps, and the frame it works on is in the
buffer, unchanged. -/
def Right (c : Shape) (s : St) : Prop :=
  s.out <+: s.accepted ∧
  ∀ p l, s.view = some (p, l) → p + l ≤ c.n * c.raw ∧ s.out.getLast? = some (Mprq.bytes s.mem p l)

end Spead2.Slots

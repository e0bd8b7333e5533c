import Verif.Spec.RecvUdp

/-!
# A network that neither loses nor reorders datagrams
-/

namespace Spead2.Spec

/-- What arrives is what was sent, in order, and in between possibly datagrams that are not packets. -/
inductive InOrder : List Bytes → List Bytes → Prop
  | nil : InOrder [] []
  | sent {d sent got} : InOrder sent got → InOrder (d :: sent) (d :: got)
  | other {d sent got} : (¬ ∃ p, IsPacket d p) → InOrder sent got → InOrder sent (d :: got)

end Spead2.Spec

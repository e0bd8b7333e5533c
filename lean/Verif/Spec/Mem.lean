import Verif.Spec.Wire
import Verif.Spec.Stream

/-!
# Specification: the packets at the start of a buffer
-/

namespace Spead2.Spec

/-- `b` is exactly one well-formed packet (no bytes after it), with contents `p`. -/
def IsPacket (b : Bytes) (p : Pkt) : Prop :=
  ∃ aw table payload cnt off hlen, WellFormed b aw table payload cnt off hlen ∧
    b.length = 8 + 8 * table.length + payload.length ∧
    p = ⟨8 * aw.toNat, cnt, hlen, off, payload, table.dropWhile (fun q => isPacketItem aw.toNat q)⟩

/-- `d` is the concatenation of the packets `l` followed by `rest`, which does not start with a packet. -/
structure SplitsInto (d : Bytes) (l : List (Bytes × Pkt)) (rest : Bytes) : Prop where
  concat : d = (l.map Prod.fst).flatten ++ rest
  packets : ∀ x ∈ l, IsPacket x.1 x.2
  maximal : ¬ ∃ b p r, rest = b ++ r ∧ IsPacket b p

end Spead2.Spec

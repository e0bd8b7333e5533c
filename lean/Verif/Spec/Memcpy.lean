import Verif.Model.Memcpy

/-!
# Specification of memcpy
-/

namespace Spead2.Spec

/-- What a caller must ensure: the buffers are in the address space, do not overlap, and are no larger than an object can be. -/
structure CpValid (b : CpArgs) : Prop where
  dest : b.dest < 2 ^ 64 ∧ b.dest + b.n ≤ 2 ^ 64
  src : b.src < 2 ^ 64 ∧ b.src + b.n ≤ 2 ^ 64
  disjoint : b.dest + b.n ≤ b.src ∨ b.src + b.n ≤ b.dest
  size : b.n < 2 ^ 63

/-- The destination has the bytes of the source, and nothing else has changed. -/
def Copied (b : CpArgs) (before after : Nat → UInt8) : Prop :=
  (∀ i, i < b.n → after (b.dest + i) = before (b.src + i)) ∧ (∀ x, x < b.dest ∨ b.dest + b.n ≤ x → after x = before x)

end Spead2.Spec

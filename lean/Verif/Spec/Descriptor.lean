import Verif.Model.Descriptor

/-!
# Specification of descriptors
-/

namespace Spead2.Spec

/-- Number of bytes of a bit count in the format field: 3 with the descriptor-widths bug compatibility, else
the width of the identifier field. -/
def formatWidth (w bc : Nat) : Nat := if bc % 2 = 1 then 3 else 8 - w
/-- Number of bytes of a dimension in the shape field: 7, or the width of the address field. -/
def shapeWidth (w bc : Nat) : Nat := if bc % 2 = 1 then 7 else w

/-- The length of the payload of the packet describing `d`. -/
def descriptorLength (w bc : Nat) (d : Descriptor) : Nat :=
  d.name.length + d.description.length + d.format.length * (1 + formatWidth w bc) +
    d.shape.length * (1 + shapeWidth w bc) + d.numpyHeader.length

/-- The values of `d` fit the fields that carry them. -/
structure DescriptorFits (w bc : Nat) (d : Descriptor) : Prop where
  id : 0 < d.id ∧ d.id < 2 ^ (63 - 8 * w)
  format : ∀ f ∈ d.format, 0 ≤ f.2 ∧ f.2 < 2 ^ (8 * formatWidth w bc)
  shape : ∀ x ∈ d.shape, x < 2 ^ (8 * shapeWidth w bc)
  length : descriptorLength w bc d < 2 ^ (8 * w)

/-- What the receiver should get: variable dimensions read as -1, and a numpy header overrides shape and
format. -/
def receivedDescriptor (d : Descriptor) : Descriptor :=
  if d.numpyHeader = [] then { d with shape := d.shape.map (fun x => if x < 0 then -1 else x) }
  else { d with shape := [], format := [] }

end Spead2.Spec

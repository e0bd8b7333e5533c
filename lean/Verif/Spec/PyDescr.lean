import Verif.Model.PyDescr
import Verif.Spec.Descriptor

/-!
# What a user of Python descriptors relies on
-/

namespace Spead2.PyDescr.Spec

/-- What the specification needs of Python: reading back what `repr` wrote gives the same value. -/
structure Faithful (T : PyText) : Prop where
  eval_repr : ∀ v, T.eval (T.repr v) = some v
  nonempty : ∀ v, T.repr v ≠ []

/-- A field that a SPEAD format may have: unsigned or signed integers and booleans of any positive number
of bits, floats of 32 or 64 bits, characters of 8 bits. -/
def FieldOk (x : Nat × Int) : Prop :=
  (x.1 ∈ ['u', 'i', 'b'].map Char.toNat ∧ 0 < x.2) ∨ (x.1 = 'f'.toNat ∧ (x.2 = 32 ∨ x.2 = 64)) ∨ (x.1 = 'c'.toNat ∧ x.2 = 8)

mutual
/-- The scalars in a type. -/
def scalars : Dtype → List (ByteOrder × Str × Nat)
  | .scalar o k n => [(o, k, n)]
  | .array _ b => scalars b
  | .struct fs _ => scalarsF fs
def scalarsF : Fields → List (ByteOrder × Str × Nat)
  | .nil => []
  | .cons _ _ t rest => scalars t ++ scalarsF rest
end

/-- The restrictions in the documentation of `Descriptor` (src/spead2/__init__.py 102-109). -/
structure Valid (d : PyDescriptor) : Prop where
  /-- At most one element of `shape` can be `None`. -/
  unknowns : (d.shape.filter (· = none)).length ≤ 1
  /-- Exactly one of `dtype` and `format` must be given. -/
  one : d.dtype.isSome = !d.format.isSome
  /-- A type has a known shape, no objects and a positive size. -/
  dtype : ∀ t, d.dtype = some t → none ∉ d.shape ∧ (∀ x ∈ scalars t, x.2.1 ≠ ['O'.toNat]) ∧ 0 < t.itemsize
  /-- A format is not empty, has proper fields, and needs C order. -/
  format : ∀ f, d.format = some f → d.order = .C ∧ f ≠ [] ∧ ∀ x ∈ f, FieldOk x
  /-- The order is "C" or "F". -/
  order : d.order = .C ∨ d.order = .F

mutual
/-- The type has no padding, no overlapping fields and no subarrays of subarrays, and its fields have
different names.  (Unnamed fields do not exist in numpy.) -/
def Packed : Dtype → Prop
  | .scalar _ _ _ => True
  | .array _ b => Packed b ∧ ∀ s b', b ≠ .array s b'
  | .struct fs n => PackedFields fs 0 n ∧ fs.names.Nodup
/-- The fields fill the bytes from `pos` to `size`. -/
def PackedFields : Fields → Nat → Nat → Prop
  | .nil, pos, size => pos = size
  | .cons name off t rest, pos, size => name ≠ [] ∧ off = pos ∧ Packed t ∧ PackedFields rest (pos + t.itemsize) size
end

/-- A descriptor without oddities: sizes are not negative, and a type is packed and not a subarray
(whose dimensions belong in `shape`). -/
structure Plain (d : PyDescriptor) : Prop where
  shape : ∀ x, some x ∈ d.shape → 0 ≤ x
  dtype : ∀ t, d.dtype = some t → Packed t ∧ ∀ s b, t ≠ .array s b

/-- An integer that fits 64 bits. -/
def Fits64 (v : Int) : Prop := -2 ^ 63 ≤ v ∧ v < 2 ^ 63

/-- Every character is ASCII. -/
def Ascii (s : Str) : Prop := ∀ c ∈ s, c < 128

/-- What is read from the packet of a raw descriptor: it is encoded without a failed assertion, and every
receiver that gets the packet (in either packet mode) has a complete heap and reads `raw'`. -/
def Arrives (w bc : Nat) (raw raw' : Descriptor) : Prop :=
  ∃ bytes, encodeDescriptor (8 * w) bc raw = .ok (bytes, true) ∧
    ∃ p, recvPkt? bytes = some (some p) ∧ p.hab = 8 * w ∧
      ∀ ooo, ∃ s items, (LiveHeap.new p).run ooo [p] = some (s, [p]) ∧ s.isComplete = true ∧ s.isContiguous = true ∧
        s.load true = some items ∧ toDescriptor (8 * w) bc items = some raw'

/-- The top-level fields of a type: name, offset and number of bytes. -/
def fieldList : Fields → List (Str × Nat × Nat)
  | .nil => []
  | .cons name off t rest => (name, off, t.itemsize) :: fieldList rest

end Spead2.PyDescr.Spec

namespace Spead2.PyDescr.Spec

mutual
/-- What numpy guarantees for every type: fields have names and lie inside their structure. -/
def WellFormed : Dtype → Prop
  | .scalar _ _ _ => True
  | .array _ b => WellFormed b
  | .struct fs n => WellFormedFields fs n
/-- The same for the fields of a structure of `size` bytes. -/
def WellFormedFields : Fields → Nat → Prop
  | .nil, _ => True
  | .cons name off t rest, size => name ≠ [] ∧ off + t.itemsize ≤ size ∧ WellFormed t ∧ WellFormedFields rest size
end

/-- `t'` can be used instead of `t`: it has the same size and, if `t` is a structure, all fields of `t` at
the same places and with the same sizes. -/
def Extends (t t' : Dtype) : Prop :=
  t'.itemsize = t.itemsize ∧
    ∀ fs n, t = .struct fs n → ∃ fs' n', t' = .struct fs' n' ∧ ∀ x ∈ fieldList fs, x ∈ fieldList fs'

end Spead2.PyDescr.Spec

namespace Spead2.PyDescr.Spec

mutual
/-- The scalars in a description, from left to right. -/
def scalarsD : Descr → List (ByteOrder × Str × Nat)
  | .str o k n => [(o, k, n)]
  | .list l => scalarsDF l
def scalarsDF : DescrFields → List (ByteOrder × Str × Nat)
  | .nil => []
  | .cons _ d _ rest => scalarsD d ++ scalarsDF rest
end

/-- The byte order that PySPEAD 0.5.2 writes for a type: the wrong one. -/
def opposite : ByteOrder → ByteOrder
  | .little => .big
  | .big => .little
  | .none => .none

end Spead2.PyDescr.Spec

import Verif.Model.Descriptor

/-!
# Descriptors in Python

Model of the class `Descriptor` (src/spead2/__init__.py 99-355): what its constructor accepts, and how
`to_raw` and `from_raw` turn it into the raw descriptor that the C++ code sends and back.

A string is a list of code points.  `none` is a raised exception.

Not code of the repository, but needed to say what it does (and part of the trusted base):

* numpy's types (`Dtype`), `dtype_to_descr` (which is `dtype.descr` for a type with fields), the
  constructor `np.dtype(descr)` and `newbyteorder()`, as numpy documents them.  Simplifications: fields
  have no titles, types no metadata; a description is a string or a list of fields (numpy also takes
  tuples and dictionaries); the unit of a time is part of `kind`.
* `repr` and `ast.literal_eval`: parameters (`PyText`), of which the theorems need that the second
  inverts the first.
-/

namespace Spead2.PyDescr

/-- A Python string. -/
abbrev Str := List Nat

/-- The byte order of a numpy type; `none` ("|") for types to which it does not apply. -/
inductive ByteOrder where
  | little | big | none
  deriving DecidableEq, Repr

mutual
/-- A numpy type: a scalar of a kind ("u", "f", "V", …) and a number of bytes, a subarray, or a
structure with its number of bytes. -/
inductive Dtype where
  | scalar (order : ByteOrder) (kind : Str) (size : Nat)
  | array (shape : List Nat) (base : Dtype)
  | struct (fields : Fields) (itemsize : Nat)
  deriving DecidableEq, Repr
/-- The fields of a structure, in order: name, offset and type. -/
inductive Fields where
  | nil
  | cons (name : Str) (offset : Nat) (type : Dtype) (rest : Fields)
  deriving DecidableEq, Repr
end

mutual
/-- What `dtype_to_descr` makes of a type: a string such as "<f4", or a list of fields. -/
inductive Descr where
  | str (order : ByteOrder) (kind : Str) (size : Nat)
  | list (fields : DescrFields)
  deriving DecidableEq, Repr
/-- The fields of a list: name, type and, for a subarray, its shape. -/
inductive DescrFields where
  | nil
  | cons (name : Str) (type : Descr) (shape : Option (List Nat)) (rest : DescrFields)
  deriving DecidableEq, Repr
end

/-- "V": raw bytes without a type. -/
def voidKind : Str := [86]
/-- "O": Python objects. -/
def objectKind : Str := [79]

/-- `dtype.itemsize`. -/
def Dtype.itemsize : Dtype → Nat
  | .scalar _ _ n => n
  | .array s b => s.prod * b.itemsize
  | .struct _ n => n

mutual
/-- `dtype.hasobject`. -/
def Dtype.hasobject : Dtype → Bool
  | .scalar _ k _ => k == objectKind
  | .array _ b => b.hasobject
  | .struct fs _ => fs.hasobject
/-- Some field has objects. -/
def Fields.hasobject : Fields → Bool
  | .nil => false
  | .cons _ _ t rest => t.hasobject || rest.hasobject
end

/-- The other byte order. -/
def ByteOrder.swap : ByteOrder → ByteOrder
  | .little => .big
  | .big => .little
  | .none => .none

mutual
/-- `dtype.newbyteorder()`. -/
def Dtype.newbyteorder : Dtype → Dtype
  | .scalar o k n => .scalar o.swap k n
  | .array s b => .array s b.newbyteorder
  | .struct fs n => .struct fs.newbyteorder n
/-- `newbyteorder` of every field. -/
def Fields.newbyteorder : Fields → Fields
  | .nil => .nil
  | .cons name off t rest => .cons name off t.newbyteorder rest.newbyteorder
end

mutual
/-- The type of a field in `dtype.descr`, and its shape if it is a subarray. -/
def Dtype.elemDescr : Dtype → Option (Descr × Option (List Nat))
  | .scalar o k n => some (.str o k n, none)
  | .array s b =>
    match b.elemDescr with
    | some (d, none) => some (d, some s)
    | _ => none
  | .struct fs n => (fs.descr 0 n).map fun l => (.list l, none)
/-- `dtype.descr` of a structure from byte `pos` on: gaps become unnamed fields of raw bytes, and fields
that overlap or are out of order raise an exception. -/
def Fields.descr : Fields → Nat → Nat → Option DescrFields
  | .nil, pos, size => some (if pos < size then .cons [] (.str .none voidKind (size - pos)) none .nil else .nil)
  | .cons name off t rest, pos, size =>
    if off < pos then none
    else
      match t.elemDescr, rest.descr (off + t.itemsize) size with
      | some (d, s), some r =>
        some (if pos < off then .cons [] (.str .none voidKind (off - pos)) none (.cons name d s r) else .cons name d s r)
      | _, _ => none
end

/-- `np.lib.format.dtype_to_descr`: `dtype.descr` for a type with fields, `dtype.str` for others (which is
that of raw bytes for a subarray). -/
def dtypeToDescr : Dtype → Option Descr
  | .scalar o k n => some (.str o k n)
  | .array s b => some (.str .none voidKind (s.prod * b.itemsize))
  | .struct fs n => (fs.descr 0 n).map .list

/-- The name that numpy gives to unnamed field number `i`: "f0", "f1", … -/
def autoName (i : Nat) : Str := 102 :: (Nat.toDigits 10 i).map Char.toNat

/-- The names of the fields. -/
def Fields.names : Fields → List Str
  | .nil => []
  | .cons name _ _ rest => name :: rest.names

/-- The type of a field of `np.dtype`, from its type without shape and its shape if it is a subarray. -/
def elemType (b : Dtype) (s : Option (List Nat)) : Dtype := match s with | some sh => Dtype.array sh b | none => b

mutual
/-- `np.dtype(descr)`: fields follow each other without gaps, unnamed fields get a name, and names that
occur twice raise an exception. -/
def npDtype : Descr → Option Dtype
  | .str o k n => some (.scalar o k n)
  | .list l =>
    match npFields l 0 0 with
    | some (fs, n) => if fs.names.Nodup then some (.struct fs n) else none
    | none => none
/-- The fields from number `i` on, which starts at byte `pos`, and where they end. -/
def npFields : DescrFields → Nat → Nat → Option (Fields × Nat)
  | .nil, _, pos => some (.nil, pos)
  | .cons name d s rest, i, pos =>
    match npDtype d with
    | none => none
    | some b =>
      match npFields rest (i + 1) (pos + (elemType b s).itemsize) with
      | some (fs, n) => some (.cons (if name = [] then autoName i else name) pos (elemType b s) fs, n)
      | none => none
end

/-- The parameter `order`. -/
inductive Order where
  | C | F | other
  deriving DecidableEq, Repr

/-- A `Descriptor`: the attributes set by the constructor (src/spead2/__init__.py 156-162), which are
also its arguments.  A code of a format is one character. -/
structure PyDescriptor where
  id : Int
  name : Str
  description : Str
  shape : List (Option Int)
  dtype : Option Dtype
  order : Order
  format : Option (List (Nat × Int))
  deriving DecidableEq, Repr

/-- One field of `_parse_format` (src/spead2/__init__.py 231-248): `true` if it is accepted.  The
characters are u, i, f, b and c. -/
def fieldLegal (x : Nat × Int) : Bool :=
  if x.2 ≤ 0 then false
  else if ((x.1 = 117 ∨ x.1 = 105) ∧ (x.2 = 8 ∨ x.2 = 16 ∨ x.2 = 32 ∨ x.2 = 64)) ∨ (x.1 = 102 ∧ (x.2 = 32 ∨ x.2 = 64)) then true
  else if x.1 = 98 ∧ x.2 = 8 then true
  else if x.1 = 99 ∧ x.2 = 8 then true
  else if ¬ (x.1 = 117 ∨ x.1 = 105 ∨ x.1 = 98) then false
  else true

/-- `_parse_format` (src/spead2/__init__.py 219-249): `true` if it returns. -/
def parseFormat (fmt : List (Nat × Int)) : Bool :=
  if fmt.isEmpty then false else fmt.all fieldLegal

/-- `Descriptor.__init__` (src/spead2/__init__.py 131-162). -/
def mkDescriptor (a : PyDescriptor) : Option PyDescriptor :=
  let unknowns := (a.shape.filter Option.isNone).length
  if unknowns > 1 then none
  else
    match a.dtype with
    | some t =>
      if t.hasobject then none
      else if a.format ≠ none then none
      else if t.itemsize = 0 then none
      else if unknowns > 0 then none
      else if a.order = .other then none
      else some a
    | none =>
      match a.format with
      | none => none
      | some f =>
        if a.order ≠ .C then none
        else if parseFormat f then some a
        else none

/-- A Python value that `ast.literal_eval` may give for an entry of the header. -/
inductive Val where
  | bool (b : Bool)
  | ints (l : List Int)
  | descr (d : Descr)
  | other
  deriving DecidableEq, Repr

/-- What `ast.literal_eval` gives: a dictionary (its keys in order) or something else. -/
inductive Lit where
  | dict (l : List (Str × Val))
  | other
  deriving DecidableEq, Repr

/-- "descr" -/
def kDescr : Str := [100, 101, 115, 99, 114]
/-- "fortran_order" -/
def kFortran : Str := [102, 111, 114, 116, 114, 97, 110, 95, 111, 114, 100, 101, 114]
/-- "shape" -/
def kShape : Str := [115, 104, 97, 112, 101]

/-- Python's `repr` and `ast.literal_eval` (`none`: it raises an exception). -/
structure PyText where
  repr : Lit → Str
  eval : Str → Option Lit

/-- `_parse_numpy_header` (src/spead2/__init__.py 176-205): shape, order and type.  The list of sorted keys
is compared with three different ones, so a dictionary passes if it has three entries and has each of the
keys. -/
def parseNumpyHeader (T : PyText) (header : Str) : Option (List Int × Order × Dtype) :=
  match T.eval header with
  | some (.dict l) =>
    if l.length ≠ 3 then none
    else
      match l.lookup kDescr, l.lookup kFortran, l.lookup kShape with
      | some vd, some vf, some vs =>
        match vs with
        | .ints shape =>
          if shape.all (fun x => decide (0 ≤ x)) then
            match vf with
            | .bool f =>
              match vd with
              | .descr d => (npDtype d).map fun t => (shape, if f then Order.F else Order.C, t)
              | _ => none
            | _ => none
          else none
        | _ => none
      | _, _, _ => none
  | _ => none

/-- `_make_numpy_header` (src/spead2/__init__.py 207-215).  A shape with `None` is not possible here. -/
def makeNumpyHeader (T : PyText) (shape : List (Option Int)) (dtype : Dtype) (order : Order) : Option Str :=
  match dtypeToDescr dtype, shape.mapM id with
  | some d, some s => some (T.repr (.dict [(kDescr, .descr d), (kFortran, .bool (order = .F)), (kShape, .ints s)]))
  | _, _ => none

/-- `str.encode("ascii")`. -/
def asciiEncode (s : Str) : Option Bytes :=
  if s.all (fun c => decide (c < 128)) then some (s.map UInt8.ofNat) else none

/-- `bytes.decode("ascii")`. -/
def asciiDecode (b : Bytes) : Option Str :=
  if b.all (fun c => decide (c.toNat < 128)) then some (b.map UInt8.toNat) else none

/-- The conversion of a Python integer to `int64_t` by pybind11. -/
def toInt64 (v : Int) : Option Int := if -2 ^ 63 ≤ v ∧ v < 2 ^ 63 then some v else none

/-- One dimension in the setter of `RawDescriptor.shape` (src/py_common.cpp 353-361). -/
def dimSetter : Option Int → Option Int
  | none => some (-1)
  | some v => toInt64 v

/-- The setter of `RawDescriptor.shape` (src/py_common.cpp 347-364). -/
def shapeSetter (shape : List (Option Int)) : Option (List Int) := shape.mapM dimSetter

/-- The getter of `RawDescriptor.shape` (src/py_common.cpp 336-346). -/
def shapeGetter (shape : List Int) : List (Option Int) :=
  shape.map fun size => if size ≥ 0 then some size else none

/-- The setter of `RawDescriptor.format` (src/py_common.cpp 365): characters become bytes.  Characters
from 128 on are not modelled (they are taken as errors; the constructor accepts none of them). -/
def formatSetter (format : List (Nat × Int)) : Option (List (UInt8 × Int)) :=
  format.mapM fun x => if x.1 < 128 then (toInt64 x.2).map fun n => (UInt8.ofNat x.1, n) else none

/-- The getter of `RawDescriptor.format` (src/py_common.cpp 365): a byte from 128 on is no character. -/
def formatGetter (format : List (UInt8 × Int)) : Option (List (Nat × Int)) :=
  format.mapM fun x => if x.1.toNat < 128 then some (x.1.toNat, x.2) else none

/-- `flavour.bug_compat & BUG_COMPAT_SWAP_ENDIAN` (include/spead2/common_defines.h 57). -/
def bugSwapEndian (bc : Nat) : Bool := bc &&& 4 ≠ 0

/-- `Descriptor.to_raw` (src/spead2/__init__.py 335-355). -/
def toRaw (T : PyText) (bc : Nat) (self : PyDescriptor) : Option Descriptor := do
  let id ← toInt64 self.id
  let name ← asciiEncode self.name
  let description ← asciiEncode self.description
  let shape ← shapeSetter self.shape
  match self.dtype with
  | some t =>
    let dtype := if bugSwapEndian bc then t.newbyteorder else t
    let header ← makeNumpyHeader T self.shape dtype self.order
    let bytes ← asciiEncode header
    return { id := id, name := name, description := description, shape := shape, numpyHeader := bytes }
  | none =>
    let format ← formatSetter (self.format.getD [])
    return { id := id, name := name, description := description, shape := shape, format := format }

/-- `Descriptor.from_raw` (src/spead2/__init__.py 309-333). -/
def fromRaw (T : PyText) (bc : Nat) (raw : Descriptor) : Option PyDescriptor := do
  if raw.numpyHeader ≠ [] then
    let header ← asciiDecode raw.numpyHeader
    let (shape, order, t) ← parseNumpyHeader T header
    let dtype := if bugSwapEndian bc then t.newbyteorder else t
    let name ← asciiDecode raw.name
    let description ← asciiDecode raw.description
    mkDescriptor { id := raw.id, name := name, description := description, shape := shape.map some, dtype := some dtype, order := order, format := none }
  else
    let format ← formatGetter raw.format
    let name ← asciiDecode raw.name
    let description ← asciiDecode raw.description
    mkDescriptor { id := raw.id, name := name, description := description, shape := shapeGetter raw.shape, dtype := none, order := .C, format := some format }

end Spead2.PyDescr

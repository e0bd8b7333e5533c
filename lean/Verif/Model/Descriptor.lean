import Verif.Model.Heap

/-!
# Descriptors

Models src/send_heap.cpp:46-144 (encoding a descriptor as a complete packet) and src/recv_heap.cpp:214-274
(reading it back). Strings are byte sequences. `int64_t`/`uint64_t` conversions are explicit.
-/

namespace Spead2

/-- Conversion of an `int64_t` to `uint64_t`. -/
def toU64 (x : Int) : Nat := (x % 2 ^ 64).toNat
/-- Conversion of a `uint64_t` to `int64_t`. -/
def ofU64 (n : Nat) : Int := if n < 2 ^ 63 then n else n - 2 ^ 64

/-- `struct descriptor` (include/spead2/common_defines.h:100-120). -/
structure Descriptor where
  id : Int := 0
  name : Bytes := []
  description : Bytes := []
  format : List (UInt8 × Int) := []
  shape : List Int := []
  numpyHeader : Bytes := []
  deriving DecidableEq, Repr


/-- Bug compatibility bits (include/spead2/common_defines.h:53-54). -/
def bugWidths (bc : Nat) : Bool := bc &&& 1 ≠ 0
def bugShapeBit (bc : Nat) : Bool := bc &&& 2 ≠ 0

/-- `field_size` of the sender (src/send_heap.cpp:65). -/
def txFieldSize (hab bc : Nat) : Nat := if bugWidths bc then 4 else 8 + 1 - hab / 8
/-- `shape_size` of the sender (src/send_heap.cpp:66). -/
def txShapeSize (hab bc : Nat) : Nat := if bugWidths bc then 8 else 1 + hab / 8

/-- `store_bytes_be` (src/send_heap.cpp:46-52): the bytes, and whether its assertion held. -/
def storeBytesBe (len v : Nat) : Bytes × Bool := (beBytes len v, len = 8 || v < 2 ^ (8 * len))

/-- One format field (src/send_heap.cpp:122-128). -/
def encodeFormat (hab bc : Nat) (f : UInt8 × Int) : Bytes × Bool :=
  let r := storeBytesBe (txFieldSize hab bc - 1) (toU64 f.2)
  (f.1 :: r.1, r.2)

/-- One shape field (src/send_heap.cpp:130-137). -/
def encodeDim (hab bc : Nat) (dim : Int) : Bytes × Bool :=
  let tag : UInt8 := if dim < 0 then (if bugShapeBit bc then 2 else 1) else 0
  let r := storeBytesBe (txShapeSize hab bc - 1) (toU64 (if dim < 0 then 0 else dim))
  (tag :: r.1, r.2)

/-- `encode_descriptor` (src/send_heap.cpp:62-144): the packet, and whether every assertion held; an error
for `invalid_argument`. -/
def encodeDescriptor (hab bc : Nat) (d : Descriptor) : Except Unit (Bytes × Bool) :=
  let fieldSize := txFieldSize hab bc
  let shapeSize := txShapeSize hab bc
  if d.id ≤ 0 ∨ d.id ≥ 2 ^ (8 * 8 - 1 - hab) then .error ()
  else
    let haveNumpy := d.numpyHeader ≠ []
    let nItems := 9 + (if haveNumpy then 1 else 0)
    let payloadSize := d.name.length + d.description.length + d.format.length * fieldSize +
      d.shape.length * shapeSize + d.numpyHeader.length
    let header := (0x5304 <<< 48) ||| ((8 - hab / 8) <<< 40) ||| ((hab / 8) <<< 32) ||| nItems
    let o1 := d.name.length
    let o2 := o1 + d.description.length
    let o3 := o2 + d.format.length * fieldSize
    let o4 := o3 + d.shape.length * shapeSize
    let imms := [(HEAP_CNT_ID, 1), (HEAP_LENGTH_ID, payloadSize), (PAYLOAD_OFFSET_ID, 0), (PAYLOAD_LENGTH_ID, payloadSize),
      (DESCRIPTOR_ID_ID, toU64 d.id)]
    let adrs := [(DESCRIPTOR_NAME_ID, 0), (DESCRIPTOR_DESCRIPTION_ID, o1), (DESCRIPTOR_FORMAT_ID, o2), (DESCRIPTOR_SHAPE_ID, o3)] ++
      (if haveNumpy then [(DESCRIPTOR_DTYPE_ID, o4)] else [])
    let pointers := imms.map (fun x => encodeImmediate hab x.1 x.2) ++ adrs.map (fun x => encodeAddress hab x.1 x.2)
    let fmt := d.format.map (encodeFormat hab bc)
    let shp := d.shape.map (encodeDim hab bc)
    .ok (beBytes 8 header ++ pointers.flatMap (beBytes 8) ++ d.name ++ d.description ++ fmt.flatMap Prod.fst ++
          shp.flatMap Prod.fst ++ d.numpyHeader,
        (imms ++ adrs).all (fun x => encodeAsserts hab x.1 x.2) && fmt.all Prod.snd && shp.all Prod.snd)

/-- The pieces of length `fs` read by the loops at src/recv_heap.cpp:239,250 (`i + field_size <= length`);
the first argument bounds the number of iterations. -/
def fieldChunks {α : Type} (fs : Nat) : Nat → List α → List (List α)
  | 0, _ => []
  | k + 1, d => if fs ≤ d.length then d.take fs :: fieldChunks fs k (d.drop fs) else []

/-- One iteration of the format loop (src/recv_heap.cpp:241-243). -/
def decodeFormat (c : List (Option UInt8)) : Option (UInt8 × Int) :=
  match c with
  | some t :: rest => (loadBytesBe? rest).map (fun v => (t, ofU64 v))
  | _ => none

/-- One iteration of the shape loop (src/recv_heap.cpp:252-255). -/
def decodeDim (bc : Nat) (c : List (Option UInt8)) : Option Int :=
  match c with
  | some t :: rest =>
    if t &&& (if bugShapeBit bc then 2 else 1) ≠ 0 then some (-1) else (loadBytesBe? rest).map ofU64
  | _ => none

/-- One item of `to_descriptor` (src/recv_heap.cpp:220-266). `none`: undefined behaviour. -/
def descriptorStep (hab bc : Nat) (out : Descriptor) (it : RxItem) : Option Descriptor :=
  let immediateSize := hab / 8
  let idSize := 8 - immediateSize
  if it.id = DESCRIPTOR_ID_ID then
    if it.isImm then (loadBytesBe? it.data).map (fun v => { out with id := ofU64 v }) else some out
  else if it.id = DESCRIPTOR_NAME_ID then (it.data.mapM id).map (fun b => { out with name := b })
  else if it.id = DESCRIPTOR_DESCRIPTION_ID then (it.data.mapM id).map (fun b => { out with description := b })
  else if it.id = DESCRIPTOR_FORMAT_ID then
    let fs := if bugWidths bc then 4 else 1 + idSize
    ((fieldChunks fs it.data.length it.data).mapM decodeFormat).map (fun l => { out with format := out.format ++ l })
  else if it.id = DESCRIPTOR_SHAPE_ID then
    let fs := if bugWidths bc then 8 else 1 + immediateSize
    ((fieldChunks fs it.data.length it.data).mapM (decodeDim bc)).map (fun l => { out with shape := out.shape ++ l })
  else if it.id = DESCRIPTOR_DTYPE_ID then (it.data.mapM id).map (fun b => { out with numpyHeader := b })
  else some out

/-- `heap::to_descriptor` (src/recv_heap.cpp:214-274). -/
def toDescriptor (hab bc : Nat) (items : List RxItem) : Option Descriptor :=
  (items.foldlM (descriptorStep hab bc) {}).map (fun out =>
    if out.numpyHeader ≠ [] then { out with shape := [], format := [] } else out)

end Spead2

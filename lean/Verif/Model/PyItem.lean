import Mathlib.Data.Nat.Notation

/-!
# Item values: to_buffer and set_from_raw

Model of the Python code that turns the value of an item into bytes, and the bytes of a received
item into a value (src/spead2/__init__.py).  Arrays are in row-major order; an element is the list of
its fields.  A byte is a natural number below 256.  `none` is a raised exception.

Simplifications: a float is its bit pattern; the conversion of the user's value into a numpy array of
the internal type (`_np.asarray`, 615 and 623) has been done, except on the path for small scalars,
where `asU64` models it; an array with `order = "F"` is listed in the order in which its memory is
laid out, which is the order of both `value.transpose()` (653) and `reshape(…, "F")` (533).
-/

namespace Spead2

/-- The field codes that `_parse_format` accepts (src/spead2/__init__.py 219-249). -/
inductive FieldCode where
  | u | i | b | c | f
  deriving DecidableEq, Repr

/-- One entry of a descriptor's `format`: the code and the number of bits. -/
structure FieldFmt where
  code : FieldCode
  len : Nat
  deriving DecidableEq, Repr

/-- The value of a field: an integer, a boolean, a character (its byte), a float (its bits). -/
inductive PyField where
  | int (v : Int)
  | bool (v : Bool)
  | char (v : Nat)
  | float (v : Nat)
  deriving DecidableEq, Repr

/-- The field types for which `_parse_format` gives a numpy type rather than "O"
(src/spead2/__init__.py 237-244). -/
def FieldFmt.native (x : FieldFmt) : Bool :=
  match x.code with
  | .u => x.len == 8 || x.len == 16 || x.len == 32 || x.len == 64
  | .i => x.len == 8 || x.len == 16 || x.len == 32 || x.len == 64
  | .f => x.len == 32 || x.len == 64
  | .b => x.len == 8
  | .c => x.len == 8

/-- The field types that `_parse_format` does not reject (src/spead2/__init__.py 231-248). -/
def FieldFmt.legal (x : FieldFmt) : Bool :=
  decide (0 < x.len) && (x.native || match x.code with | .u => true | .i => true | .b => true | _ => false)

/-- The type of an element: a numpy dtype of some number of bytes, or a format
(the parameters `dtype` and `format` of `Descriptor`, 131-152). -/
inductive ElemType where
  | dtype (itemsize : Nat)
  | format (fs : List FieldFmt)
  deriving DecidableEq, Repr

/-- The parts of a descriptor that matter for values: `shape` (`none` is a variable dimension) and
the element type (src/spead2/__init__.py 131-162). -/
structure PyDesc where
  shape : List (Option Nat)
  elem : ElemType
  deriving DecidableEq, Repr

/-- The checks of `Descriptor.__init__` (src/spead2/__init__.py 132-155) and `_parse_format` (229-249). -/
def PyDesc.valid (d : PyDesc) : Bool :=
  decide ((d.shape.filter Option.isNone).length ≤ 1) &&
  match d.elem with
  | .dtype n => decide (0 < n) && d.shape.all Option.isSome
  | .format fs => !fs.isEmpty && fs.all FieldFmt.legal

/-- An element of an array: its fields for a format, its bytes (in wire order) for a dtype. -/
inductive PyElem where
  | fields (xs : List PyField)
  | raw (bytes : List Nat)
  deriving DecidableEq, Repr

/-- A numpy array: its shape and its elements in order. -/
structure PyArray where
  shape : List Nat
  data : List PyElem
  deriving DecidableEq, Repr

/-- `itemsize_bits` (src/spead2/__init__.py 251-257). -/
def PyDesc.itemsizeBits (d : PyDesc) : Nat :=
  match d.elem with
  | .dtype n => n * 8
  | .format fs => (fs.map FieldFmt.len).sum

/-- `is_variable_size` (src/spead2/__init__.py 259-261). -/
def PyDesc.isVariableSize (d : PyDesc) : Bool := d.shape.any Option.isNone

/-- `allow_immediate` (src/spead2/__init__.py 263-275). -/
def PyDesc.allowImmediate (d : PyDesc) : Bool :=
  !d.isVariableSize &&
    ((match d.elem with | .dtype _ => true | .format _ => false) || d.itemsizeBits % 8 == 0)

/-- The product of the known dimensions (`known` in `dynamic_shape`, src/spead2/__init__.py 281-288). -/
def knownElements : List (Option Nat) → Nat
  | [] => 1
  | some n :: rest => n * knownElements rest
  | none :: rest => knownElements rest

/-- Replace the variable dimension (src/spead2/__init__.py 289-297). -/
def fillShape (n : Nat) : List (Option Nat) → List Nat
  | [] => []
  | some m :: rest => m :: fillShape n rest
  | none :: rest => n :: fillShape n rest

/-- `dynamic_shape` (src/spead2/__init__.py 277-297). -/
def PyDesc.dynamicShape (d : PyDesc) (maxElements : Nat) : List Nat :=
  let known := knownElements d.shape
  fillShape (if known = 0 then 0 else maxElements / known) d.shape

/-- `compatible_shape` (src/spead2/__init__.py 299-307). -/
def compatibleShape : List (Option Nat) → List Nat → Bool
  | [], [] => true
  | some m :: rest, n :: ns => m == n && compatibleShape rest ns
  | none :: rest, _ :: ns => compatibleShape rest ns
  | _, _ => false

/-- `_shape_elements` (src/spead2/__init__.py 73-77), and `value.size`. -/
def shapeElements : List Nat → Nat
  | [] => 1
  | n :: rest => n * shapeElements rest

/-- The paths that `_fastpath` selects (src/spead2/__init__.py 163-174). -/
inductive FastPath where
  | numpy | immediate | slow
  deriving DecidableEq, Repr

/-- `_fastpath` (src/spead2/__init__.py 163-174): numpy if no field needs "O"; the immediate path for
a scalar integer of less than 64 bits. -/
def PyDesc.fastpath (d : PyDesc) : FastPath :=
  match d.elem with
  | .dtype _ => .numpy
  | .format fs =>
    if fs.all FieldFmt.native then .numpy
    else match d.shape, fs with
      | [], [x] => if (x.code == .u || x.code == .i) && decide (x.len < 64) then .immediate else .slow
      | _, _ => .slow

/-! ## Writing -/

/-- The state of the generator `_write_bits` (src/spead2/__init__.py 415-417). -/
structure BitWriter where
  pos : Nat
  current : Nat
  currentBits : Nat
  array : List Nat
  deriving DecidableEq, Repr

/-- `array[pos] = v` on a `bytearray`: an index or a value out of range raises. -/
def storeByte (array : List Nat) (pos v : Nat) : Option (List Nat) :=
  if pos < array.length ∧ v < 256 then some (array.set pos v) else none

/-- The loop that writes whole bytes (src/spead2/__init__.py 425-429). -/
def BitWriter.drain (s : BitWriter) : Option BitWriter :=
  if h : 8 ≤ s.currentBits then
    match storeByte s.array s.pos (s.current / 2 ^ (s.currentBits - 8)) with
    | none => none
    | some a => BitWriter.drain ⟨s.pos + 1, s.current % 2 ^ (s.currentBits - 8), s.currentBits - 8, a⟩
  else some s
termination_by s.currentBits
decreasing_by omega

/-- `gen.send((value, bits))` (src/spead2/__init__.py 420-429). -/
def BitWriter.send (s : BitWriter) (value : Int) (bits : Nat) : Option BitWriter :=
  if value < 0 ∨ (2 : Int) ^ bits ≤ value then none
  else BitWriter.drain
    { s with current := s.current * 2 ^ bits + value.toNat, currentBits := s.currentBits + bits }

/-- `gen.close()` (src/spead2/__init__.py 430-433): flush a partial byte. -/
def BitWriter.close (s : BitWriter) : Option (List Nat) :=
  if 0 < s.currentBits then storeByte s.array s.pos (s.current * 2 ^ (8 - s.currentBits))
  else some s.array

/-- The raw bits of one field in `_store_recursive` (src/spead2/__init__.py 483-508).
`ord(field)` raises for the character 0, because numpy gives it as an empty string. -/
def storeField (x : FieldFmt) (v : PyField) : Option Int :=
  match x.code, v with
  | .u, .int n => if n < 0 ∨ (2 : Int) ^ x.len ≤ n then none else some n
  | .i, .int n =>
    let top := (2 : Int) ^ (x.len - 1)
    if n < -top ∨ top ≤ n then none else some (if n < 0 then n + 2 * top else n)
  | .b, .bool v => some (if v then 1 else 0)
  | .c, .char n => if n = 0 then none else some (n : Int)
  | .f, .float n => if x.len = 32 ∨ x.len = 64 then some (n : Int) else none
  | _, _ => none

/-- The loop over the fields of an element (src/spead2/__init__.py 482-509). -/
def storeFields : List FieldFmt → List PyField → BitWriter → Option BitWriter
  | x :: xs, v :: vs, s =>
    match storeField x v with
    | none => none
    | some raw =>
      match s.send raw x.len with
      | none => none
      | some s => storeFields xs vs s
  | _, _, s => some s

/-- An element in `_store_recursive` (src/spead2/__init__.py 480-509). -/
def storeElem (fs : List FieldFmt) (e : PyElem) (s : BitWriter) : Option BitWriter :=
  match e with
  | .fields xs => storeFields fs xs s
  | .raw _ => none

/-- `for sub in value: …` with a body on the `k`-th of `n` blocks of `size` elements. -/
def storeBlocks (body : List PyElem → BitWriter → Option BitWriter) (size : Nat) :
    Nat → List PyElem → BitWriter → Option BitWriter
  | 0, _, s => some s
  | n + 1, data, s =>
    match body (data.take size) s with
    | none => none
    | some s => storeBlocks body size n (data.drop size) s

/-- `_store_recursive` (src/spead2/__init__.py 475-509). -/
def storeRecursive (fs : List FieldFmt) : List Nat → List PyElem → BitWriter → Option BitWriter
  | [], data, s =>
    match data with
    | [e] => storeElem fs e s
    | _ => none
  | n :: rest, data, s => storeBlocks (storeRecursive fs rest) (shapeElements rest) n data s

/-- The big-endian bytes of a number. -/
def msbBytes : Nat → Nat → List Nat
  | 0, _ => []
  | n + 1, v => v / 256 ^ n % 256 :: msbBytes n v

/-- The memory of a field with a numpy type (">u2", ">i4", ">f8", "?", "S1"; src/spead2/__init__.py
237-244): big-endian.  A value that does not fit has been rejected or wrapped by numpy already. -/
def nativeBytes (x : FieldFmt) (v : PyField) : Option (List Nat) :=
  match x.code, v with
  | .u, .int n => if 0 ≤ n ∧ n < (2 : Int) ^ x.len then some (msbBytes (x.len / 8) n.toNat) else none
  | .i, .int n =>
    if -(2 : Int) ^ (x.len - 1) ≤ n ∧ n < (2 : Int) ^ (x.len - 1) then
      some (msbBytes (x.len / 8) (n % (2 : Int) ^ x.len).toNat)
    else none
  | .b, .bool v => some [if v then 1 else 0]
  | .c, .char n => if n < 256 then some [n] else none
  | .f, .float n => if n < 2 ^ x.len then some (msbBytes (x.len / 8) n) else none
  | _, _ => none

/-- The memory of an element made of fields with numpy types. -/
def nativeFields : List FieldFmt → List PyField → Option (List Nat)
  | x :: xs, v :: vs =>
    match nativeBytes x v, nativeFields xs vs with
    | some a, some b => some (a ++ b)
    | _, _ => none
  | [], [] => some []
  | _, _ => none

/-- The memory of an element of a numpy array. -/
def elemMemory (t : ElemType) (e : PyElem) : Option (List Nat) :=
  match t, e with
  | .dtype n, .raw bs => if bs.length = n ∧ (∀ b ∈ bs, b < 256) then some bs else none
  | .format fs, .fields xs => nativeFields fs xs
  | _, _ => none

/-- The memory of a numpy array. -/
def arrayMemory (t : ElemType) : List PyElem → Option (List Nat)
  | [] => some []
  | e :: rest =>
    match elemMemory t e, arrayMemory t rest with
    | some a, some b => some (a ++ b)
    | _, _ => none

/-- `_np.asarray(value, dtype=">u8")` of an integer (src/spead2/__init__.py 615): outside the range
of an unsigned 64-bit number it wraps (NumPy 1, or a numpy integer) or raises (a Python integer in
NumPy 2, or one that no 64-bit type can hold). -/
def asU64 (wraps : Bool) (v : Int) : Option Nat :=
  if 0 ≤ v ∧ v < 2 ^ 64 then some v.toNat
  else if wraps = true ∧ -(2 : Int) ^ 63 ≤ v ∧ v < 0 then some (v + 2 ^ 64).toNat
  else none

/-- The low-order bytes of a 64-bit number (src/spead2/__init__.py 618-621). -/
def lowBytes (n v : Nat) : List Nat := (msbBytes 8 v).drop (8 - n)

/-- The sending path for a small scalar (src/spead2/__init__.py 614-621). -/
def immediateBuffer (wraps : Bool) (d : PyDesc) (v : PyArray) : Option (List Nat) :=
  match v.data with
  | [.fields [.int n]] => (asU64 wraps n).map (lowBytes (d.itemsizeBits / 8))
  | _ => none

/-- The slow sending path (src/spead2/__init__.py 634-647). -/
def slowBuffer (d : PyDesc) (fs : List FieldFmt) (v : PyArray) : Option (List Nat) :=
  let bits := d.itemsizeBits * shapeElements v.shape
  match storeRecursive fs v.shape v.data ⟨0, 0, 0, List.replicate ((bits + 7) / 8) 0⟩ with
  | none => none
  | some s => s.close

/-- `to_buffer` with `_transform_value` (src/spead2/__init__.py 583-654). -/
def PyDesc.toBuffer (d : PyDesc) (wraps : Bool) (v : PyArray) : Option (List Nat) :=
  if !compatibleShape d.shape v.shape then none
  else
    match d.fastpath, d.elem with
    | .immediate, .format fs =>
      if d.itemsizeBits % 8 = 0 then immediateBuffer wraps d v else slowBuffer d fs v
    | .slow, .format fs => slowBuffer d fs v
    | _, t => arrayMemory t v.data

/-! ## Transport -/

/-- What `set_from_raw` sees of a received item: is it an immediate, and its bytes
(src/py_recv.cpp 470-483). -/
structure RawItem where
  isImmediate : Bool
  bytes : List Nat
  deriving DecidableEq, Repr

/-- How the bytes of an item arrive: as an immediate of `w` bytes, padded at the head, when the
descriptor allows that and they fit (src/send_packet.cpp 157-162, src/recv_heap.cpp 119-146), and
otherwise unchanged.  That the C++ code does this is C09 and C55; but an item without bytes that is not an immediate does not
arrive at all (C91). -/
def PyDesc.transport (d : PyDesc) (w : Nat) (bytes : List Nat) : RawItem :=
  if d.allowImmediate && decide (bytes.length ≤ w) then
    ⟨true, List.replicate (w - bytes.length) 0 ++ bytes⟩
  else ⟨false, bytes⟩

/-! ## Reading -/

/-- The state of the generator `_read_bits` (src/spead2/__init__.py 393-396). -/
structure BitReader where
  haveBits : Nat
  bits : Nat
  source : List Nat
  deriving DecidableEq, Repr

/-- The loop that fetches bytes (src/spead2/__init__.py 399-404). -/
def BitReader.fetch (need : Nat) (haveBits bits : Nat) : List Nat → Option BitReader
  | [] => if haveBits < need then none else some ⟨haveBits, bits, []⟩
  | b :: rest =>
    if haveBits < need then BitReader.fetch need (haveBits + 8) (bits * 256 + b) rest
    else some ⟨haveBits, bits, b :: rest⟩

/-- `gen.send(need_bits)` (src/spead2/__init__.py 398-407). -/
def BitReader.send (s : BitReader) (need : Nat) : Option (Nat × BitReader) :=
  match BitReader.fetch need s.haveBits s.bits s.source with
  | none => none
  | some s =>
    some (s.bits / 2 ^ (s.haveBits - need), ⟨s.haveBits - need, s.bits % 2 ^ (s.haveBits - need), s.source⟩)

/-- One field in `_load_recursive` (src/spead2/__init__.py 449-469). -/
def loadField (x : FieldFmt) (raw : Nat) : Option PyField :=
  match x.code with
  | .u => some (.int raw)
  | .i => some (.int (if 2 ^ (x.len - 1) ≤ raw then (raw : Int) - 2 ^ x.len else raw))
  | .b => some (.bool (decide (raw ≠ 0)))
  | .c => if raw < 256 then some (.char raw) else none
  | .f => if x.len = 32 ∨ x.len = 64 then some (.float raw) else none

/-- The fields of an element (src/spead2/__init__.py 445-472). -/
def loadFields : List FieldFmt → BitReader → Option (List PyField × BitReader)
  | [], s => some ([], s)
  | x :: xs, s =>
    match s.send x.len with
    | none => none
    | some (raw, s) =>
      match loadField x raw with
      | none => none
      | some v =>
        match loadFields xs s with
        | none => none
        | some (vs, s) => some (v :: vs, s)

/-- `for i in range(n): ans.append(…)` (src/spead2/__init__.py 441-442). -/
def loadBlocks (body : BitReader → Option (List PyElem × BitReader)) :
    Nat → BitReader → Option (List PyElem × BitReader)
  | 0, s => some ([], s)
  | n + 1, s =>
    match body s with
    | none => none
    | some (xs, s) =>
      match loadBlocks body n s with
      | none => none
      | some (ys, s) => some (xs ++ ys, s)

/-- `_load_recursive` (src/spead2/__init__.py 435-473): the elements of the nested lists in order. -/
def loadRecursive (fs : List FieldFmt) : List Nat → BitReader → Option (List PyElem × BitReader)
  | [], s =>
    match loadFields fs s with
    | none => none
    | some (xs, s) => some ([.fields xs], s)
  | n :: rest, s => loadBlocks (loadRecursive fs rest) n s

/-- The shape that `_np.array` gives to nested lists (src/spead2/__init__.py 561): below an empty
list there is nothing from which to tell the remaining dimensions. -/
def listShape : List Nat → List Nat
  | [] => []
  | n :: rest => if n = 0 then [0] else n :: listShape rest

/-- The number that big-endian bytes denote. -/
def msbVal : List Nat → Nat
  | [] => 0
  | b :: rest => b * 256 ^ rest.length + msbVal rest

/-- Fields with numpy types, read from memory. -/
def viewFields : List FieldFmt → List Nat → Option (List PyField)
  | [], [] => some []
  | [], _ :: _ => none
  | x :: xs, bs =>
    match loadField x (msbVal (bs.take (x.len / 8))), viewFields xs (bs.drop (x.len / 8)) with
    | some v, some vs => some (v :: vs)
    | _, _ => none

/-- An element read from memory. -/
def viewElem (t : ElemType) (bs : List Nat) : Option PyElem :=
  match t with
  | .dtype _ => some (.raw bs)
  | .format fs => (viewFields fs bs).map .fields

/-- `array1d.view(dtype)` (src/spead2/__init__.py 528): the memory is cut into elements, and numpy
raises if it does not divide. -/
def viewArray (t : ElemType) (size : Nat) (bs : List Nat) : Option (List PyElem) :=
  if h : bs = [] then some []
  else if hs : size = 0 ∨ bs.length < size then none
  else
    match viewElem t (bs.take size), viewArray t size (bs.drop size) with
    | some e, some es => some (e :: es)
    | _, _ => none
termination_by bs.length
decreasing_by
  have : 0 < bs.length := List.length_pos_iff.mpr h
  simp only [List.length_drop]; omega

/-- `x[-n:]` in Python: the last `n` elements, but everything when `n` is zero. -/
def pySliceLast (n : Nat) (bs : List Nat) : List Nat :=
  if n = 0 then bs else bs.drop (bs.length - n)

/-- The numpy path of `set_from_raw` (src/spead2/__init__.py 513-533). -/
def numpyFromRaw (d : PyDesc) (r : RawItem) : Option PyArray :=
  let size := d.itemsizeBits / 8
  let maxElements := r.bytes.length / size
  let shape := d.dynamicShape maxElements
  let elements := shapeElements shape
  if maxElements < elements then none
  else
    let bs := if r.isImmediate then pySliceLast (elements * size) r.bytes else r.bytes.take (elements * size)
    match viewArray d.elem size bs with
    | none => none
    | some data => if data.length = elements then some ⟨shape, data⟩ else none

/-- The immediate path of `set_from_raw` (src/spead2/__init__.py 534-543). -/
def immediateFromRaw (x : FieldFmt) (r : RawItem) : Option PyArray :=
  let value := msbVal r.bytes
  let top := 2 ^ (x.len - 1)
  some ⟨[], [.fields [.int (if x.code = .i ∧ top ≤ value then (value : Int) - 2 * top else value)]]⟩

/-- The slow path of `set_from_raw` (src/spead2/__init__.py 544-561). -/
def slowFromRaw (d : PyDesc) (fs : List FieldFmt) (r : RawItem) : Option PyArray :=
  let maxElements := r.bytes.length * 8 / d.itemsizeBits
  let shape := d.dynamicShape maxElements
  let elements := shapeElements shape
  if maxElements < elements then none
  else
    let bs := if r.isImmediate then pySliceLast ((elements * d.itemsizeBits + 7) / 8) r.bytes else r.bytes
    match loadRecursive fs shape ⟨0, 0, bs⟩ with
    | none => none
    | some (data, _) => some ⟨listShape shape, data⟩

/-- The conditions of the immediate path (src/spead2/__init__.py 534-538). -/
def immediateApplies (d : PyDesc) (r : RawItem) : Option FieldFmt :=
  match d.fastpath, d.elem with
  | .immediate, .format [x] => if r.isImmediate && r.bytes.length * 8 == x.len then some x else none
  | _, _ => none

/-- `set_from_raw` up to the array (src/spead2/__init__.py 511-561). -/
def PyDesc.fromRaw (d : PyDesc) (r : RawItem) : Option PyArray :=
  match d.fastpath, d.elem with
  | .numpy, _ => numpyFromRaw d r
  | _, .format fs =>
    match immediateApplies d r with
    | some x => immediateFromRaw x r
    | none => slowFromRaw d fs r
  | _, .dtype _ => none

/-- What the user gets: a string or an array (src/spead2/__init__.py 563-569). -/
inductive PyValue where
  | array (a : PyArray)
  | str (bytes : List Nat)
  deriving DecidableEq, Repr

/-- The characters of an array of "S1"; numpy gives the character 0 as an empty string. -/
def joinChars : List PyElem → List Nat
  | [] => []
  | .fields [.char n] :: rest => if n = 0 then joinChars rest else n :: joinChars rest
  | _ :: rest => joinChars rest

/-- One-dimensional arrays of characters are strings (src/spead2/__init__.py 566-568). -/
def PyDesc.isString (d : PyDesc) : Bool := decide (d.shape.length = 1) && d.elem == .format [⟨.c, 8⟩]

/-- `set_from_raw` (src/spead2/__init__.py 511-569).  A string that is not ASCII raises. -/
def PyDesc.setFromRaw (d : PyDesc) (r : RawItem) : Option PyValue :=
  match d.fromRaw r with
  | none => none
  | some a =>
    if d.isString then
      let s := joinChars a.data
      if s.all (· < 128) then some (.str s) else none
    else some (.array a)

/-- The value that a string sends (src/spead2/__init__.py 609-613): an array of its characters. -/
def strArray (s : List Nat) : PyArray := ⟨[s.length], s.map (fun n => .fields [.char n])⟩

end Spead2

import Verif.Model.PyGroup
import Verif.Model.PyDescr
import Verif.Model.Send
import Verif.Model.Mem

/-!
# From an item group in one Python process to an item group in another

The glue between the models of the Python classes (`PyGroup`, `PyItem`, `PyDescr`) and those of the C++ code: how a heap is
filled from a group, and how a group is updated from a received heap.

An exception is `none`, also when it is raised half-way: what a failed call leaves behind is not modelled here.
-/

namespace Spead2.PyWire
open PyDescr

/-- The attributes of a `Descriptor` except `id` and `name` (src/spead2/__init__.py 156-162). -/
structure Rest where
  description : Str
  shape : List (Option Int)
  dtype : Option Dtype
  order : Order
  format : Option (List (Nat × Int))
  deriving DecidableEq, Repr

/-- A name as a sequence of code points. -/
def strOf (n : String) : Str := n.toList.map Char.toNat

/-- And back. -/
def nameOf (s : Str) : String := String.ofList (s.map Char.ofNat)

/-- The descriptor (src/spead2/__init__.py 156-162). -/
def Rest.full (d : Rest) (id : Nat) (name : String) : PyDescriptor where
  id := id
  name := strOf name
  description := d.description
  shape := d.shape
  dtype := d.dtype
  order := d.order
  format := d.format

/-- The attributes of a descriptor (src/spead2/__init__.py 156-162).  Simplification: received ids are not negative (they have less
than 63 bits). -/
def restOf (p : PyDescriptor) : Nat × String × Rest :=
  (p.id.toNat, nameOf p.name, ⟨p.description, p.shape, p.dtype, p.order, p.format⟩)

/-- The code of a field (src/spead2/__init__.py 234-248); characters that `_parse_format` refuses do not get here. -/
def codeOf (c : Nat) : FieldCode :=
  if c = 117 then .u else if c = 105 then .i else if c = 98 then .b else if c = 99 then .c else .f

/-- What matters of a descriptor for values (src/spead2/__init__.py 131-162).  Negative sizes are left to the theorems. -/
def Rest.values (d : Rest) : PyDesc where
  shape := d.shape.map (Option.map Int.toNat)
  elem := match d.dtype with
    | some t => .dtype t.itemsize
    | none => .format ((d.format.getD []).map (fun x => ⟨codeOf x.1, x.2.toNat⟩))

/-- A string is split into an array of characters (src/spead2/__init__.py 611-615). -/
def asArray : PyValue → PyArray
  | .array a => a
  | .str s => strArray s

/-! ### Sending -/

/-- What is added to a heap: a descriptor, or a value. -/
inductive Entry where
  | desc (id : Nat) (name : String) (d : Rest)
  | value (id : Nat) (d : Rest) (v : PyValue)
  deriving DecidableEq, Repr

/-- One item in `add_to_heap` (src/spead2/send/__init__.py 130-140). -/
def addOne (q : PyGen) (dm vm : SendMode) (es : List Entry) (o : Nat) (x : PyItemObj Rest PyValue) : PyGen × List Entry :=
  let (sd, i) := q.decideDesc dm o (q.getInfo x.id o)
  let (sv, i) := decideData vm x i
  ({ q with info := fun k => if k = x.id then some i else q.info k },
    es ++ (if sd then [.desc x.id x.name x.rest] else []) ++ (match sv with | some v => [.value x.id x.rest v] | none => []))

/-- The loop of `add_to_heap` (src/spead2/send/__init__.py 130-140). -/
def addAll (dm vm : SendMode) : List (Nat × PyItemObj Rest PyValue) → PyGen × List Entry → PyGen × List Entry
  | [], s => s
  | (o, x) :: rest, (q, es) => addAll dm vm rest (addOne q dm vm es o x)

/-- `get_heap` (src/spead2/send/__init__.py 99-151). -/
def getHeap (q : PyGen) (g : PyGroup Rest PyValue) (dm vm : SendMode) : PyGen × List Entry :=
  let (q, es) := addAll dm vm g.values (q, [])
  ({ q with cnt := q.cnt + 1 }, es)

/-- What the two sides have in common: Python's `repr` and `ast.literal_eval`, the flavour (`heap_address_bits` is `8 * w`, and the
`bug_compat` bits), and whether numpy lets negative scalars wrap around. -/
structure Setup where
  text : PyText
  w : Nat
  bc : Nat
  wraps : Bool

/-- The item that holds an encoded descriptor (src/send_heap.cpp 152-157). -/
def descItem : Except Unit (Bytes × Bool) → Option SendItem
  | .error _ => none
  | .ok (b, _) => some ⟨DESCRIPTOR_ID, .buffer b false⟩

/-- `heap_wrapper::add_descriptor` (src/py_send.cpp 74-77) with `heap::add_descriptor` (src/send_heap.cpp 152-157). -/
def packDesc (f : Setup) (i : Nat) (n : String) (d : Rest) : Option SendItem :=
  (toRaw f.text f.bc (d.full i n)).bind (fun raw => descItem (encodeDescriptor (8 * f.w) f.bc raw))

/-- `heap_wrapper::add_item` (src/py_send.cpp 63-72). -/
def packValue (f : Setup) (i : Nat) (d : Rest) (v : PyValue) : Option SendItem :=
  (d.values.toBuffer f.wraps (asArray v)).map (fun bs => ⟨i, .buffer (bs.map UInt8.ofNat) d.values.allowImmediate⟩)

/-- What is added to the C++ heap. -/
def pack (f : Setup) : Entry → Option SendItem
  | .desc i n d => packDesc f i n d
  | .value i d v => packValue f i d v

/-- A sender: an `ItemGroup` and a `HeapGenerator` for it (src/spead2/send/__init__.py 65-74). -/
structure Sender where
  grp : PyGroup Rest PyValue
  gen : PyGen

/-- What the user of a sender does: `add_item`, assign to a value, increment a version, `get_heap`. -/
inductive Op where
  | add (id : Option Nat) (name : String) (d : Rest) (v : Option PyValue)
  | set (o : Nat) (v : PyValue)
  | bump (o : Nat)
  | send (dm vm : SendMode)

/-- One call (src/spead2/__init__.py 729-745, 131-162, 380-385; src/spead2/send/__init__.py 99-151).  A heap is what was added to it, and the
items that this made. -/
def Op.run (f : Setup) (s : Sender) : Op → Option (Sender × List (List Entry × List SendItem))
  | .add i n d v =>
    if (mkDescriptor (d.full 0 n)).isNone then none
    else (s.grp.addItem i n d v).map (fun p => ({ s with grp := p.1 }, []))
  | .set o v => some ({ s with grp := s.grp.setValue o v }, [])
  | .bump o => some ({ s with grp := s.grp.bump o }, [])
  | .send dm vm =>
    let (q, es) := getHeap s.gen s.grp dm vm
    (es.mapM (pack f)).map (fun items => ({ s with gen := q }, [(es, items)]))

/-- All calls, and the heaps in order. -/
def runSender (f : Setup) : Sender → List Op → Option (Sender × List (List Entry × List SendItem))
  | s, [] => some (s, [])
  | s, op :: ops =>
    match op.run f s with
    | none => none
    | some (s, hs) => (runSender f s ops).map (fun p => (p.1, hs ++ p.2))

/-- A new sender. -/
def Sender.new (frequency : Option Nat) : Sender := ⟨PyGroup.empty, PyGen.new frequency⟩

/-! ### Receiving -/

/-- `heap.get_descriptors()` and `Item.from_raw` (src/spead2/__init__.py 799-800). -/
def descsOf (f : Setup) (rx : List RxItem) : Option (List (Nat × String × Rest)) :=
  match getDescriptors f.bc rx with
  | none => none
  | some raws => raws.mapM (fun raw => (fromRaw f.text f.bc raw).map restOf)

/-- A raw item, as Python code sees it through the buffer protocol (src/py_recv.cpp 69-105, 478-483). -/
def rawOf (it : RxItem) : Option (Nat × RawItem) := (it.data.mapM id).map (fun b => (it.id, ⟨it.isImm, b.map UInt8.toNat⟩))

/-- `heap.get_items()`: descriptors are left out (src/py_recv.cpp 457-471). -/
def itemsOf (rx : List RxItem) : Option (List (Nat × RawItem)) := (rx.filter (fun it => it.id ≠ DESCRIPTOR_ID)).mapM rawOf

/-- `set_from_raw` (src/spead2/__init__.py 496-569). -/
def decode (d : Rest) (r : RawItem) : Option PyValue := d.values.setFromRaw r

/-- `ItemGroup.update` (src/spead2/__init__.py 776-814). -/
def updateGroup (f : Setup) (g : PyGroup Rest PyValue) (rx : List RxItem) : Option (PyGroup Rest PyValue) :=
  match descsOf f rx, itemsOf rx with
  | some ds, some is =>
    match g.update decode ⟨ds, is⟩ with
    | some (g, false) => some g
    | _ => none
  | _, _ => none

/-- Updating from several heaps, one after the other. -/
def runReceiver (f : Setup) : PyGroup Rest PyValue → List (List RxItem) → Option (PyGroup Rest PyValue)
  | g, [] => some g
  | g, rx :: rest =>
    match updateGroup f g rx with
    | none => none
    | some g => runReceiver f g rest

end Spead2.PyWire

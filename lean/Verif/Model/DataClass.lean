/-!
# Configuration objects made from keyword arguments

`data_class_constructor` (include/spead2/py_common.h 229-247), which is the constructor in Python of `recv.StreamConfig`, `recv.RingStreamConfig`, `recv.ChunkStreamConfig`, `recv.Chunk`, `recv.ChunkStreamGroupConfig`, both classes `UdpIbvConfig` and `send.StreamConfig` (src/py_recv.cpp, src/py_send.cpp).

A class is a table of attributes; an object is the values of its properties.  Each setter changes the value of its own property only, as the setters of these classes do.  Getters are taken not to raise.  `pybind11::cast` of a pointer makes a wrapper that does not own what it points to (`return_value_policy::automatic_reference`), and `py::init` gives the pointer it gets to the new Python object, which does own it; this is from pybind11's documentation, it is not in /repo.
-/

namespace Spead2.DataClass

/-- What a program sees when Python raises. -/
inductive Err where
  | typeError
  | attributeError
  | valueError
  deriving DecidableEq, Repr

/-- An attribute of a class.  `fixed` is everything that cannot be assigned to through an instance: methods, `def_property_readonly`, `def_readonly_static`, nested classes. -/
inductive Attr (Val : Type) where
  | property (default : Val) (set : Val → Except Err Val)
  | fixed

/-- A class registered with `py::class_`: `none` if there is no attribute of that name. -/
abbrev Cls (Val : Type) := String → Option (Attr Val)

/-- The values of the properties of an object, by name. -/
abbrev Obj (Val : Type) := String → Option Val

/-- `new T()`: every property has its default (include/spead2/py_common.h 235). -/
def fresh {Val : Type} (cls : Cls Val) : Obj Val := fun name =>
  match cls name with
  | some (.property d _) => some d
  | _ => none

/-- `pybind11::hasattr` (include/spead2/py_common.h 238). -/
def hasAttr {Val : Type} (cls : Cls Val) (name : String) : Bool := (cls name).isSome

/-- `pybind11::setattr`, and assigning to an attribute from Python (include/spead2/py_common.h 239). -/
def setAttr {Val : Type} (cls : Cls Val) (o : Obj Val) (name : String) (v : Val) : Except Err (Obj Val) :=
  match cls name with
  | some (.property _ set) =>
    match set v with
    | .ok x => .ok (fun n => if n = name then some x else o n)
    | .error e => .error e
  | _ => .error .attributeError

/-- The loop over the keyword arguments (include/spead2/py_common.h 236-245). -/
def assign {Val : Type} (cls : Cls Val) : Obj Val → List (String × Val) → Except Err (Obj Val)
  | o, [] => .ok o
  | o, (key, value) :: rest =>
    if hasAttr cls key then
      match setAttr cls o key value with
      | .ok o' => assign cls o' rest
      | .error e => .error e
    else .error .typeError

/-- The native objects in memory: those owned by a Python object, and those that nothing owns. -/
structure Mem where
  owned : Nat
  lost : Nat
  deriving DecidableEq, Repr

/-- `T(**kwargs)` (include/spead2/py_common.h 233-247).  The object made by `new T()` is owned by nobody until the function returns; an exception leaves it so. -/
def construct {Val : Type} (cls : Cls Val) (m : Mem) (kwargs : List (String × Val)) : Mem × Except Err (Obj Val) :=
  match assign cls (fresh cls) kwargs with
  | .ok o => ({ m with owned := m.owned + 1 }, .ok o)
  | .error e => ({ m with lost := m.lost + 1 }, .error e)

/-- Values used by `ChunkStreamGroupConfig`. -/
inductive Val where
  | int (i : Int)
  | mode (lossless : Bool)
  | other
  deriving DecidableEq, Repr

/-- `recv.ChunkStreamGroupConfig` (src/py_recv.cpp 898-910; src/recv_chunk_stream_group.cpp 32-44; include/spead2/recv_chunk_stream_group.h 43-58, include/spead2/recv_chunk_stream.h 136).  pybind11 raises TypeError for a value that does not convert. -/
def groupConfig : Cls Val := fun name =>
  if name = "max_chunks" then
    some (.property (.int 2) (fun v => match v with
      | .int i => if i < 0 ∨ 18446744073709551616 ≤ i then .error .typeError else if i = 0 then .error .valueError else .ok (.int i)
      | _ => .error .typeError))
  else if name = "eviction_mode" then
    some (.property (.mode false) (fun v => match v with
      | .mode b => .ok (.mode b)
      | _ => .error .typeError))
  else if name = "DEFAULT_MAX_CHUNKS" ∨ name = "EvictionMode" then some .fixed
  else none

end Spead2.DataClass

import Verif.Model.PyItem
import Mathlib.Data.List.Forall2
import Mathlib.Algebra.BigOperators.Group.List.Basic

/-!
# What it means for a value to fit a descriptor, and how SPEAD packs fields

Independent of `to_buffer` and `set_from_raw`.
-/

namespace Spead2.Spec

/-- The `n` low bits of a number, most significant first. -/
def numBits : Nat → Nat → List Bool
  | 0, _ => []
  | n + 1, v => decide (v / 2 ^ n % 2 = 1) :: numBits n v

/-- The bits of a sequence of bytes. -/
def bytesBits (bs : List Nat) : List Bool := bs.flatMap (numBits 8)

/-- The value is one that a field of this type can represent. -/
def InRange (x : FieldFmt) : PyField → Prop
  | .int n =>
    (x.code = .u ∧ 0 ≤ n ∧ n < 2 ^ x.len) ∨ (x.code = .i ∧ -(2 : Int) ^ (x.len - 1) ≤ n ∧ n < 2 ^ (x.len - 1))
  | .bool _ => x.code = .b
  | .char n => x.code = .c ∧ n < 256
  | .float n => x.code = .f ∧ n < 2 ^ x.len

/-- The bits by which SPEAD represents a field: the number itself, in two's complement if it is
negative. -/
def fieldBits (x : FieldFmt) : PyField → List Bool
  | .int n => numBits x.len (n % 2 ^ x.len).toNat
  | .bool v => numBits x.len (if v then 1 else 0)
  | .char n => numBits x.len n
  | .float n => numBits x.len n

/-- The bits of the fields of an element, one after the other. -/
def fieldsBits : List FieldFmt → List PyField → List Bool
  | x :: xs, v :: vs => fieldBits x v ++ fieldsBits xs vs
  | _, _ => []

/-- The bits of an element. -/
def elemBits (t : ElemType) : PyElem → List Bool
  | .fields xs => match t with | .format fs => fieldsBits fs xs | .dtype _ => []
  | .raw bs => bytesBits bs

/-- The bits of the elements of an array, one after the other. -/
def dataBits (t : ElemType) (data : List PyElem) : List Bool := data.flatMap (elemBits t)

/-- An element fits the type. -/
def ElemFits : ElemType → PyElem → Prop
  | .dtype n, .raw bs => bs.length = n ∧ ∀ b ∈ bs, b < 256
  | .format fs, .fields xs => List.Forall₂ InRange fs xs
  | _, _ => False

/-- A shape fits the shape of a descriptor, in which `none` stands for any size. -/
def ShapeFits (ds : List (Option Nat)) (s : List Nat) : Prop :=
  List.Forall₂ (fun o n => o = none ∨ o = some n) ds s

/-- A value that the descriptor describes: the shape fits, and every element is in range. -/
structure ValueFits (d : PyDesc) (v : PyArray) : Prop where
  shape : ShapeFits d.shape v.shape
  data : v.data.length = v.shape.prod
  elems : ∀ e ∈ v.data, ElemFits d.elem e

end Spead2.Spec

namespace Spead2.Spec

/-- What a user who sent `v` expects to see: a string for a one-dimensional array of characters, and
otherwise the array itself. -/
def Expected (d : PyDesc) (v : PyArray) (x : PyValue) : Prop :=
  if d.shape.length = 1 ∧ d.elem = .format [⟨.c, 8⟩] then ∃ s, v = strArray s ∧ x = .str s else x = .array v

/-- The values that survive.  Each line excludes one of the ways in which the code loses a value. -/
structure Regular (d : PyDesc) (v : PyArray) (wraps : Bool) : Prop where
  /-- in a shape with a variable dimension, one step of that dimension takes at least a byte -/
  row : none ∈ d.shape → 8 ≤ d.itemsizeBits * knownElements d.shape
  /-- a fixed-size value of a numpy type is not empty -/
  nonempty : d.fastpath = .numpy → none ∉ d.shape → 0 < v.shape.prod
  /-- a value of another type is not empty in any but its last dimension -/
  inner : d.fastpath ≠ .numpy → ∀ i : Nat, v.shape[i]? = some 0 → i + 1 = v.shape.length
  /-- it has no NUL character -/
  nul : d.fastpath ≠ .numpy → ∀ xs, PyElem.fields xs ∈ v.data → PyField.char 0 ∉ xs
  /-- numpy converts a negative scalar to an unsigned one, or there is none to convert -/
  sign : d.fastpath = .immediate → d.itemsizeBits % 8 = 0 → wraps = true ∨
    ∀ n : Int, v.data = [.fields [.int n]] → 0 ≤ n
  /-- a string is ASCII, without NUL -/
  ascii : d.shape.length = 1 → d.elem = .format [⟨.c, 8⟩] → ∀ n, PyElem.fields [.char n] ∈ v.data → 0 < n ∧ n < 128

end Spead2.Spec

import Verif.Model.VerifyTool
import Verif.Props.EndToEnd

/-!
# What `--verify` should check
-/

namespace Spead2.VerifyTool

/-- The random number at a position of the sequence, from 0 on: the powers of 48271 modulo the prime 2^31 - 1. -/
def random (p : Nat) : Nat := 48271 ^ (p + 1) % (2 ^ 31 - 1)

/-- `n` random numbers from position `start` on, as big-endian numbers of 4 bytes. -/
def numbers (start n : Nat) : Bytes := (List.range n).flatMap fun k => beBytes 4 (random (start + k))

/-- The items of the heap with number `i` (from 0 on): the sequence is cut into items of `elements` numbers, and these into heaps. -/
def heapData (elements items i : Nat) : List Bytes := (List.range items).map fun j => numbers ((i * items + j) * elements) elements

/-- The received items with data. -/
def dataOf (items : List RxItem) : List RxItem := items.filter fun it => 0x1000 ≤ it.id

/-- The items hold `elements` numbers each, and these follow each other from position `start` on. -/
def Holds (start elements : Nat) (l : List RxItem) : Prop := ∀ j it, l[j]? = some it → it.data = (numbers (start + j * elements) elements).map some

/-- All bytes of the items with data are there. -/
def Defined (items : List RxItem) : Prop := ∀ it ∈ dataOf items, ∃ b : Bytes, it.data = b.map some

/-- A report that is true: an item with this id has a length that is not as in the first one, or a number that differs from the expected one. -/
def TrueReport (items : List RxItem) (elements : Nat) : Verdict → Prop
  | .inconsistent id => ∃ it ∈ dataOf items, it.id = id ∧ it.data.length ≠ elements * 4
  | .mismatch id offset expected actual => ∃ it ∈ dataOf items, it.id = id ∧ offset < elements ∧ word it.data offset = some actual ∧ actual ≠ expected
  | _ => False

/-- A receiver has got all packets of a heap, in some order and perhaps several times, and `s` is the heap that it made of them and `items` are its items. -/
def Received (h : SendHeap) (cnt mps : Nat) (s : LiveHeap) (items : List RxItem) : Prop :=
  ∃ pkts ds ps p0 acc, Sends h cnt mps pkts ∧ Carried pkts ds ∧ ds.map recvPkt? = ps.map (fun p => some (some p)) ∧ p0 ∈ ps ∧
    (LiveHeap.new p0).run true ps = some (s, acc) ∧ s.load true = some items

end Spead2.VerifyTool

import Verif.Model.RecvTool

/-! # What users expect of the receiving tools -/

namespace Spead2.RecvTool

/-- The number of streams: one with `--joint`, else one for each source. -/
def numStreams (o : Opts) (sources : Nat) : Nat := if o.joint then 1 else sources

/-- The heaps that stream `i` passes on before it stops. -/
def passed : List Ev → Nat → List HeapIn
  | [], _ => []
  | .heap j h :: es, i => if j = i then h :: passed es i else passed es i
  | .stop j :: es, i => if j = i then [] else passed es i

/-- The complete ones of all `n` streams. -/
def completeHeaps (n : Nat) (es : List Ev) : List HeapIn := (List.range n).flatMap fun i => (passed es i).filter fun h => h.complete

/-- Every one of the `n` streams stops. -/
def AllStop (n : Nat) (es : List Ev) : Prop := ∀ i < n, Ev.stop i ∈ es

/-- `c` is what comes of `a` and `b` at the same time. -/
inductive Shuffle {α : Type} : List α → List α → List α → Prop
  | nil : Shuffle [] [] []
  | left {x : α} {a b c : List α} : Shuffle a b c → Shuffle (x :: a) b (x :: c)
  | right {x : α} {a b c : List α} : Shuffle a b c → Shuffle a (x :: b) (x :: c)

/-- How the numbers of a heap should appear: its number and lengths in decimal, identifiers and values in hexadecimal. -/
def intended (cnt : Nat) (items : List ItemOut) : List (Nat × Bool) :=
  (cnt, false) :: items.flatMap fun x => (x.id, true) :: (x.length, false) :: (match x.imm with | some v => [(v, true)] | none => [])

/-- The heaps before the stream stops. -/
def heapsOf : List PyEv → List PyHeap
  | [] => []
  | .stopped :: _ => []
  | .heap h :: es => h :: heapsOf es

/-- The heaps the tool should take: no more than `--max-heaps`. -/
def wantedHeaps (o : PyOpts) (es : List PyEv) : List PyHeap :=
  match o.maxHeaps with
  | some m => if 0 ≤ m then (heapsOf es).take m.toNat else heapsOf es
  | none => heapsOf es

def PyLine.isGot : PyLine → Bool
  | .got _ => true
  | _ => false

def PyLine.isDescr : PyLine → Bool
  | .descr _ => true
  | _ => false

def PyLine.isSummary : PyLine → Bool
  | .summary _ => true
  | _ => false

end Spead2.RecvTool

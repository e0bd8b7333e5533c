import Verif.Model.ChunkWindow

/-!
# Specification of the chunk window
-/

namespace Spead2.Spec

/-- The chunks handed over, in order. -/
def readied (ev : List WinEv) : List Chunk := ev.filterMap (fun | .ready c => some c | _ => none)

/-- The values reported as new head, in order. -/
def headsOf (ev : List WinEv) : List Nat := ev.filterMap (fun | .head n => some n | _ => none)

/-- The ids for which chunks were requested from the user, in order. -/
def requested (ev : List WinEv) : List Nat := ev.filterMap (fun | .alloc n _ => some n | _ => none)

/-- The chunks that the user supplied, in order: those requests for which `alloc` holds, with the ids they must carry. -/
def supplied (alloc : Nat → Bool) (ev : List WinEv) : List Chunk :=
  ev.filterMap (fun | .alloc n s => if alloc n then some ⟨n, n, s⟩ else none | _ => none)

/-- The ids from `a` up to but excluding `b`. -/
def idsFrom (a b : Nat) : List Nat := List.range' a (b - a)

/-- The chunks in the window, by increasing id. -/
def inWindow (w : Window) : List Chunk := (idsFrom w.headChunk w.tailChunk).filterMap (fun i => (w.get i).join)

/-- What callers guarantee: ids of chunks are non-negative 64-bit integers, targets are unsigned 64-bit integers. -/
def _root_.Spead2.WinOp.Valid : WinOp → Prop
  | .get id _ => id < 2 ^ 63
  | .until t => t < 2 ^ 64
  | .all => True

end Spead2.Spec

import Verif.Model.PyPlace

/-! # What users expect of place callbacks that are set from Python -/

namespace Spead2.PyPlace

/-- Objects that have not been destroyed: those that the program, a config or a stream refers to, and what is in them. -/
inductive Alive (s : St) : Nat → Prop
  | var (x : Nat) : x ∈ s.vars → Alive s x
  | config (c : Callback) : some c ∈ s.configs → Alive s c.obj
  | stream (c : Callback) : some c ∈ s.streams → Alive s c.obj
  | inTuple (c x : Nat) (xs : List Nat) : Alive s c → s.heap[c]? = some (.tuple xs) → x ∈ xs → Alive s x
  | inList (c x : Nat) (xs : List Nat) : Alive s c → s.heap[c]? = some (.list xs) → x ∈ xs → Alive s x

/-- The object is a tuple or other iterable that starts with the capsule `c`. -/
def StartsWith (h : Heap) (x c : Nat) : Prop := ∃ rest, h[x]? = some (.tuple (c :: rest)) ∨ h[x]? = some (.list (c :: rest))

/-- A capsule with a function of signature `sig`. -/
def FunctionOf (h : Heap) (c f : Nat) (sig : String) (ctx : Nat) : Prop := h[c]? = some (.capsule f (some sig) ctx) ∧ f ≠ 0

/-- The arguments for a function of signature `sig`. -/
def ArgumentsFor (sig : String) (ctx d n : Nat) (args : List Nat) : Prop :=
  (sig = "void (void *, size_t)" ∧ args = [d, n]) ∨ (sig = "void (void *, size_t, void *)" ∧ args = [d, n, ctx])

/-- The object that was set as place callback of stream `j`. -/
def placeOf (s : St) (j : Nat) : Option Nat := ((s.streams[j]?).getD none).map (·.obj)

def Plat.Good (p : Plat) : Prop := 0 < p.word ∧ 0 < p.align64

/-- Fields follow each other without overlap, each at a multiple of its alignment. -/
def WellPlaced (off : Nat) : List Field → Prop
  | [] => True
  | f :: fs => off ≤ f.off ∧ f.align ∣ f.off ∧ WellPlaced (f.off + f.size) fs

end Spead2.PyPlace

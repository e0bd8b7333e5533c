import Verif.Model.PyTool

/-!
# What `send_asyncio.py` should do
-/

namespace Spead2.PyTool

section
variable {D V R : Type}

/-- The history is possible, and leads to a state. -/
def Reach (c : Cfg D V R) (evs : List Ev) (s : St D R) : Prop := run c (St.init c) evs = some s

/-- A configuration that the program accepts: the constructor of the stream rejects an empty window and no destinations, and `add_item` gives items different ids. -/
structure Valid (c : Cfg D V R) : Prop where
  window : 0 < c.maxHeaps
  dests : 0 < c.dests
  ids : (c.group.values.map (fun e => e.2.id)).Nodup

/-- All descriptors of the group. -/
def allDescs (g : PyGroup D V) : List (Nat × String × D) := g.values.map (fun e => (e.2.id, e.2.name, e.2.rest))

/-- All values of the group. -/
def allItems (c : Cfg D V R) : List (Nat × R) := c.group.values.filterMap (fun e => e.2.value.map (fun v => (e.2.id, c.enc e.2.rest v)))

/-- Whether the data heap with a number has descriptors: the first heap of each substream does; then every `f`-th heap, counted from the last of these. -/
def hasDescs (c : Cfg D V R) (i : Nat) : Bool :=
  decide (i < c.dests) ||
  match c.freq with
  | none => false
  | some f => f == 0 || (i + 1 - c.dests) % f == 0

/-- The heap with a number: its substream, and its contents. -/
def expected (c : Cfg D V R) (i : Nat) : Nat × Made D R :=
  (i % c.dests, if c.isEnd i then .final else .data ⟨if hasDescs c i then allDescs c.group else [], allItems c⟩)

/-- The bytes that were sent by a heap with an outcome. -/
def okBytes : Option Outcome → Nat
  | some (.ok n) => n
  | _ => 0

/-- The error, if it is one. -/
def errOf : Option Outcome → Option Err
  | some (.error e) => some e
  | _ => none

/-- The program's steps that are left, for a program that ends. -/
def St.left (total : Nat) (s : St D R) : Nat :=
  3 * (total - s.i) + s.tasks.length + (match s.phase with | .top => 2 | .make => 1 | .drain => 1 | .finished => 0)

/-- Program steps of a history. -/
def Ev.isProg : Ev → Bool
  | .prog => true
  | _ => false

end

end Spead2.PyTool
